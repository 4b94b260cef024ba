import Verif.Lemmas.ModalProgram
import Verif.Props.DWREigen

/-! # Property C168: the modal analysis of the example program -/

namespace Verif.ModalProgram

open V3 Verif.Geometry Verif.Variation Verif.DWR RealInnerProductSpace Spec.ModalProgram Spec.BucklingProgram
open Verif.Balance (vsum)
open Verif.BucklingProgram

variable {α : Type} {n N : ℕ} {D : EigSetup α}

theorem solved_dense {spectra : Bool} {φ : Fin n → α → EigFld} {vec : Fin n → EuclideanSpace ℝ (Fin n)} {val : Fin n → ℝ}
    (h : Solved spectra D φ vec val) (hK : spectra = true → Stiff (stiff D φ)) : Dense (stiff D φ) (mass D φ) vec val := by
  cases spectra with
  | false => simpa [Solved] using h
  | true =>
    have h' : Shifted (stiff D φ) (mass D φ) vec val := by simpa [Solved] using h
    exact shifted_is_dense h' (hK rfl)

/-- **C168** The solvers have something to return: a shell with symmetric moduli and a basis in which every field has
kinetic energy. -/
theorem C168_exists {φ : Fin n → α → EigFld}
    (hs : ∀ q, Spec.System.Symmetric ⟨(D.pt q).mm.1, (D.pt q).mm.2.1, (D.pt q).mm.2.2.1, (D.pt q).mm.2.2.2, 0, 0⟩)
    (hm : ∀ c, c ≠ 0 → 0 < formM D (comb φ c) (comb φ c)) :
    ∃ vec val, Solved false D φ vec val := by
  have hsym : ∀ u v : α → EigFld, formA D u v = formA D v u := fun u v => by
    rw [formA, formA]
    congr 1
    funext q
    have := System.integrand_symm (D.pt q).ori (u q).d (v q).d _ (hs q)
    simpa [System.integrand] using this
  obtain ⟨vec, val, h⟩ := exists_dense (A := stiff D φ) (B := mass D φ) (n := n)
    (fun x y => by rw [stiff_form, stiff_form, hsym]) (fun x y => by rw [mass_form, mass_form, formM_symm])
    (fun v hv => by rw [mass_form]; exact hm v hv) (by simp)
  exact ⟨vec, val, by simpa [Solved] using h⟩

/-- **C168** The values are the extreme quotients of elastic and kinetic energy, in both builds: value number `i` is the
least number that bounds the quotients of some space of `i + 1` independent fields.  So the values do not depend on the
solver. -/
theorem C168_minmax {spectra : Bool} {φ : Fin n → α → EigFld} {vec : Fin n → EuclideanSpace ℝ (Fin n)}
    {val : Fin n → ℝ} (h : Solved spectra D φ vec val) (hK : spectra = true → Stiff (stiff D φ)) (i : Fin n) :
    MinMax (fun c : EuclideanSpace ℝ (Fin n) => formA D (comb φ c) (comb φ c))
      (fun c => formM D (comb φ c) (comb φ c)) i.val (val i) ∧
    ∀ lam, MinMax (fun c : EuclideanSpace ℝ (Fin n) => formA D (comb φ c) (comb φ c))
      (fun c => formM D (comb φ c) (comb φ c)) i.val lam → lam = val i := by
  have hd := solved_dense h hK
  have := min_max hd i
  simp only [stiff_form, mass_form] at this
  refine ⟨this, fun lam hl => min_max_unique (fun v hv => ?_) hl this⟩
  rw [← mass_form]
  exact stiff_of hd.dim hd.orth v hv

/-- **C168** All squared frequencies are positive exactly if every field costs energy. -/
theorem C168_positive {φ : Fin n → α → EigFld} {vec : Fin n → EuclideanSpace ℝ (Fin n)} {val : Fin n → ℝ}
    (h : Solved false D φ vec val) : (∀ i, 0 < val i) ↔ ∀ c, c ≠ 0 → 0 < formA D (comb φ c) (comb φ c) := by
  have := dense_positive (solved_dense h (by simp))
  simpa only [Stiff, stiff_form] using this

/-- **C168** A finer basis gives lower frequencies, for every mode. -/
theorem C168_refine {spectra : Bool} {ψ : Fin n → α → EigFld} {φ : Fin N → α → EigFld} (hn : Nested ψ φ)
    {vecL : Fin n → EuclideanSpace ℝ (Fin n)} {valL : Fin n → ℝ} {vecH : Fin N → EuclideanSpace ℝ (Fin N)}
    {valH : Fin N → ℝ} (hL : Solved spectra D ψ vecL valL) (hH : Solved spectra D φ vecH valH)
    (kL : spectra = true → Stiff (stiff D ψ)) (kH : spectra = true → Stiff (stiff D φ)) {m : Fin n} {m' : Fin N}
    (hm : m'.val = m.val) : valH m' ≤ valL m := by
  obtain ⟨J, hJ⟩ := nested_map hn
  exact nested_le (solved_dense hL kL) (solved_dense hH kH) J
    (fun v => by rw [stiff_form, stiff_form, hJ]) (fun v => by rw [mass_form, mass_form, hJ]) hm

/-- **C168** (partial: the row is missing when the two modes are orthogonal.)  For nested bases the printed estimate of
the error is exactly the difference of the two values, it is not positive, and the printed estimate of the goal is the
value of the finer basis.  There is no row exactly if the mode of the coarse basis is orthogonal to the mode of the
same number of the finer basis. -/
theorem C168_estimate_partial {spectra : Bool} {ψ : Fin n → α → EigFld} {φ : Fin N → α → EigFld} (hn : Nested ψ φ)
    {vecL : Fin n → EuclideanSpace ℝ (Fin n)} {valL : Fin n → ℝ} {vecH : Fin N → EuclideanSpace ℝ (Fin N)}
    {valH : Fin N → ℝ} (hL : Solved spectra D ψ vecL valL) (hH : Solved spectra D φ vecH valH)
    (kL : spectra = true → Stiff (stiff D ψ)) (kH : spectra = true → Stiff (stiff D φ)) {m : Fin n} {m' : Fin N}
    (hm : m'.val = m.val) :
    (formM D (comb ψ (vecL m)) (comb φ (vecH m')) = 0 → row D ψ φ (vecL m) (valL m) (vecH m') (valH m') = none) ∧
    (formM D (comb ψ (vecL m)) (comb φ (vecH m')) ≠ 0 →
      row D ψ φ (vecL m) (valL m) (vecH m') (valH m') = some ⟨valL m, valH m' - valL m, valH m'⟩) ∧
    valH m' - valL m ≤ 0 := by
  have dL := solved_dense hL kL
  have dH := solved_dense hH kH
  obtain ⟨J, hJ⟩ := nested_map hn
  have h1 : ⟪mass D ψ (vecL m), vecL m⟫ = 1 := by rw [dL.orth, if_pos rfl]
  have h2 : formM D (comb ψ (vecL m)) (comb ψ (vecL m)) = 1 := by rw [← mass_form, h1]
  have e1 : ∀ z : α → EigFld, normModal D (comb ψ (vecL m)) z = formM D (comb ψ (vecL m)) z :=
    fun z => (C99_norm D _ z).1
  refine ⟨fun h0 => ?_, fun h0 => ?_, by linarith [C168_refine hn hL hH kL kH hm]⟩
  · simp only [row, h1, div_one, one_smul, e1, h2, h0, if_true]
    simp
  · simp only [row, h1, div_one, one_smul, e1, h2, h0, if_false, one_ne_zero]
    set t := formM D (comb ψ (vecL m)) (comb φ (vecH m')) with ht
    have k1 : formA D (comb ψ (vecL m)) (comb ψ (vecL m)) = valL m * formM D (comb ψ (vecL m)) (comb ψ (vecL m)) := by
      rw [← stiff_form, ← mass_form, dL.pair, real_inner_smul_left]
    have k2 : formA D (comb φ ((1 / t) • vecH m')) (comb ψ (vecL m))
        = valH m' * formM D (comb φ ((1 / t) • vecH m')) (comb ψ (vecL m)) := by
      rw [hJ, ← stiff_form, ← mass_form, real_inner_smul_right, real_inner_smul_right,
        inner_pair dH.dim dH.pair dH.orth]
      ring
    have k3 : formM D (comb φ ((1 / t) • vecH m')) (comb ψ (vecL m)) = 1 := by
      rw [comb_smul, formM_symm, ← ht, one_div_mul_cancel h0]
    have := C99_exact_partial D (comb ψ (vecL m)) (comb ψ (vecL m)) (comb φ ((1 / t) • vecH m')) (valL m) (valH m')
      ⟨0, []⟩ k1 k2 h2
    rw [k3, mul_one] at this
    rw [this]
    simp

/-! ## Double frequencies -/

/-- A point of a membrane with the unit matrix as moduli. -/
noncomputable def square : EigSetup Unit :=
  ⟨[[()]], fun _ => 1, fun _ => ⟨bent 0, bent 0, (fun i j => if i = j then 1 else 0, fun _ _ => 0, fun _ _ => 0,
    fun _ _ => 0), mm0, fun _ => 0, fun _ => 0, 1⟩⟩

/-- A motion along an axis with a strain. -/
def motion (w : V3) (a0 a1 : V3) : Unit → EigFld := fun _ => ⟨w, ⟨![a0, a1], 0, 0, 0⟩, ⟨![a0, a1], 0, 0, 0⟩⟩

/-- Three motions. -/
def fine : Fin 3 → Unit → EigFld :=
  ![motion ⟨1, 0, 0⟩ ⟨1, 0, 0⟩ 0, motion ⟨0, 1, 0⟩ 0 ⟨0, 1, 0⟩, motion ⟨0, 0, 1⟩ ⟨0, 1, 0⟩ 0]

/-- The first two of them. -/
def coarse : Fin 2 → Unit → EigFld := ![motion ⟨1, 0, 0⟩ ⟨1, 0, 0⟩ 0, motion ⟨0, 1, 0⟩ 0 ⟨0, 1, 0⟩]

theorem entries_id {e : Fin n → Fin n → ℝ} (h : ∀ i j, e i j = if i = j then 1 else 0) (v : EuclideanSpace ℝ (Fin n)) :
    LoadedShell.ofEntries e v = v := by
  ext i
  rw [LoadedShell.ofEntries_apply]
  simp [h]

theorem unit_dense {A B : EuclideanSpace ℝ (Fin n) →L[ℝ] EuclideanSpace ℝ (Fin n)} (hA : ∀ v, A v = v)
    (hB : ∀ v, B v = v) (σ : Equiv.Perm (Fin n)) :
    Dense A B (fun i => EuclideanSpace.single (σ i) 1) fun _ => 1 := by
  refine ⟨by simp, fun i => by rw [hA, hB, one_smul], fun i j => ?_, fun _ _ _ => le_refl _⟩
  rw [hB, EuclideanSpace.inner_single_left]
  by_cases h : i = j
  · simp [h]
  · simp [h]

theorem square_integral (f : Unit → ℝ) : integral square f = f () := by
  simp [integral, square, bent_measure]

theorem square_lin (u v : Surf) : linStiffness (square.pt ()).ori u v (square.pt ()).mm.1 (square.pt ()).mm.2.1
    (square.pt ()).mm.2.2.1 (square.pt ()).mm.2.2.2 = dotV (EmDer (bent 0) u) (EmDer (bent 0) v) := by
  simp [linStiffness, square, dotV, rowMul]

theorem fine_stiff (v) : stiff square fine v = v := by
  refine entries_id (fun i j => ?_) v
  rw [square_integral, square_lin]
  rcases fin3_cases i with rfl | rfl | rfl <;> rcases fin3_cases j with rfl | rfl | rfl <;>
    simp [fine, motion, dotV, EmDer, bent, dot, Fin.sum_univ_three]

theorem fine_mass (v) : mass square fine v = v := by
  refine entries_id (fun i j => ?_) v
  rw [square_integral]
  rcases fin3_cases i with rfl | rfl | rfl <;> rcases fin3_cases j with rfl | rfl | rfl <;>
    simp [fine, motion, square, dot]

theorem coarse_stiff (v) : stiff square coarse v = v := by
  refine entries_id (fun i j => ?_) v
  rw [square_integral, square_lin]
  rcases fin2_cases i with rfl | rfl <;> rcases fin2_cases j with rfl | rfl <;>
    simp [coarse, motion, dotV, EmDer, bent, dot, Fin.sum_univ_three]

theorem coarse_mass (v) : mass square coarse v = v := by
  refine entries_id (fun i j => ?_) v
  rw [square_integral]
  rcases fin2_cases i with rfl | rfl <;> rcases fin2_cases j with rfl | rfl <;>
    simp [coarse, motion, square, dot]

theorem coarse_nested : Nested coarse fine := by
  intro k
  refine ⟨EuclideanSpace.single (Fin.castLE (by norm_num) k) 1, funext fun q => ?_⟩
  have hv : ∀ x : Fin 3 → V3, (vsum Finset.univ fun i =>
      (EuclideanSpace.single (Fin.castLE (by norm_num : 2 ≤ 3) k) (1 : ℝ) : EuclideanSpace ℝ (Fin 3)) i • x i)
        = x (Fin.castLE (by norm_num) k) := by
    intro x
    ext
    · simp only [vsum, smul_x, PiLp.single_apply, ite_mul, one_mul, zero_mul, Finset.sum_ite_eq', Finset.mem_univ,
        if_true]
    · simp only [vsum, smul_y, PiLp.single_apply, ite_mul, one_mul, zero_mul, Finset.sum_ite_eq', Finset.mem_univ,
        if_true]
    · simp only [vsum, smul_z, PiLp.single_apply, ite_mul, one_mul, zero_mul, Finset.sum_ite_eq', Finset.mem_univ,
        if_true]
  unfold comb
  simp only [hv]
  rcases fin2_cases k with rfl | rfl <;> rfl

theorem solved_of {spectra : Bool} {φ : Fin n → α → EigFld} {vec : Fin n → EuclideanSpace ℝ (Fin n)} {val : Fin n → ℝ}
    (h : Dense (stiff D φ) (mass D φ) vec val) (hp : ∀ i, 0 ≤ val i) : Solved spectra D φ vec val := by
  cases spectra with
  | false => simpa [Solved] using h
  | true =>
    have : Shifted (stiff D φ) (mass D φ) vec val :=
      ⟨h.dim, h.pair, h.orth, fun i j hij => by rw [abs_of_nonneg (hp i), abs_of_nonneg (hp j)]; exact h.sorted hij⟩
    simpa [Solved] using this

theorem fine_solved (spectra : Bool) (σ : Equiv.Perm (Fin 3)) :
    Solved spectra square fine (fun i => EuclideanSpace.single (σ i) 1) fun _ => 1 :=
  solved_of (unit_dense fine_stiff fine_mass σ) fun _ => zero_le_one

theorem coarse_solved (spectra : Bool) :
    Solved spectra square coarse (fun i => EuclideanSpace.single i 1) fun _ => 1 :=
  solved_of (unit_dense coarse_stiff coarse_mass (Equiv.refl _)) fun _ => zero_le_one

theorem overlap (k : Fin 2) (i : Fin 3) : formM square (comb coarse (EuclideanSpace.single k 1))
    (comb fine (EuclideanSpace.single i 1)) = if i.val = k.val then 1 else 0 := by
  have h : ∀ u v : Unit → EigFld, formM square u v = dot (u ()).w (v ()).w := fun u v => by
    rw [formM, ← integral_eq, square_integral]; simp [square, dot]
  rw [h]
  rcases fin2_cases k with rfl | rfl <;> rcases fin3_cases i with rfl | rfl | rfl <;>
    simp [comb, coarse, fine, motion, vsum, dot, Fin.sum_univ_two, Fin.sum_univ_three, PiLp.single_apply]

theorem square_stiff : Stiff (stiff square fine) ∧ Stiff (stiff square coarse) :=
  ⟨fun v hv => by rw [fine_stiff]; exact real_inner_self_pos.2 hv,
    fun v hv => by rw [coarse_stiff]; exact real_inner_self_pos.2 hv⟩

/-- **C168** With double frequencies the printed row depends on the solver.  Two nested bases with equal values: with the
modes in one order the row is right (value 1, error 0), with the modes in another order, which the solver may return as
well, the program divides by zero. -/
theorem C168_double_violated (spectra : Bool) :
    Nested coarse fine ∧ ∃ (vecL : Fin 2 → EuclideanSpace ℝ (Fin 2)) (vecH vecH' : Fin 3 → EuclideanSpace ℝ (Fin 3)),
      Solved spectra square coarse vecL (fun _ => 1) ∧ Solved spectra square fine vecH (fun _ => 1) ∧
      Solved spectra square fine vecH' (fun _ => 1) ∧
      row square coarse fine (vecL 0) 1 (vecH 0) 1 = some ⟨1, 0, 1⟩ ∧
      row square coarse fine (vecL 0) 1 (vecH' 0) 1 = none := by
  refine ⟨coarse_nested, _, _, _, coarse_solved spectra, fine_solved spectra (Equiv.refl _),
    fine_solved spectra (Equiv.swap 0 1), ?_, ?_⟩
  · have := (C168_estimate_partial coarse_nested (coarse_solved spectra) (fine_solved spectra (Equiv.refl _))
      (fun _ => square_stiff.2) (fun _ => square_stiff.1) (m := 0) (m' := 0) rfl).2.1
    rw [overlap] at this
    simpa using this
  · have := (C168_estimate_partial coarse_nested (coarse_solved spectra) (fine_solved spectra (Equiv.swap 0 1))
      (fun _ => square_stiff.2) (fun _ => square_stiff.1) (m := 0) (m' := 0) rfl).1
    rw [overlap] at this
    simpa using this

/-- Non-vacuity of the hypotheses on the bases, the solvers and the matrices. -/
example (spectra : Bool) : Nested coarse fine ∧
    Solved spectra square coarse (fun i => EuclideanSpace.single i 1) (fun _ => 1) ∧
    Solved spectra square fine (fun i => EuclideanSpace.single i 1) (fun _ => 1) ∧
    Stiff (stiff square fine) ∧ Stiff (stiff square coarse) :=
  ⟨coarse_nested, coarse_solved spectra, fine_solved spectra (Equiv.refl _), square_stiff⟩

/-- Non-vacuity of the hypotheses on moduli and mass. -/
example : (∀ q, Spec.System.Symmetric ⟨(square.pt q).mm.1, (square.pt q).mm.2.1, (square.pt q).mm.2.2.1,
      (square.pt q).mm.2.2.2, 0, 0⟩) ∧
    ∀ c, c ≠ 0 → 0 < formM square (comb fine c) (comb fine c) := by
  refine ⟨fun q => ⟨fun i j => ?_, fun i j => rfl, fun i j => rfl⟩, fun c hc => ?_⟩
  · simp only [square, eq_comm]
  · rw [← mass_form, fine_mass]
    exact real_inner_self_pos.2 hc

end Verif.ModalProgram
