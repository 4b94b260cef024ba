import Verif.Props.BucklingTable
import Verif.Model.LinearTable

/-! # Properties C168 and C169: the printed efficiencies of the eigenvalue examples -/

namespace Verif.ModalProgram

open Verif.DWR Spec.ModalProgram Spec.BucklingProgram
open Verif.LinearTable (efficiency)

variable {α : Type} {n N : ℕ} {D : EigSetup α}

theorem efficiency_between {E l h : ℝ} (h1 : E ≤ h) (h2 : h ≤ l) : (efficiency E ⟨l, h - l, h⟩ = none ↔ E = l) ∧ (E < l →
    ∃ e, efficiency E ⟨l, h - l, h⟩ = some e ∧ 0 ≤ e ∧ e ≤ 1 ∧ (e = 1 ↔ h = E) ∧ (e = 0 ↔ h = l)) := by
  refine ⟨?_, fun h3 => ?_⟩
  · simp only [efficiency, ite_eq_left_iff, reduceCtorEq, imp_false, not_not, sub_eq_zero]
  have hne : E - l ≠ 0 := by linarith
  refine ⟨(h - l) / (E - l), by simp only [efficiency, hne, if_false], ?_, ?_, ?_, ?_⟩
  · exact div_nonneg_of_nonpos (by linarith) (by linarith)
  · rw [div_le_one_of_neg (by linarith)]; linarith
  · rw [div_eq_one_iff_eq hne]
    exact ⟨fun e => by linarith, fun e => by linarith⟩
  · rw [div_eq_zero_iff]
    exact ⟨fun e => by rcases e with e | e
                       · linarith
                       · exact absurd e hne, fun e => Or.inl (by linarith)⟩

/-- **C168** Let the exact value be not larger than that of the finer basis. The printed efficiency is not a number (0 / 0)
exactly if the coarser basis has the exact value. Otherwise it lies between 0 and 1; it is 1 exactly if the finer basis has
the exact value and 0 exactly if the finer basis does not improve the value. -/
theorem C168_efficiency {spectra : Bool} {ψ : Fin n → α → EigFld} {φ : Fin N → α → EigFld} (hn : Nested ψ φ)
    {vecL : Fin n → EuclideanSpace ℝ (Fin n)} {valL : Fin n → ℝ} {vecH : Fin N → EuclideanSpace ℝ (Fin N)}
    {valH : Fin N → ℝ} (hL : Solved spectra D ψ vecL valL) (hH : Solved spectra D φ vecH valH)
    (kL : spectra = true → Stiff (stiff D ψ)) (kH : spectra = true → Stiff (stiff D φ)) {m : Fin n} {m' : Fin N}
    (hm : m'.val = m.val) {E : ℝ} (h1 : E ≤ valH m') {r : Row}
    (hr : row D ψ φ (vecL m) (valL m) (vecH m') (valH m') = some r) :
    (efficiency E r = none ↔ E = valL m) ∧ (E < valL m →
      ∃ e, efficiency E r = some e ∧ 0 ≤ e ∧ e ≤ 1 ∧ (e = 1 ↔ valH m' = E) ∧ (e = 0 ↔ valH m' = valL m)) := by
  obtain ⟨h3, h4, h5⟩ := C168_estimate_partial hn hL hH kL kH hm
  by_cases h0 : formM D (comb ψ (vecL m)) (comb φ (vecH m')) = 0
  · rw [h3 h0] at hr; cases hr
  · rw [h4 h0] at hr
    obtain rfl := Option.some.inj hr
    exact efficiency_between h1 (by linarith)

/-- Non-vacuity: a finer basis that does not improve the value 1, and an exact value 1/2. -/
example : ∃ r, row square coarse fine (EuclideanSpace.single 0 1) 1 (EuclideanSpace.single 0 1) 1 = some r ∧
    efficiency (1 / 2) r = some 0 := by
  have h := (C168_estimate_partial coarse_nested (coarse_solved true) (fine_solved true (Equiv.refl _))
    (fun _ => square_stiff.2) (fun _ => square_stiff.1) (m := 0) (m' := 0) rfl).2.1 (by rw [overlap]; simp)
  refine ⟨_, h, ?_⟩
  obtain ⟨e, h1, -, -, -, h2⟩ := (C168_efficiency coarse_nested (coarse_solved true) (fine_solved true (Equiv.refl _))
    (fun _ => square_stiff.2) (fun _ => square_stiff.1) (m := 0) (m' := 0) rfl (E := 1 / 2) (by norm_num) h).2 (by norm_num)
  rw [h1, h2.2 rfl]

end Verif.ModalProgram

namespace Verif.BucklingTable

open Verif.DWR Spec.ModalProgram Spec.BucklingProgram
open Verif.BucklingProgram
open Verif.ModalProgram (comb stiff stiff_form Row efficiency_between)
open Verif.LinearTable (efficiency)

variable {α : Type} {n N : ℕ} {D : EigSetup α}

/-- **C169** The same for the buckling example with Spectra, on flat plates with in-plane prestress. -/
theorem C169_efficiency (hD : FlatState D) {ψ : Fin n → α → EigFld} {φ : Fin N → α → EigFld} (hn : Nested ψ φ)
    {vecL : Fin n → EuclideanSpace ℝ (Fin n)} {valL : Fin n → ℝ} {vecH : Fin N → EuclideanSpace ℝ (Fin N)}
    {valH : Fin N → ℝ} (hL : Solved true D ψ vecL valL) (hH : Solved true D φ vecH valH)
    (kL : ∀ c, c ≠ 0 → 0 < formA D (comb ψ c) (comb ψ c)) (kH : ∀ c, c ≠ 0 → 0 < formA D (comb φ c) (comb φ c))
    {m : Fin n} {m' : Fin N} (hm : m'.val = m.val) {E : ℝ} (h1 : E ≤ valH m') {r : Row}
    (hr : row D ψ φ (vecL m) (valL m) (vecH m') (valH m') = some r) :
    (efficiency E r = none ↔ E = valL m) ∧ (E < valL m →
      ∃ e, efficiency E r = some e ∧ 0 ≤ e ∧ e ≤ 1 ∧ (e = 1 ↔ valH m' = E) ∧ (e = 0 ↔ valH m' = valL m)) := by
  obtain ⟨h3, h4, h5⟩ := C169_spectra hD hn hL hH kL kH hm
  by_cases h0 : formT D (comb φ (vecH m')) (comb ψ (vecL m)) - formA D (comb φ (vecH m')) (comb ψ (vecL m)) = 0
  · rw [h3 h0] at hr; cases hr
  · rw [h4 h0] at hr
    obtain rfl := Option.some.inj hr
    exact efficiency_between h1 (by linarith)

theorem nested_refl (φ : Fin n → α → EigFld) : Nested φ φ := by
  intro k
  refine ⟨EuclideanSpace.single k 1, funext fun q => ?_⟩
  have hv : ∀ x : Fin n → V3, (Balance.vsum Finset.univ fun i =>
      (EuclideanSpace.single k (1 : ℝ) : EuclideanSpace ℝ (Fin n)) i • x i) = x k := by
    intro x
    ext
    · simp only [Balance.vsum, V3.smul_x, PiLp.single_apply, ite_mul, one_mul, zero_mul, Finset.sum_ite_eq',
        Finset.mem_univ, if_true]
    · simp only [Balance.vsum, V3.smul_y, PiLp.single_apply, ite_mul, one_mul, zero_mul, Finset.sum_ite_eq',
        Finset.mem_univ, if_true]
    · simp only [Balance.vsum, V3.smul_z, PiLp.single_apply, ite_mul, one_mul, zero_mul, Finset.sum_ite_eq',
        Finset.mem_univ, if_true]
  unfold ModalProgram.comb
  simp only [hv]

/-- Non-vacuity: a plate under tension and a basis that is not refined; the exact value is less by 1. -/
example : ∃ (vec : Fin 1 → EuclideanSpace ℝ (Fin 1)) (val : Fin 1 → ℝ) (r : Row), Solved true tense mixed vec val ∧
    row tense mixed mixed (vec 0) (val 0) (vec 0) (val 0) = some r ∧ efficiency (val 0 - 1) r = some 0 := by
  have p1 : ∀ c : EuclideanSpace ℝ (Fin 1), c ≠ 0 → 0 < c 0 * c 0 := fun c hc =>
    mul_self_pos.2 fun h => hc (by ext i; rw [Subsingleton.elim i 0, h]; rfl)
  obtain ⟨lam, vec, val, h, -⟩ := (C167_exists (K0 := stiff tense mixed) (Kd := tang tense mixed - stiff tense mixed)
    (fun x y => by rw [mixed_A, mixed_A]; ring) (fun x y => by rw [mixed_B, mixed_B]; ring)
    (fun v hv => by rw [mixed_A]; exact p1 v hv) (by simp) (0 : Fin 1)).2.2
    (fun v hv => by rw [mixed_B]; have := p1 v hv; linarith)
  have hs : Shifted (stiff tense mixed) (tang tense mixed - stiff tense mixed) vec val := by simpa using h
  have hS : Solved true tense mixed vec val := by simpa [Solved] using hs
  have hk : ∀ c, c ≠ 0 → 0 < formA tense (comb mixed c) (comb mixed c) := fun c hc => by
    rw [← stiff_form, mixed_A]; exact p1 c hc
  have ho : formT tense (comb mixed (vec 0)) (comb mixed (vec 0)) - formA tense (comb mixed (vec 0)) (comb mixed (vec 0))
      ≠ 0 := by
    rw [← diff_form tense_flat, hs.orth]; simp
  have hr := (C169_spectra tense_flat (nested_refl mixed) hS hS hk hk (m := 0) (m' := 0) rfl).2.1 ho
  obtain ⟨e, h1, -, -, -, h2⟩ := (C169_efficiency tense_flat (nested_refl mixed) hS hS hk hk (m := 0) (m' := 0) rfl
    (E := val 0 - 1) (by linarith) hr).2 (by linarith)
  exact ⟨vec, val, _, hS, hr, by rw [h1, h2.2 rfl]⟩

end Verif.BucklingTable
