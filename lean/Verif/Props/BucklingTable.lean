import Verif.Lemmas.BucklingTable
import Verif.Props.ModalProgram
import Verif.Props.BucklingFirst

/-! # Property C169: the table of the buckling example -/

namespace Verif.BucklingTable

open V3 Verif.Geometry Verif.Variation Verif.DWR RealInnerProductSpace Spec.ModalProgram Spec.BucklingProgram
open Verif.Balance (vsum)
open Verif.BucklingProgram
open Verif.ModalProgram (comb stiff Row nested_map nested_le shifted_is_dense stiff_form motion coarse entries_id
  solved_of)

variable {α : Type} {n N : ℕ} {D : EigSetup α}

/-- **C169** With Spectra, on flat plates with in-plane prestress and nested bases: the printed estimate of the error is
exactly the difference of the two values, it is not positive, and the printed estimate of the goal is the value of the
finer basis.  There is no row exactly if the geometric stiffness does not couple the two modes. -/
theorem C169_spectra (hD : FlatState D) {ψ : Fin n → α → EigFld} {φ : Fin N → α → EigFld} (hn : Nested ψ φ)
    {vecL : Fin n → EuclideanSpace ℝ (Fin n)} {valL : Fin n → ℝ} {vecH : Fin N → EuclideanSpace ℝ (Fin N)}
    {valH : Fin N → ℝ} (hL : Solved true D ψ vecL valL) (hH : Solved true D φ vecH valH)
    (kL : ∀ c, c ≠ 0 → 0 < formA D (comb ψ c) (comb ψ c)) (kH : ∀ c, c ≠ 0 → 0 < formA D (comb φ c) (comb φ c))
    {m : Fin n} {m' : Fin N} (hm : m'.val = m.val) :
    (formT D (comb φ (vecH m')) (comb ψ (vecL m)) - formA D (comb φ (vecH m')) (comb ψ (vecL m)) = 0 →
      row D ψ φ (vecL m) (valL m) (vecH m') (valH m') = none) ∧
    (formT D (comb φ (vecH m')) (comb ψ (vecL m)) - formA D (comb φ (vecH m')) (comb ψ (vecL m)) ≠ 0 →
      row D ψ φ (vecL m) (valL m) (vecH m') (valH m') = some ⟨valL m, valH m' - valL m, valH m'⟩) ∧
    valH m' - valL m ≤ 0 := by
  have dL : Dense (stiff D ψ) (tang D ψ - stiff D ψ) vecL valL :=
    shifted_is_dense (by simpa [Solved] using hL) fun v hv => by rw [stiff_form]; exact kL v hv
  have dH : Dense (stiff D φ) (tang D φ - stiff D φ) vecH valH :=
    shifted_is_dense (by simpa [Solved] using hH) fun v hv => by rw [stiff_form]; exact kH v hv
  obtain ⟨J, hJ⟩ := nested_map hn
  have e1 : ∀ c d, ⟪stiff D ψ c, d⟫ = ⟪stiff D φ (J c), J d⟫ := fun c d => by rw [stiff_form, stiff_form, hJ, hJ]
  have e2 : ∀ c d, ⟪(tang D ψ - stiff D ψ) c, d⟫ = ⟪(tang D φ - stiff D φ) (J c), J d⟫ := fun c d => by
    rw [diff_form hD, diff_form hD, hJ, hJ]
  have hb : ⟪(tang D φ - stiff D φ) (J (vecL m)), J (vecL m)⟫ = 1 := by rw [← e2, dL.orth, if_pos rfl]
  have ha : ⟪stiff D φ (J (vecL m)), J (vecL m)⟫ = valL m := by
    rw [← e1, dL.pair, real_inner_smul_left, dL.orth, if_pos rfl, mul_one]
  have hc := inner_pair dH.dim dH.pair dH.orth (J (vecL m)) m'
  have hr := row_eq hD hJ (vecL m) (valL m) (vecH m') (valH m')
  rw [hJ, ← diff_form hD]
  refine ⟨fun h => hr.1 (Or.inr h), fun h => ?_, ?_⟩
  · rw [hr.2 (by rw [hb]; exact one_ne_zero) h (valH m' - valL m)
      (by rw [hb, ha, hc, mul_div_assoc, div_self h]; ring)]
    simp
  · have := nested_le dL dH J (fun v => (e1 v v).symm) (fun v => (e2 v v).symm) hm
    linarith

/-- **C169** (partial: the estimate is wrong without Spectra.)  Without Spectra, on the same plates: what is printed as
estimate of the error is `1/μH - 1/μL + (μH - μL) (1/μL - 1)` for the values `μL`, `μH` of the two bases.  It is the
difference of the values only if this is zero or `μH (1 - 2 μL) = 1`.  There is no row exactly if one of the values is
zero or the modes are orthogonal. -/
theorem C169_dense_partial (hD : FlatState D) {ψ : Fin n → α → EigFld} {φ : Fin N → α → EigFld} (hn : Nested ψ φ)
    {vecL : Fin n → EuclideanSpace ℝ (Fin n)} {valL : Fin n → ℝ} {vecH : Fin N → EuclideanSpace ℝ (Fin N)}
    {valH : Fin N → ℝ} (hL : Solved false D ψ vecL valL) (hH : Solved false D φ vecH valH) {m : Fin n} {m' : Fin N}
    (hm : m'.val = m.val) :
    ((valL m = 0 ∨ valH m' = 0 ∨ formA D (comb φ (vecH m')) (comb ψ (vecL m)) = 0) →
      row D ψ φ (vecL m) (valL m) (vecH m') (valH m') = none) ∧
    (valL m ≠ 0 → valH m' ≠ 0 → formA D (comb φ (vecH m')) (comb ψ (vecL m)) ≠ 0 → ∃ e,
      row D ψ φ (vecL m) (valL m) (vecH m') (valH m') = some ⟨valL m, e, valL m + e⟩ ∧
      e = 1 / valH m' - 1 / valL m + (valH m' - valL m) * (1 / valL m - 1) ∧
      (e = valH m' - valL m ↔ valH m' = valL m ∨ valH m' * (1 - 2 * valL m) = 1)) ∧
    valH m' - valL m ≤ 0 := by
  have dL : Dense (tang D ψ - stiff D ψ) (stiff D ψ) vecL valL := by simpa [Solved] using hL
  have dH : Dense (tang D φ - stiff D φ) (stiff D φ) vecH valH := by simpa [Solved] using hH
  obtain ⟨J, hJ⟩ := nested_map hn
  have e1 : ∀ c d, ⟪stiff D ψ c, d⟫ = ⟪stiff D φ (J c), J d⟫ := fun c d => by rw [stiff_form, stiff_form, hJ, hJ]
  have e2 : ∀ c d, ⟪(tang D ψ - stiff D ψ) c, d⟫ = ⟪(tang D φ - stiff D φ) (J c), J d⟫ := fun c d => by
    rw [diff_form hD, diff_form hD, hJ, hJ]
  have ha : ⟪stiff D φ (J (vecL m)), J (vecL m)⟫ = 1 := by rw [← e1, dL.orth, if_pos rfl]
  have hb : ⟪(tang D φ - stiff D φ) (J (vecL m)), J (vecL m)⟫ = valL m := by
    rw [← e2, dL.pair, real_inner_smul_left, dL.orth, if_pos rfl, mul_one]
  have hc := inner_pair dH.dim dH.pair dH.orth (J (vecL m)) m'
  have hr := row_eq hD hJ (vecL m) (valL m) (vecH m') (valH m')
  rw [hJ, ← stiff_form]
  rw [hb, hc, ha] at hr
  refine ⟨fun h => hr.1 ?_, fun h1 h2 h3 => ⟨_, hr.2 h1 (mul_ne_zero h2 h3) _ rfl, ?_, ?_⟩, ?_⟩
  · rcases h with h | h | h
    · exact Or.inl h
    · exact Or.inr (by rw [h, zero_mul])
    · exact Or.inr (by rw [h, mul_zero])
  · congr 2
    field_simp
  · have key : ⟪stiff D φ (J (vecL m)), vecH m'⟫ / (valH m' * ⟪stiff D φ (J (vecL m)), vecH m'⟫) - 1 / valL m
        + (valH m' - valL m) * (1 / valL m - 1) - (valH m' - valL m)
        = (valH m' - valL m) * (valH m' * (1 - 2 * valL m) - 1) / (valL m * valH m') := by
      field_simp
      ring
    rw [← sub_eq_zero, key, div_eq_zero_iff, mul_eq_zero, sub_eq_zero, sub_eq_zero]
    simp [h1, h2]
  · have := nested_le dL dH J (fun v => (e2 v v).symm) (fun v => (e1 v v).symm) hm
    linarith

/-! ## A membrane under tension -/

/-- A point of a membrane with the unit matrix as moduli and the forces 1 and 2. -/
noncomputable def tense : EigSetup Unit :=
  ⟨[[()]], fun _ => 1, fun _ => ⟨bent 0, bent 0, (fun i j => if i = j then 1 else 0, fun _ _ => 0, fun _ _ => 0,
    fun _ _ => 0), (fun i j => if i = j then 1 else 0, fun _ _ => 0, fun _ _ => 0, fun _ _ => 0), vec3 1 2 0,
    fun _ => 0, 1⟩⟩

/-- A combination of the two strains. -/
noncomputable def mixed : Fin 1 → Unit → EigFld :=
  fun _ => comb coarse (WithLp.toLp 2 ![3 / 5, 4 / 5])

theorem tense_flat : FlatState tense := fun _ => ⟨⟨rfl, rfl, rfl⟩, ⟨rfl, rfl, rfl⟩, rfl⟩

theorem mixed_nested : Nested mixed coarse := fun _ => ⟨_, rfl⟩

theorem tense_A (u v : Unit → EigFld) :
    formA tense u v = dotV (EmDer (bent 0) (u ()).d) (EmDer (bent 0) (v ()).d) := by
  rw [formA, ← ModalProgram.integral_eq]
  simp [ModalProgram.integral, tense, bent_measure, linStiffness, dotV, rowMul]

theorem tense_T (u v : Unit → EigFld) :
    formT tense u v = formA tense u v + EmDer2 (u ()).d (v ()).d (vec3 1 2 0) := by
  rw [formT, ← ModalProgram.integral_eq, tense_A]
  have h : ∀ s u v : Surf, ∀ A B C D : T3, stiffness s u v A B C D (vec3 1 2 0) (fun _ => 0) = _ :=
    fun s u v A B C D => stiffness_flat s u v A B C D _
  simp [ModalProgram.integral, tense, bent_measure, h, linStiffness, dotV, rowMul]

theorem coarse_A (i j : Fin 2) : formA tense (coarse i) (coarse j) = if i = j then 1 else 0 := by
  rw [tense_A]
  rcases fin2_cases i with rfl | rfl <;> rcases fin2_cases j with rfl | rfl <;>
    simp [coarse, motion, dotV, EmDer, bent, dot, Fin.sum_univ_three]

theorem coarse_T (i j : Fin 2) : formT tense (coarse i) (coarse j) = if i = j then ![2, 3] i else 0 := by
  rw [tense_T, coarse_A]
  rcases fin2_cases i with rfl | rfl <;> rcases fin2_cases j with rfl | rfl <;>
    simp [coarse, motion, EmDer2, dot] <;> norm_num

theorem coarse_stiff (c d : EuclideanSpace ℝ (Fin 2)) : ⟪stiff tense coarse c, d⟫ = c 0 * d 0 + c 1 * d 1 := by
  rw [stiff_form, ModalProgram.formA_left]
  simp only [ModalProgram.formA_right, coarse_A, Fin.sum_univ_two]
  simp
  ring

theorem coarse_diff (c d : EuclideanSpace ℝ (Fin 2)) :
    ⟪(tang tense coarse - stiff tense coarse) c, d⟫ = c 0 * d 0 + 2 * (c 1 * d 1) := by
  rw [diff_form tense_flat, ← stiff_form, coarse_stiff, formT_left tense_flat]
  simp only [formT_right tense_flat, coarse_T, Fin.sum_univ_two]
  simp
  ring

theorem coarse_dense : Dense (tang tense coarse - stiff tense coarse) (stiff tense coarse)
    (fun i => EuclideanSpace.single i 1) ![1, 2] := by
  refine ⟨by simp, fun i => ext_inner_right ℝ fun w => ?_, fun i j => ?_, ?_⟩
  · rw [real_inner_smul_left, coarse_diff, coarse_stiff]
    rcases fin2_cases i with rfl | rfl <;> simp
  · rw [coarse_stiff]
    rcases fin2_cases i with rfl | rfl <;> rcases fin2_cases j with rfl | rfl <;> simp
  · intro i j h
    rcases fin2_cases i with rfl | rfl <;> rcases fin2_cases j with rfl | rfl
    · exact le_refl _
    · norm_num
    · exact absurd h (by decide)
    · exact le_refl _

theorem mixed_A (c d : EuclideanSpace ℝ (Fin 1)) : ⟪stiff tense mixed c, d⟫ = c 0 * d 0 := by
  rw [stiff_form, ModalProgram.formA_left]
  simp only [ModalProgram.formA_right, Finset.univ_unique, Finset.sum_singleton, Fin.default_eq_zero]
  rw [show mixed 0 = comb coarse (WithLp.toLp 2 ![3 / 5, 4 / 5]) from rfl, ← stiff_form, coarse_stiff]
  simp
  ring

theorem mixed_B (c d : EuclideanSpace ℝ (Fin 1)) :
    ⟪(tang tense mixed - stiff tense mixed) c, d⟫ = 41 / 25 * (c 0 * d 0) := by
  rw [diff_form tense_flat, ← stiff_form, mixed_A, formT_left tense_flat]
  simp only [formT_right tense_flat, Finset.univ_unique, Finset.sum_singleton, Fin.default_eq_zero]
  rw [show mixed 0 = comb coarse (WithLp.toLp 2 ![3 / 5, 4 / 5]) from rfl]
  have h1 := coarse_diff (WithLp.toLp 2 ![3 / 5, 4 / 5]) (WithLp.toLp 2 ![3 / 5, 4 / 5])
  have h2 := coarse_stiff (WithLp.toLp 2 ![3 / 5, 4 / 5]) (WithLp.toLp 2 ![3 / 5, 4 / 5])
  rw [diff_form tense_flat, ← stiff_form, h2] at h1
  simp at h1
  linear_combination d 0 * c 0 * h1

theorem mixed_dense : Dense (tang tense mixed - stiff tense mixed) (stiff tense mixed)
    (fun i => EuclideanSpace.single i 1) fun _ => 41 / 25 := by
  refine ⟨by simp, fun i => ext_inner_right ℝ fun w => ?_, fun i j => ?_, fun _ _ _ => le_refl _⟩
  · rw [real_inner_smul_left, mixed_B, mixed_A]
  · rw [mixed_A, Subsingleton.elim i 0, Subsingleton.elim j 0]
    simp

theorem mixed_overlap : formA tense (comb coarse (EuclideanSpace.single 0 1)) (comb mixed (EuclideanSpace.single 0 1))
    = 3 / 5 := by
  rw [ModalProgram.formA_right]
  simp only [Finset.univ_unique, Finset.sum_singleton, Fin.default_eq_zero, mixed]
  rw [← stiff_form, coarse_stiff]
  simp

/-- **C169** Without Spectra the printed estimate can have the wrong sign: a membrane under the forces 1 and 2 has the
value 41/25 in the coarse basis and 1 in the fine one; the program prints the error 16/25 instead of -16/25, and
57/25 for the goal. -/
theorem C169_dense_violated :
    ∃ (vecL : Fin 1 → EuclideanSpace ℝ (Fin 1)) (valL : Fin 1 → ℝ) (vecH : Fin 2 → EuclideanSpace ℝ (Fin 2))
      (valH : Fin 2 → ℝ), FlatState tense ∧ Nested mixed coarse ∧ Solved false tense mixed vecL valL ∧
      Solved false tense coarse vecH valH ∧ valL 0 = 41 / 25 ∧ valH 0 = 1 ∧
      row tense mixed coarse (vecL 0) (valL 0) (vecH 0) (valH 0) = some ⟨41 / 25, 16 / 25, 57 / 25⟩ := by
  have sL : Solved false tense mixed (fun i => EuclideanSpace.single i 1) fun _ => 41 / 25 := by simpa [Solved] using mixed_dense
  have sH : Solved false tense coarse (fun i => EuclideanSpace.single i 1) ![1, 2] := by simpa [Solved] using coarse_dense
  refine ⟨_, _, _, _, tense_flat, mixed_nested, sL, sH, rfl, rfl, ?_⟩
  obtain ⟨e, h1, h2, -⟩ := (C169_dense_partial tense_flat mixed_nested sL sH (m := 0) (m' := 0) rfl).2.1
    (by norm_num) (by norm_num) (by rw [mixed_overlap]; norm_num)
  have he : e = 16 / 25 := by rw [h2]; norm_num
  rw [h1, he]
  norm_num

/-- Non-vacuity of the hypotheses with Spectra: both bases have eigenpairs and cost energy. -/
example : (∃ vec val, Solved true tense mixed vec val) ∧ (∃ vec val, Solved true tense coarse vec val) ∧
    (∀ c, c ≠ 0 → 0 < formA tense (comb mixed c) (comb mixed c)) ∧
    ∀ c, c ≠ 0 → 0 < formA tense (comb coarse c) (comb coarse c) := by
  have p1 : ∀ c : EuclideanSpace ℝ (Fin 1), c ≠ 0 → 0 < c 0 * c 0 := fun c hc =>
    mul_self_pos.2 fun h => hc (by ext i; rw [Subsingleton.elim i 0, h]; rfl)
  have p2 : ∀ c : EuclideanSpace ℝ (Fin 2), c ≠ 0 → 0 < c 0 * c 0 + c 1 * c 1 := fun c hc => by
    have h0 := mul_self_nonneg (c 0)
    have h1 := mul_self_nonneg (c 1)
    refine (add_nonneg h0 h1).lt_of_ne' fun h => hc ?_
    ext i
    rcases fin2_cases i with rfl | rfl
    · exact mul_self_eq_zero.1 (by linarith)
    · exact mul_self_eq_zero.1 (by linarith)
  refine ⟨?_, ?_, fun c hc => ?_, fun c hc => ?_⟩
  · obtain ⟨lam, vec, val, h, -⟩ := (C167_exists (K0 := stiff tense mixed) (Kd := tang tense mixed - stiff tense mixed)
      (fun x y => by rw [mixed_A, mixed_A]; ring) (fun x y => by rw [mixed_B, mixed_B]; ring)
      (fun v hv => by rw [mixed_A]; exact p1 v hv) (by simp) (0 : Fin 1)).2.2
      (fun v hv => by rw [mixed_B]; have := p1 v hv; linarith)
    exact ⟨vec, val, by simpa [Solved] using h⟩
  · obtain ⟨lam, vec, val, h, -⟩ := (C167_exists (K0 := stiff tense coarse)
      (Kd := tang tense coarse - stiff tense coarse)
      (fun x y => by rw [coarse_stiff, coarse_stiff]; ring) (fun x y => by rw [coarse_diff, coarse_diff]; ring)
      (fun v hv => by rw [coarse_stiff]; exact p2 v hv) (by simp) (0 : Fin 2)).2.2
      (fun v hv => by rw [coarse_diff]; have := p2 v hv; have := mul_self_nonneg (v 1); linarith)
    exact ⟨vec, val, by simpa [Solved] using h⟩
  · rw [← stiff_form, mixed_A]; exact p1 c hc
  · rw [← stiff_form, coarse_stiff]; exact p2 c hc

end Verif.BucklingTable
