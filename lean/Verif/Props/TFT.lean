import Mathlib.Tactic.Linarith
import Mathlib.Tactic.FieldSimp
import Mathlib.Tactic.LinearCombination
import Verif.Lemmas.TFT

/-! # C37, C38, C40: classification, wrinkled stress, Cauchy stress -/

namespace Verif.TFT

/-! ## C37 -/

/-- C37: each of the three criteria gives exactly one of the three codes. -/
theorem C37_range (opt : Int) (h : opt = 0 ∨ opt = 1 ∨ opt = 2) (s0 s1 e0 e1 : ℝ) :
    ∃ v : Int, tensionField opt s0 s1 e0 e1 = .ok v ∧ (v = 1 ∨ v = 0 ∨ v = -1) := by
  have key : ∀ a b c, fieldOf a b c = 1 ∨ fieldOf a b c = 0 ∨ fieldOf a b c = -1 := by
    intro a b c
    unfold fieldOf
    split_ifs <;> simp
  rcases h with rfl | rfl | rfl
  · exact ⟨_, rfl, key _ _ _⟩
  · exact ⟨_, rfl, key _ _ _⟩
  · exact ⟨_, rfl, key _ _ _⟩

example : (2 : Int) = 0 ∨ (2 : Int) = 1 ∨ (2 : Int) = 2 := by decide

/-- C37, strain criterion, for ordered principal strains: taut iff the smallest strain is not
negative up to the relative tolerance; slack iff the largest is negative; wrinkled iff
neither. -/
theorem C37_strain (s0 s1 e0 e1 : ℝ) (h : e0 ≤ e1) :
    (tensionField 0 s0 s1 e0 e1 = .ok 1 ↔ -(max e1 0 * 1e-12) ≤ e0) ∧
    (tensionField 0 s0 s1 e0 e1 = .ok (-1) ↔ e1 < 0) ∧
    (tensionField 0 s0 s1 e0 e1 = .ok 0 ↔ e0 < -(max e1 0 * 1e-12) ∧ 0 ≤ e1) := by
  have ht : (e0 > 0 ∨ |e0| ≤ max (max e0 e1) 0 * 1e-12) ↔ -(max e1 0 * 1e-12) ≤ e0 := by
    rw [max_eq_right h]
    have h0 : 0 ≤ max e1 0 * 1e-12 := mul_nonneg (le_max_right _ _) (by norm_num)
    constructor
    · rintro (h1 | h1)
      · linarith
      · exact (abs_le.1 h1).1
    · intro h1
      rcases lt_or_ge 0 e0 with h2 | h2
      · exact Or.inl h2
      · right; rw [abs_of_nonpos h2]; linarith
  have hd : tensionField 0 s0 s1 e0 e1 = .ok (fieldOf e0 (max (max e0 e1) 0) e1) := rfl
  rw [hd]
  have hs : e1 < 0 → ¬ -(max e1 0 * 1e-12) ≤ e0 := by
    intro h1
    rw [max_eq_right h1.le, zero_mul, neg_zero]
    linarith
  unfold fieldOf
  by_cases h1 : -(max e1 0 * 1e-12) ≤ e0
  · rw [if_pos (ht.2 h1)]
    have : ¬ e1 < 0 := fun h2 => hs h2 h1
    refine ⟨by simp [h1], by simp [this], by simp [h1]⟩
  · rw [if_neg (fun h2 => h1 (ht.1 h2))]
    by_cases h2 : e1 < 0
    · rw [if_pos h2]
      refine ⟨by simp [h1], by simp [h2], by simp [not_le.2 h2]⟩
    · rw [if_neg h2]
      refine ⟨by simp [h1], by simp [h2], ?_⟩
      exact ⟨fun _ => ⟨not_le.1 h1, not_lt.1 h2⟩, fun _ => rfl⟩

/-- C37, stress criterion, for ordered principal stresses. -/
theorem C37_stress (s0 s1 e0 e1 : ℝ) (h : s0 ≤ s1) :
    (tensionField 1 s0 s1 e0 e1 = .ok 1 ↔ -(max s1 0 * 1e-12) ≤ s0) ∧
    (tensionField 1 s0 s1 e0 e1 = .ok (-1) ↔ s1 < 0) ∧
    (tensionField 1 s0 s1 e0 e1 = .ok 0 ↔ s0 < -(max s1 0 * 1e-12) ∧ 0 ≤ s1) := by
  have ht : (s0 > 0 ∨ |s0| ≤ max s0 s1 * 1e-12) ↔ -(max s1 0 * 1e-12) ≤ s0 := by
    rw [max_eq_right h]
    have h0 : 0 ≤ max s1 0 * 1e-12 := mul_nonneg (le_max_right _ _) (by norm_num)
    constructor
    · rintro (h1 | h1)
      · linarith
      · have : s1 * 1e-12 ≤ max s1 0 * 1e-12 :=
          mul_le_mul_of_nonneg_right (le_max_left _ _) (by norm_num)
        have := (abs_le.1 h1).1
        linarith
    · intro h1
      rcases lt_or_ge 0 s0 with h2 | h2
      · exact Or.inl h2
      · right
        rw [abs_of_nonpos h2]
        rcases le_or_gt 0 s1 with h3 | h3
        · rw [max_eq_left h3] at h1; linarith
        · rw [max_eq_right h3.le] at h1; linarith
  have hd : tensionField 1 s0 s1 e0 e1 = .ok (fieldOf s0 (max s0 s1) s1) := rfl
  rw [hd]
  have hs : s1 < 0 → ¬ -(max s1 0 * 1e-12) ≤ s0 := by
    intro h1
    rw [max_eq_right h1.le, zero_mul, neg_zero]
    linarith
  unfold fieldOf
  by_cases h1 : -(max s1 0 * 1e-12) ≤ s0
  · rw [if_pos (ht.2 h1)]
    have : ¬ s1 < 0 := fun h2 => hs h2 h1
    refine ⟨by simp [h1], by simp [this], by simp [h1]⟩
  · rw [if_neg (fun h2 => h1 (ht.1 h2))]
    by_cases h2 : s1 < 0
    · rw [if_pos h2]
      refine ⟨by simp [h1], by simp [h2], by simp [not_le.2 h2]⟩
    · rw [if_neg h2]
      refine ⟨by simp [h1], by simp [h2], ?_⟩
      exact ⟨fun _ => ⟨not_le.1 h1, not_lt.1 h2⟩, fun _ => rfl⟩

/-- C37, mixed criterion: taut by the stresses, slack by the strains of the points which are
not taut. -/
theorem C37_mixed (s0 s1 e0 e1 : ℝ) (h : s0 ≤ s1) :
    (tensionField 2 s0 s1 e0 e1 = .ok 1 ↔ -(max s1 0 * 1e-12) ≤ s0) ∧
    (tensionField 2 s0 s1 e0 e1 = .ok (-1) ↔ s0 < -(max s1 0 * 1e-12) ∧ e1 < 0) ∧
    (tensionField 2 s0 s1 e0 e1 = .ok 0 ↔ s0 < -(max s1 0 * 1e-12) ∧ 0 ≤ e1) := by
  have ht := (C37_stress s0 s1 e0 e1 h).1
  have hd : tensionField 2 s0 s1 e0 e1 = .ok (fieldOf s0 (max s0 s1) e1) := rfl
  have hd1 : tensionField 1 s0 s1 e0 e1 = .ok (fieldOf s0 (max s0 s1) s1) := rfl
  rw [hd]
  rw [hd1] at ht
  unfold fieldOf at ht ⊢
  by_cases h0 : s0 > 0 ∨ |s0| ≤ max s0 s1 * 1e-12
  · rw [if_pos h0] at ht ⊢
    have := ht.1 rfl
    refine ⟨by simp [this], by simp [this], by simp [this]⟩
  · rw [if_neg h0] at ht ⊢
    have h1 : ¬ -(max s1 0 * 1e-12) ≤ s0 := by
      intro h2
      have := ht.2 h2
      split_ifs at this <;> simp at this
    by_cases h2 : e1 < 0
    · rw [if_pos h2]
      refine ⟨by simp [h1], by simp [h2, not_le.1 h1], by simp [h2]⟩
    · rw [if_neg h2]
      refine ⟨by simp [h1], by simp [h2], by simp [not_le.1 h1, not_lt.1 h2]⟩

example : (-1 : ℝ) ≤ 2 := by norm_num

/-- C37: the classification does not depend on the unit of stress and strain. -/
theorem C37_scale (opt : Int) (k s0 s1 e0 e1 : ℝ) (hk : 0 < k) :
    tensionField opt (k * s0) (k * s1) (k * e0) (k * e1) = tensionField opt s0 s1 e0 e1 := by
  have key : ∀ a b c, fieldOf (k * a) (k * b) (k * c) = fieldOf a b c := by
    intro a b c
    unfold fieldOf
    have h1 : (k * a > 0 ∨ |k * a| ≤ k * b * 1e-12) ↔ (a > 0 ∨ |a| ≤ b * 1e-12) := by
      rw [abs_mul, abs_of_pos hk, mul_assoc, mul_le_mul_iff_right₀ hk]
      constructor <;> rintro (h | h)
      · exact Or.inl (pos_of_mul_pos_right h hk.le)
      · exact Or.inr h
      · exact Or.inl (mul_pos hk h)
      · exact Or.inr h
    have h2 : k * c < 0 ↔ c < 0 := by
      constructor
      · intro h; by_contra hc; exact absurd h (not_lt.2 (mul_nonneg hk.le (not_lt.1 hc)))
      · intro h; exact mul_neg_of_pos_of_neg hk h
    simp only [h1, h2]
  have hm : ∀ a b, max (k * a) (k * b) = k * max a b := fun a b =>
    (mul_max_of_nonneg a b hk.le).symm
  unfold tensionField
  rw [hm, hm, key, key]
  have : max (k * max e0 e1) 0 = k * max (max e0 e1) 0 := by
    rw [mul_max_of_nonneg (max e0 e1) 0 hk.le, mul_zero]
  rw [this, key]

/-- C37: the two values kept by the zero-eigenvalue filter are the in-plane principal values,
in ascending order, whenever neither of these is tiny without being zero. -/
theorem C37_principal_values (p q : ℝ) (h : p ≤ q)
    (hp : p = 0 ∨ 1e-14 * max |p| |q| ≤ |p|) (hq : q = 0 ∨ 1e-14 * max |p| |q| ≤ |q|) :
    (0 ≤ p → dropZero 0 p q = .ok (p, q)) ∧
    (p ≤ 0 → 0 ≤ q → dropZero p 0 q = .ok (p, q)) ∧
    (q ≤ 0 → dropZero p q 0 = .ok (p, q)) := by
  have ap := abs_nonneg p
  have aq := abs_nonneg q
  by_cases hz : p = 0 ∧ q = 0
  · obtain ⟨rfl, rfl⟩ := hz
    have : dropZero 0 0 0 = .ok (0, 0) := by
      unfold dropZero
      norm_num
    exact ⟨fun _ => this, fun _ _ => this, fun _ => this⟩
  have hm : 0 < max |p| |q| := by
    rcases not_and_or.1 hz with h1 | h1
    · exact lt_of_lt_of_le (abs_pos.2 h1) (le_max_left _ _)
    · exact lt_of_lt_of_le (abs_pos.2 h1) (le_max_right _ _)
  have hbig : ∀ x, 1e-14 * max |p| |q| ≤ |x| → ¬ |x| / max |p| |q| < 1e-14 := by
    intro x hx h1
    rw [div_lt_iff₀ hm] at h1
    linarith
  have hzero : |(0 : ℝ)| / max |p| |q| < 1e-14 := by
    rw [abs_zero, zero_div]; norm_num
  refine ⟨fun h0 => ?_, fun h0 h1 => ?_, fun h0 => ?_⟩
  · have e : max (max |(0 : ℝ)| |p|) |q| = max |p| |q| := by
      rw [abs_zero, max_eq_right ap]
    unfold dropZero
    dsimp only
    rw [e, if_neg hm.ne']
    have hq0 : q ≠ 0 := by
      rintro rfl
      exact hz ⟨le_antisymm h h0, rfl⟩
    rw [if_neg (hbig q (hq.resolve_left hq0))]
    by_cases hp0 : p = 0
    · subst hp0
      rw [if_pos hzero]
    · rw [if_neg (hbig p (hp.resolve_left hp0)), if_pos hzero]
  · have e : max (max |p| |(0 : ℝ)|) |q| = max |p| |q| := by
      rw [abs_zero, max_eq_left ap]
    unfold dropZero
    dsimp only
    rw [e, if_neg hm.ne']
    by_cases hq0 : q = 0
    · subst hq0
      rw [if_pos hzero]
    · rw [if_neg (hbig q (hq.resolve_left hq0)), if_pos hzero]
  · have e : max (max |p| |q|) |(0 : ℝ)| = max |p| |q| := by
      rw [abs_zero, max_eq_left hm.le]
    unfold dropZero
    dsimp only
    rw [e, if_neg hm.ne', if_pos hzero]

example : (-1 : ℝ) = 0 ∨ (1e-14 : ℝ) * max |(-1 : ℝ)| |(2 : ℝ)| ≤ |(-1 : ℝ)| := by
  right
  rw [abs_of_neg (by norm_num : (-1 : ℝ) < 0), abs_of_pos (by norm_num : (0 : ℝ) < 2)]
  norm_num

/-- C37 (violated): an unknown criterion is not rejected, the returned matrix was never
written. -/
theorem C37_unknown_violated : ∃ opt : Int, ∀ s0 s1 e0 e1 : ℝ,
    tensionField opt s0 s1 e0 e1 = .ub :=
  ⟨3, fun _ _ _ _ => rfl⟩

/-- C37 (partial): the three documented criteria never read unwritten data. -/
theorem C37_known_partial (opt : Int) (s0 s1 e0 e1 : ℝ) :
    tensionField opt s0 s1 e0 e1 ≠ .ub ↔ opt = 0 ∨ opt = 1 ∨ opt = 2 := by
  unfold tensionField
  split_ifs with h0 h1 h2
  · simp [h0]
  · simp [h1]
  · simp [h2]
  · simp [h0, h1, h2]

/-! ## C38 -/

/-- C38: the wrinkled stress has no component in the wrinkling direction. -/
theorem C38_no_normal (θ : ℝ) (C : T3) (S : Voigt) (h : quad (n1 θ) C (n1 θ) ≠ 0) :
    comp (stressTensor (computeS θ C S)) (dirN θ) (dirN θ) = 0 := by
  rw [comp_nn, dotV_computeS, gamma, div_mul_cancel₀ _ h]
  ring

/-- C38: the function whose zero is searched is the shear component of the wrinkled stress. -/
theorem C38_objective (θ : ℝ) (C : T3) (S : Voigt) :
    comp (stressTensor (computeS θ C S)) (dirM θ) (dirN θ) = objective C S θ := by
  rw [comp_mn, dotV_computeS]
  rfl

/-- C38: at a zero of the objective the wrinkled stress is uniaxial in the tension
direction. -/
theorem C38_uniaxial (θ : ℝ) (C : T3) (S : Voigt) (h : quad (n1 θ) C (n1 θ) ≠ 0)
    (h0 : objective C S θ = 0) (i j : Fin 2) :
    stressTensor (computeS θ C S) i j
      = comp (stressTensor (computeS θ C S)) (dirM θ) (dirM θ) * (dirM θ i * dirM θ j) := by
  have h1 := C38_no_normal θ C S h
  have h2 := C38_objective θ C S
  rw [h0] at h2
  have hc := Real.sin_sq_add_cos_sq θ
  generalize computeS θ C S = T at h1 h2 ⊢
  simp only [comp, stressTensor, dirN, dirM, Fin.sum_univ_two, Matrix.cons_val_zero,
    Matrix.cons_val_one] at h1 h2 ⊢
  generalize Real.sin θ = s at *
  generalize Real.cos θ = c at *
  generalize T 0 = a at *
  generalize T 1 = b at *
  generalize T 2 = d at *
  rcases fin2_cases i with rfl | rfl <;> rcases fin2_cases j with rfl | rfl <;>
    simp only [Matrix.cons_val_zero, Matrix.cons_val_one]
  · linear_combination (c ^ 2) * h1 - 2 * s * c * h2
      - a * (s ^ 2 + c ^ 2 + 1) * hc
  · linear_combination (s * c) * h1 + (c ^ 2 - s ^ 2) * h2 - d * (s ^ 2 + c ^ 2 + 1) * hc
  · linear_combination (s * c) * h1 + (c ^ 2 - s ^ 2) * h2 - d * (s ^ 2 + c ^ 2 + 1) * hc
  · linear_combination (s ^ 2) * h1 + 2 * s * c * h2 - b * (s ^ 2 + c ^ 2 + 1) * hc

/-- C38: taut points are unmodified, slack points are scaled, other codes are an error. -/
theorem C38_taut_slack (slack θ : ℝ) (C : T3) (S : Voigt) :
    evalStress 1 slack θ C S = .ok S ∧
    evalStress (-1) slack θ C S = .ok (fun i => slack * S i) ∧
    evalStress 0 slack θ C S = .ok (computeS θ C S) ∧
    ∀ tf : Int, tf ≠ 1 → tf ≠ -1 → tf ≠ 0 → evalStress tf slack θ C S = .throws := by
  refine ⟨rfl, ?_, rfl, ?_⟩
  · simp [evalStress, mul_comm]
  · intro tf h1 h2 h3
    simp [evalStress, h1, h2, h3]

/-- C38: when the acceptance test passes the wrinkling strain multiplier is positive. -/
theorem C38_wrinkling_strain (θ : ℝ) (C : T3) (N E : Voigt) (h : 0 < quad (n1 θ) C (n1 θ))
    (hc : checkTheta θ N E) : 0 < gamma θ C N := by
  unfold gamma
  exact div_pos (by linarith [hc.1]) h

/-- Hypotheses of the three theorems above at a pure shear of a material without lateral
contraction. -/
example : quad (n1 (Real.pi / 4)) (mk3 1 0 0 0 1 0 0 0 (1 / 2)) (n1 (Real.pi / 4)) ≠ 0 ∧
    objective (mk3 1 0 0 0 1 0 0 0 (1 / 2)) (vec3 0 0 (-1 / 2)) (Real.pi / 4) = 0 ∧
    checkTheta (Real.pi / 4) (vec3 0 0 (-1 / 2)) (vec3 0 0 (-1)) := by
  have h2 : Real.sqrt 2 * Real.sqrt 2 = 2 := Real.mul_self_sqrt (by norm_num)
  refine ⟨?_, ?_, ?_, ?_⟩ <;>
    simp only [objective, gamma, quad, dotV, mulVec3, n1, n2, n4, Fin.sum_univ_three, vec3_zero,
      vec3_one, vec3_two, mk3_zero, mk3_one, mk3_two, Real.cos_pi_div_four,
      Real.sin_pi_div_four] <;> nlinarith [h2]

/-- C38, sign of the tension: for a linear positive definite law and a zero of the objective,
the remaining stress has the sign of the strain in the tension direction. -/
theorem C38_tension (θ : ℝ) (C : T3) (E : Voigt) (hC : PosDef C)
    (h0 : objective C (mulVec3 C E) θ = 0)
    (hE : comp (strainTensor E) (dirM θ) (dirM θ) ≠ 0) :
    0 < comp (stressTensor (computeS θ C (mulVec3 C E))) (dirM θ) (dirM θ) *
      comp (strainTensor E) (dirM θ) (dirM θ) := by
  have hsc := Real.sin_sq_add_cos_sq θ
  have hn : n1 θ ≠ 0 := by
    intro h
    have a0 := congrFun h 0
    have a1 := congrFun h 1
    simp only [n1, vec3_zero, vec3_one, Pi.zero_apply] at a0 a1
    nlinarith
  have hq : quad (n1 θ) C (n1 θ) ≠ 0 := by
    rw [quad_eq_sum]; exact (hC _ hn).ne'
  have hu := C38_uniaxial θ C (mulVec3 C E) hq h0
  have hS : ∀ i, computeS θ C (mulVec3 C E) i
      = mulVec3 C (computeE θ C (mulVec3 C E) E) i := by
    intro i
    simp only [computeS, computeE, mulVec3, Fin.sum_univ_three]
    ring
  have hEE : comp (strainTensor (computeE θ C (mulVec3 C E) E)) (dirM θ) (dirM θ)
      = comp (strainTensor E) (dirM θ) (dirM θ) := by
    simp only [comp, strainTensor, dirM, computeE, n1, Fin.sum_univ_two, Matrix.cons_val_zero,
      Matrix.cons_val_one, vec3_zero, vec3_one, vec3_two]
    ring
  have hne : computeE θ C (mulVec3 C E) E ≠ 0 := by
    intro h
    apply hE
    rw [← hEE, h]
    simp [comp, strainTensor, Fin.sum_univ_two]
  have hpos := hC _ hne
  rw [← quad_eq_sum] at hpos
  have hprod : quad (computeE θ C (mulVec3 C E) E) C (computeE θ C (mulVec3 C E) E)
      = comp (stressTensor (computeS θ C (mulVec3 C E))) (dirM θ) (dirM θ)
        * comp (strainTensor E) (dirM θ) (dirM θ) := by
    rw [← hEE]
    have e0 := hu 0 0
    have e1 := hu 1 1
    have e2 := hu 0 1
    generalize comp (stressTensor (computeS θ C (mulVec3 C E))) (dirM θ) (dirM θ) = σ at *
    simp only [stressTensor, Matrix.cons_val_zero, Matrix.cons_val_one, hS] at e0 e1 e2
    generalize computeE θ C (mulVec3 C E) E = X at *
    unfold quad dotV
    rw [Fin.sum_univ_three, e0, e1, e2]
    simp only [comp, strainTensor, dirM, Fin.sum_univ_two, Matrix.cons_val_zero,
      Matrix.cons_val_one]
    ring
  rw [hprod] at hpos
  exact hpos

/-- C38 (violated, acceptance test): a positive definite linear material and an angle which is
an exact zero and passes the acceptance test, with a compressive remaining stress: the test
multiplies the shear strain (already doubled in Voigt form) by two. -/
theorem C38_acceptance_violated : ∃ (C : T3) (E : Voigt) (θ : ℝ), PosDef C ∧ Symm C ∧
    objective C (mulVec3 C E) θ = 0 ∧ checkTheta θ (mulVec3 C E) E ∧
    comp (stressTensor (computeS θ C (mulVec3 C E))) (dirM θ) (dirM θ) < 0 := by
  have h2 : Real.sqrt 2 * Real.sqrt 2 = 2 := Real.mul_self_sqrt (by norm_num)
  have hcos : Real.cos (Real.pi / 4) * Real.cos (Real.pi / 4) = 1 / 2 := by
    rw [Real.cos_pi_div_four]; nlinarith
  have hcs : Real.sin (Real.pi / 4) = Real.cos (Real.pi / 4) := by
    rw [Real.cos_pi_div_four, Real.sin_pi_div_four]
  have hpd : PosDef (mk3 1 0 0 0 1 0 0 0 (1 / 2)) := by
    intro v hv
    simp only [Fin.sum_univ_three, mk3_zero, mk3_one, mk3_two, vec3_zero, vec3_one, vec3_two]
    have : v 0 ≠ 0 ∨ v 1 ≠ 0 ∨ v 2 ≠ 0 := by
      by_contra hc
      push Not at hc
      apply hv
      funext i
      rcases fin3_cases i with rfl | rfl | rfl
      · exact hc.1
      · exact hc.2.1
      · exact hc.2.2
    have a0 := mul_self_nonneg (v 0)
    have a1 := mul_self_nonneg (v 1)
    have a2 := mul_self_nonneg (v 2)
    rcases this with h | h | h
    · have := mul_self_pos.2 h; linarith
    · have := mul_self_pos.2 h; linarith
    · have := mul_self_pos.2 h; linarith
  have hr : objective (mk3 1 0 0 0 1 0 0 0 (1 / 2))
      (mulVec3 (mk3 1 0 0 0 1 0 0 0 (1 / 2)) (vec3 (-5 / 2) (-5 / 2) (-3))) (Real.pi / 4)
      = 0 := by
    have e2 : n2 (Real.pi / 4) = vec3 (-1 / 2) (1 / 2) 0 := by
      unfold n2
      rw [hcs]
      congr 1
      all_goals linarith
    have e1 : n1 (Real.pi / 4) = vec3 (1 / 2) (1 / 2) 1 := by
      unfold n1
      rw [hcs]
      congr 1
      linarith
    unfold objective quad
    rw [e1, e2]
    simp only [dotV, mulVec3, Fin.sum_univ_three, vec3_zero, vec3_one, vec3_two, mk3_zero,
      mk3_one, mk3_two]
    ring
  have hE : comp (strainTensor (vec3 (-5 / 2) (-5 / 2) (-3))) (dirM (Real.pi / 4))
      (dirM (Real.pi / 4)) = -1 := by
    simp only [comp, strainTensor, dirM, Fin.sum_univ_two, Matrix.cons_val_zero,
      Matrix.cons_val_one, vec3_zero, vec3_one, vec3_two, hcs]
    nlinarith
  refine ⟨mk3 1 0 0 0 1 0 0 0 (1 / 2), vec3 (-5 / 2) (-5 / 2) (-3), Real.pi / 4, hpd, ?_, hr,
    ⟨?_, ?_⟩, ?_⟩
  · intro i j
    rcases fin3_cases i with rfl | rfl | rfl <;> rcases fin3_cases j with rfl | rfl | rfl <;> rfl
  · simp only [dotV, n1, mulVec3, Fin.sum_univ_three, vec3_zero, vec3_one, vec3_two, mk3_zero,
      mk3_one, mk3_two, hcs]
    nlinarith
  · simp only [dotV, n4, Fin.sum_univ_three, vec3_zero, vec3_one, vec3_two, hcs]
    nlinarith
  · have ht := C38_tension (Real.pi / 4) _ _ hpd hr (by rw [hE]; norm_num)
    rw [hE] at ht
    linarith

/-! ## C40 -/

/-- Specification: the Cauchy stress is the stress divided by the square root of the squared
area ratio, as in the wrapped material. -/
noncomputable def cauchyOf (S : Voigt) (j0sq : ℝ) : Voigt := fun i => S i / Real.sqrt j0sq

/-- C40 (violated): in a wrinkled point the Cauchy stress is not the modified stress over the
Jacobian. -/
theorem C40_violated : ∃ (θ slack j0sq : ℝ) (C : T3) (S : Voigt), 0 < j0sq ∧
    quad (n1 θ) C (n1 θ) ≠ 0 ∧ evalStress 0 slack θ C S = .ok (computeS θ C S) ∧
    evalCauchy 0 slack θ C S (cauchyOf S j0sq) j0sq
      ≠ .ok (cauchyOf (computeS θ C S) j0sq) := by
  have h16 : Real.sqrt 16 = 4 := by
    rw [show (16 : ℝ) = 4 ^ 2 by norm_num]; exact Real.sqrt_sq (by norm_num)
  have h4 : Real.sqrt 4 = 2 := by
    rw [show (4 : ℝ) = 2 ^ 2 by norm_num]; exact Real.sqrt_sq (by norm_num)
  refine ⟨0, 1, 16, mk3 1 0 0 0 1 0 0 0 (1 / 2), vec3 (-1) 4 0, by norm_num, ?_, rfl, ?_⟩
  · simp [quad, dotV, mulVec3, n1, Fin.sum_univ_three]
  · intro h
    simp only [evalCauchy] at h
    injection h with h
    have := congrFun h 1
    simp [cauchyOf, computeS, mulVec3, n1, Fin.sum_univ_three, h16, h4] at this
    norm_num at this

/-- C40 (partial): taut and slack points use the Jacobian of the wrapped material; wrinkled
points do so when the Jacobian is one. -/
theorem C40_partial (θ slack j0sq : ℝ) (C : T3) (S : Voigt) :
    evalCauchy 1 slack θ C S (cauchyOf S j0sq) j0sq = .ok (cauchyOf S j0sq) ∧
    evalCauchy (-1) slack θ C S (cauchyOf S j0sq) j0sq
      = .ok (cauchyOf (fun i => slack * S i) j0sq) ∧
    (j0sq = 1 → evalCauchy 0 slack θ C S (cauchyOf S j0sq) j0sq
      = .ok (cauchyOf (computeS θ C S) j0sq)) := by
  refine ⟨rfl, ?_, ?_⟩
  · have : (fun i => cauchyOf S j0sq i * slack) = cauchyOf (fun i => slack * S i) j0sq := by
      funext i
      simp only [cauchyOf]
      ring
    simp only [evalCauchy]
    rw [this]
    rfl
  · rintro rfl
    have : cauchyOf (computeS θ C S) 1 = fun i => computeS θ C S i := by
      funext i
      simp [cauchyOf]
    rw [this]
    simp [evalCauchy]

end Verif.TFT
