import Verif.Lemmas.Relaxed
import Verif.Model.Linear

/-! # Helper lemmas: criteria and witnesses for membranes without compression -/

namespace Verif.Relaxed

open Verif.TFT Verif.Spec.Relaxed

theorem mixed_one {s0 s1 e0 e1 : ℝ} (h : 0 ≤ s0) :
    tensionField 2 s0 s1 e0 e1 = .ok 1 := by
  have : s0 > 0 ∨ |s0| ≤ max s0 s1 * 1e-12 := by
    rcases h.lt_or_eq with g | g
    · exact Or.inl g
    · right
      rw [← g, abs_zero]
      exact mul_nonneg (le_max_left _ _) (by norm_num)
  simp only [tensionField, fieldOf]
  rw [if_neg (by decide), if_neg (by decide), if_pos trivial, if_pos this]

theorem mixed_not {s0 s1 : ℝ} (h : s0 < -(max s1 0 * 1e-12)) :
    ¬ (s0 > 0 ∨ |s0| ≤ max s0 s1 * 1e-12) := by
  have h0 : 0 ≤ max s1 0 * 1e-12 := mul_nonneg (le_max_right _ _) (by norm_num)
  have hs : s0 < 0 := by linarith
  rintro (g | g)
  · linarith
  · rw [abs_of_neg hs] at g
    have : max s0 s1 ≤ max s1 0 := max_le (hs.le.trans (le_max_right _ _)) (le_max_left _ _)
    have := mul_le_mul_of_nonneg_right this (by norm_num : (0 : ℝ) ≤ 1e-12)
    linarith

theorem mixed_slack {s0 s1 e0 e1 : ℝ} (h : s0 < -(max s1 0 * 1e-12)) (he : e1 < 0) :
    tensionField 2 s0 s1 e0 e1 = .ok (-1) := by
  simp only [tensionField, fieldOf]
  rw [if_neg (by decide), if_neg (by decide), if_pos trivial, if_neg (mixed_not h), if_pos he]

theorem mixed_wrinkled {s0 s1 e0 e1 : ℝ} (h : s0 < -(max s1 0 * 1e-12)) (he : 0 ≤ e1) :
    tensionField 2 s0 s1 e0 e1 = .ok 0 := by
  simp only [tensionField, fieldOf]
  rw [if_neg (by decide), if_neg (by decide), if_pos trivial, if_neg (mixed_not h),
    if_neg (not_lt.2 he)]

/-- What the code `0` of the mixed criterion means. -/
theorem mixed_zero {s0 s1 e0 e1 : ℝ} (h : tensionField 2 s0 s1 e0 e1 = .ok 0) :
    s0 < 0 ∧ 0 ≤ e1 := by
  constructor
  · by_contra g
    rw [mixed_one (not_lt.1 g)] at h
    have := Outcome.ok.inj h
    norm_num at this
  · by_contra g
    simp only [tensionField, fieldOf] at h
    rw [if_neg (by decide), if_neg (by decide), if_pos trivial] at h
    have h := Outcome.ok.inj h
    rw [if_pos (not_le.1 g)] at h
    split_ifs at h; norm_num at h

/-- The remaining tension has the sign of the strain along the wrinkles. -/
theorem tension_sign {C : T3} (hC : PosDef C) (E : Voigt) (θ : ℝ)
    (h0 : objective C (mulVec3 C E) θ = 0)
    (hE : 0 ≤ comp (strainTensor E) (dirM θ) (dirM θ)) :
    0 ≤ comp (stressTensor (computeS θ C (mulVec3 C E))) (dirM θ) (dirM θ) := by
  set S := mulVec3 C E with hS
  set T := computeS θ C S with hT
  set F : Voigt := fun i => E i + gamma θ C S * n1 θ i with hF
  have e1 : dotV (n1 θ) T = 0 := dot_n1_computeS hC θ S
  have e2 : dotV (n2 θ) T = 0 := by
    rw [hT, dotV_computeS]; exact h0
  obtain ⟨f0, f1, f2⟩ := frame θ T
  rw [e1, e2] at f0 f1 f2
  have hw : work T E = dotV (n4 θ) T * comp (strainTensor E) (dirM θ) (dirM θ) := by
    rw [work_eq, comp_strain]
    simp only [dirM, Matrix.cons_val_zero, Matrix.cons_val_one]
    linear_combination E 0 * f0 + E 1 * f1 + E 2 * f2
  have hTF : T = mulVec3 C F := by
    funext i
    simp only [hT, computeS, hS, hF, mulVec3, Fin.sum_univ_three]
    ring
  have hq : quad F C F = dotV (n4 θ) T * comp (strainTensor E) (dirM θ) (dirM θ) := by
    have : quad F C F = work T E + gamma θ C S * dotV (n1 θ) T := by
      simp only [quad, ← hTF]
      simp only [dotV, work, hF, Fin.sum_univ_three]
      ring
    rw [this, e1, hw]; ring
  rw [comp_mm]
  rcases hE.lt_or_eq with g | g
  · have := quad_nonneg hC F
    rw [hq] at this
    exact nonneg_of_mul_nonneg_left this g
  · rw [← g, mul_zero] at hq
    have hF0 : F = 0 := by
      by_contra hne
      have := quad_pos hC hne
      linarith
    rw [hTF, hF0]
    simp [dotV, mulVec3]

/-! ## The isotropic material in orthonormal coordinates -/

/-- Metric of orthonormal coordinates. -/
def unit : T2 := ![![1, 0], ![0, 1]]

theorem unit_metric : Spec.PosDef.Metric unit := by
  refine ⟨?_, ?_, ?_⟩ <;> norm_num [unit]

theorem unit_inv : inv2 unit = unit := by
  funext i j
  rcases fin2_cases i with rfl | rfl <;> rcases fin2_cases j with rfl | rfl <;>
    norm_num [unit, inv2, det2]

theorem linear_unit (Y ν : ℝ) : Linear.matrix Y ν unit
    = mk3 (Linear.Cconst Y ν + 2 * Linear.mu Y ν) (Linear.Cconst Y ν) 0 (Linear.Cconst Y ν)
      (Linear.Cconst Y ν + 2 * Linear.mu Y ν) 0 0 0 (Linear.mu Y ν) := by
  funext i j
  rcases fin3_cases i with rfl | rfl | rfl <;> rcases fin3_cases j with rfl | rfl | rfl <;>
    simp [Linear.matrix, Linear.Cval, unit] <;> ring

theorem iso_pos {c m : ℝ} (hm : 0 < m) (hc : 0 < c + m) :
    PosDef (mk3 (c + 2 * m) c 0 c (c + 2 * m) 0 0 0 m) := by
  intro v hv
  simp only [Fin.sum_univ_three, mk3_zero, mk3_one, mk3_two, vec3_zero, vec3_one, vec3_two]
  have e : v 0 * (c + 2 * m) * v 0 + v 0 * c * v 1 + v 0 * 0 * v 2
      + (v 1 * c * v 0 + v 1 * (c + 2 * m) * v 1 + v 1 * 0 * v 2)
      + (v 2 * 0 * v 0 + v 2 * 0 * v 1 + v 2 * m * v 2)
      = (c + m) * (v 0 + v 1) ^ 2 + m * (v 0 - v 1) ^ 2 + m * v 2 ^ 2 := by ring
  rw [e]
  have a := mul_nonneg hc.le (sq_nonneg (v 0 + v 1))
  have b := mul_nonneg hm.le (sq_nonneg (v 0 - v 1))
  have d := mul_nonneg hm.le (sq_nonneg (v 2))
  rcases (add_nonneg (add_nonneg a b) d).lt_or_eq with g | g
  · exact g
  · exfalso
    apply hv
    have a0 : (c + m) * (v 0 + v 1) ^ 2 = 0 := by linarith
    have b0 : m * (v 0 - v 1) ^ 2 = 0 := by linarith
    have d0 : m * v 2 ^ 2 = 0 := by linarith
    have a1 : v 0 + v 1 = 0 := by simpa [hc.ne'] using a0
    have b1 : v 0 - v 1 = 0 := by simpa [hm.ne'] using b0
    have d1 : v 2 = 0 := by simpa [hm.ne'] using d0
    funext i
    rcases fin3_cases i with rfl | rfl | rfl
    · show v 0 = 0; linarith
    · show v 1 = 0; linarith
    · exact d1

theorem iso_symm (c m : ℝ) : Symm (mk3 (c + 2 * m) c 0 c (c + 2 * m) 0 0 0 m) := by
  intro i j
  rcases fin3_cases i with rfl | rfl | rfl <;> rcases fin3_cases j with rfl | rfl | rfl <;> rfl

theorem lame_pos {Y ν : ℝ} (hY : 0 < Y) (h1 : -1 < ν) (h2 : ν < 1 / 2) :
    0 < Linear.mu Y ν ∧ 0 < Linear.Cconst Y ν + Linear.mu Y ν := by
  have a : 0 < 1 + ν := by linarith
  have hm : 0 < Linear.mu Y ν := by unfold Linear.mu; positivity
  refine ⟨hm, ?_⟩
  have b : 0 < 1 - 2 * ν := by linarith
  have hl : Linear.lam Y ν = 2 * Linear.mu Y ν * ν / (1 - 2 * ν) := by
    unfold Linear.lam Linear.mu
    generalize hk : 1 - 2 * ν = k at *
    field_simp
  have d : 0 < 1 - ν := by linarith
  have e : Linear.Cconst Y ν + Linear.mu Y ν = Linear.mu Y ν * ((1 + ν) / (1 - ν)) := by
    unfold Linear.Cconst
    rw [hl]
    have e1 : 2 * Linear.mu Y ν * ν / (1 - 2 * ν) + 2 * Linear.mu Y ν
        = 2 * Linear.mu Y ν * (1 - ν) / (1 - 2 * ν) := by
      rw [div_add' _ _ _ b.ne']; congr 1; ring
    rw [e1]
    generalize Linear.mu Y ν = m at *
    generalize hk : 1 - 2 * ν = k at *
    field_simp
    ring
  rw [e]
  positivity

/-- For the isotropic law the searched function is a multiple of the shear strain. -/
theorem iso_objective {c m : ℝ} (E : Voigt) (θ : ℝ) :
    objective (mk3 (c + 2 * m) c 0 c (c + 2 * m) 0 0 0 m)
      (mulVec3 (mk3 (c + 2 * m) c 0 c (c + 2 * m) 0 0 0 m) E) θ
      = 2 * m * ((E 1 - E 0) * Real.cos θ * Real.sin θ
        + E 2 / 2 * (Real.cos θ ^ 2 - Real.sin θ ^ 2)) := by
  have hcs := Real.cos_sq_add_sin_sq θ
  have e : quad (n2 θ) (mk3 (c + 2 * m) c 0 c (c + 2 * m) 0 0 0 m) (n1 θ) = 0 := by
    simp only [quad, dotV, mulVec3, n1, n2, Fin.sum_univ_three, mk3_zero, mk3_one, mk3_two,
      vec3_zero, vec3_one, vec3_two]
    ring
  rw [objective, e]
  simp only [dotV, mulVec3, n2, Fin.sum_univ_three, mk3_zero, mk3_one, mk3_two,
    vec3_zero, vec3_one, vec3_two]
  ring

/-- The acceptance test in the isotropic case. -/
theorem iso_accept {c m : ℝ} (hm : 0 < m) (E : Voigt) (θ : ℝ) {e0 e1 : ℝ}
    (hE : PrincipalStrain unit E e0 e1) (he : 0 ≤ e1)
    (h0 : objective (mk3 (c + 2 * m) c 0 c (c + 2 * m) 0 0 0 m)
      (mulVec3 (mk3 (c + 2 * m) c 0 c (c + 2 * m) 0 0 0 m) E) θ = 0)
    (hc : 0 < dotV (n4 θ) E) : 0 ≤ comp (strainTensor E) (dirM θ) (dirM θ) := by
  rw [iso_objective] at h0
  have hz : (E 1 - E 0) * Real.cos θ * Real.sin θ
      + E 2 / 2 * (Real.cos θ ^ 2 - Real.sin θ ^ 2) = 0 :=
    (mul_eq_zero.1 h0).resolve_left (by positivity)
  have hcs := Real.cos_sq_add_sin_sq θ
  rw [comp_strain]
  simp only [dirM, Matrix.cons_val_zero, Matrix.cons_val_one]
  simp only [dotV, n4, Fin.sum_univ_three, vec3_zero, vec3_one, vec3_two] at hc
  set p := Real.cos θ
  set s := Real.sin θ
  by_contra hneg
  have hneg := not_le.1 hneg
  -- components in the frame of the angle
  obtain ⟨a, ha⟩ : ∃ a, a = E 0 * p ^ 2 + E 1 * s ^ 2 + E 2 * p * s := ⟨_, rfl⟩
  obtain ⟨b, hb⟩ : ∃ b, b = E 0 * (-s) ^ 2 + E 1 * p ^ 2 + E 2 * (-s) * p := ⟨_, rfl⟩
  have x0 : E 0 = a * p ^ 2 + b * s ^ 2 := by
    rw [ha, hb]
    have h2 : (p ^ 2 + s ^ 2) ^ 2 = 1 := by rw [hcs]; norm_num
    linear_combination -E 0 * h2 - 2 * p * s * hz
  have x1 : E 1 = a * s ^ 2 + b * p ^ 2 := by
    rw [ha, hb]
    have h2 : (p ^ 2 + s ^ 2) ^ 2 = 1 := by rw [hcs]; norm_num
    linear_combination -E 1 * h2 + 2 * p * s * hz
  have x2 : E 2 = 2 * (p * s * (a - b)) := by
    rw [ha, hb]
    have h2 : (p ^ 2 + s ^ 2) ^ 2 = 1 := by rw [hcs]; norm_num
    linear_combination -E 2 * h2 + 2 * (p ^ 2 - s ^ 2) * hz
  rw [← hb] at hneg
  have hac : 0 ≤ a := by
    by_contra hna
    have hna := not_le.1 hna
    have key := (strain_principal unit_metric hE).2 ⟨?_, ?_, ?_⟩
    · linarith
    · rw [x0]
      have h1 : 0 < -a * p ^ 2 + -b * s ^ 2 := by
        nlinarith [sq_nonneg p, sq_nonneg s, mul_nonneg (neg_pos.2 hna).le (sq_nonneg p),
          mul_nonneg (neg_pos.2 hneg).le (sq_nonneg s), mul_pos (neg_pos.2 hna) (neg_pos.2 hneg)]
      linarith
    · rw [x1]
      have h1 : 0 < -a * s ^ 2 + -b * p ^ 2 := by
        nlinarith [sq_nonneg p, sq_nonneg s, mul_nonneg (neg_pos.2 hna).le (sq_nonneg s),
          mul_nonneg (neg_pos.2 hneg).le (sq_nonneg p), mul_pos (neg_pos.2 hna) (neg_pos.2 hneg)]
      linarith
    · have e : 4 * (E 0 * E 1) - E 2 ^ 2 = 4 * (a * b) * (p ^ 2 + s ^ 2) ^ 2 := by
        rw [x0, x1, x2]; ring
      rw [hcs] at e
      have := mul_pos_of_neg_of_neg hna hneg
      linarith
  have e : -s * -s * E 0 + p * p * E 1 + 2 * -s * p * E 2 = b - 2 * (p * s) ^ 2 * (a - b) := by
    have : -s * -s * E 0 + p * p * E 1 + 2 * -s * p * E 2 = b + -s * p * E 2 := by
      rw [hb]; ring
    rw [this, x2]; ring
  rw [e] at hc
  have := mul_nonneg (mul_nonneg (by norm_num : (0:ℝ) ≤ 2) (sq_nonneg (p * s)))
    (by linarith : 0 ≤ a - b)
  linarith

/-! ## Witnesses -/

/-- The isotropic material with Young's modulus 8/3 and Poisson's ratio 1/3. -/
theorem iso_third : Linear.matrix (8 / 3) (1 / 3) unit = mk3 3 1 0 1 3 0 0 0 1 := by
  have hm : Linear.mu (8 / 3) (1 / 3) = 1 := by norm_num [Linear.mu]
  have hc : Linear.Cconst (8 / 3) (1 / 3) = 1 := by
    norm_num [Linear.Cconst, Linear.mu, Linear.lam]
  rw [linear_unit, hm, hc]; norm_num

theorem third_pos : PosDef (mk3 3 1 0 1 3 0 0 0 1) := by
  have := iso_pos (c := 1) (m := 1) (by norm_num) (by norm_num)
  norm_num at this
  exact this

theorem third_symm : Symm (mk3 3 1 0 1 3 0 0 0 1) := by
  have := iso_symm 1 1
  norm_num at this
  exact this

/-- Law of the witness for the acceptance test. -/
def badC : T3 := mk3 21 20 8 20 21 0 8 0 36

theorem badC_symm : Symm badC := by
  intro i j
  rcases fin3_cases i with rfl | rfl | rfl <;> rcases fin3_cases j with rfl | rfl | rfl <;> rfl

theorem badC_pos : PosDef badC := by
  intro v hv
  have e : (∑ i, ∑ j, v i * badC i j * v j) = 4 * (v 0 + v 1 + v 2) ^ 2 + (v 1 - 4 * v 2) ^ 2
      + (v 0 + 4 * v 2) ^ 2 + 16 * (v 0 + v 1) ^ 2 := by
    simp only [Fin.sum_univ_three, badC, mk3_zero, mk3_one, mk3_two, vec3_zero, vec3_one, vec3_two]
    ring
  rw [e]
  by_contra hn
  have hn := not_lt.1 hn
  apply hv
  have a := sq_nonneg (v 0 + v 1 + v 2)
  have b := sq_nonneg (v 1 - 4 * v 2)
  have c := sq_nonneg (v 0 + 4 * v 2)
  have d := sq_nonneg (v 0 + v 1)
  have a0 : v 0 + v 1 + v 2 = 0 := by nlinarith
  have d0 : v 0 + v 1 = 0 := by nlinarith
  have c0 : v 0 + 4 * v 2 = 0 := by nlinarith
  funext i
  rcases fin3_cases i with rfl | rfl | rfl
  · show v 0 = 0; linarith
  · show v 1 = 0; linarith
  · show v 2 = 0; linarith

theorem bad_stress : mulVec3 badC (vec3 (-1) (-3) (15 / 4)) = vec3 (-51) (-83) 127 := by
  funext i
  rcases fin3_cases i with rfl | rfl | rfl <;>
    norm_num [mulVec3, badC, Fin.sum_univ_three]

theorem quarter : n1 (-(Real.pi / 4)) = vec3 (1 / 2) (1 / 2) (-1) ∧
    n2 (-(Real.pi / 4)) = vec3 (1 / 2) (-1 / 2) 0 ∧ n4 (-(Real.pi / 4)) = vec3 (1 / 2) (1 / 2) 1 := by
  have h : Real.sqrt 2 * Real.sqrt 2 = 2 := Real.mul_self_sqrt (by norm_num)
  refine ⟨?_, ?_, ?_⟩ <;>
  · funext i
    rcases fin3_cases i with rfl | rfl | rfl <;>
    · simp only [n1, n2, n4, Real.cos_neg, Real.sin_neg, Real.cos_pi_div_four,
        Real.sin_pi_div_four, vec3_zero, vec3_one, vec3_two]
      linarith

end Verif.Relaxed
