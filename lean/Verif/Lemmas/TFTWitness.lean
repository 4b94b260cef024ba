import Mathlib.Tactic.Linarith
import Mathlib.Tactic.NormNum
import Verif.Lemmas.TFTTangent

/-! # Two concrete families of wrinkled states -/

namespace Verif.TFT

/-! ### A wrinkled family with a coupling elasticity matrix -/

/-- An elasticity matrix with coupling. -/
noncomputable def wC : T3 := mk3 1 0 (1 / 2) 0 1 0 (1 / 2) 0 1

theorem wC_symm : Symm wC := by
  intro i j
  rcases fin3_cases i with rfl | rfl | rfl <;> rcases fin3_cases j with rfl | rfl | rfl <;> rfl

theorem wC_pos : PosDef wC := by
  intro v hv
  simp only [wC, Fin.sum_univ_three, mk3_zero, mk3_one, mk3_two, vec3_zero, vec3_one, vec3_two]
  have hne : v 0 ≠ 0 ∨ v 1 ≠ 0 ∨ v 2 ≠ 0 := by
    by_contra hc
    push Not at hc
    apply hv
    funext i
    rcases fin3_cases i with rfl | rfl | rfl
    · exact hc.1
    · exact hc.2.1
    · exact hc.2.2
  have a0 := mul_self_nonneg (v 0)
  have a1 := mul_self_nonneg (v 1)
  have a2 := mul_self_nonneg (v 2)
  have a3 := mul_self_nonneg (v 0 + v 2)
  rcases hne with h | h | h
  · have := mul_self_pos.2 h; nlinarith
  · have := mul_self_pos.2 h; nlinarith
  · have := mul_self_pos.2 h; nlinarith

/-- The stresses of the family. -/
noncomputable def wS (t : ℝ) : Voigt :=
  vec3 (3 * (Real.sin t * Real.sin t) - Real.cos t * Real.cos t - Real.cos t * Real.sin t)
    (3 * (Real.cos t * Real.cos t) - Real.sin t * Real.sin t)
    (-5 * (Real.sin t * Real.cos t) - Real.cos t * Real.cos t / 2)

theorem wD_ne (t : ℝ) : quad (n1 t) wC (n1 t) ≠ 0 := by
  rw [quad_eq_sum]
  refine (wC_pos _ ?_).ne'
  intro h
  have a0 := congrFun h 0
  have a1 := congrFun h 1
  simp only [n1, vec3_zero, vec3_one, Pi.zero_apply] at a0 a1
  nlinarith [Real.sin_sq_add_cos_sq t]

theorem wGamma (t : ℝ) : gamma t wC (wS t) = 1 := by
  unfold gamma
  rw [div_eq_one_iff_eq (wD_ne t)]
  simp only [quad, dotV, mulVec3, wC, wS, n1, Fin.sum_univ_three, mk3_zero, mk3_one, mk3_two,
    vec3_zero, vec3_one, vec3_two]
  ring

/-- The family. -/
noncomputable def wPath : WrinklePath where
  S := wS
  C := fun _ => wC
  θ := fun t => t
  d := vec3 2 0 (-6)
  dC := fun _ _ _ => 0
  θ' := 1
  hS := by
    intro i
    have hs := Real.hasDerivAt_sin 0
    have hc := Real.hasDerivAt_cos 0
    rcases fin3_cases i with rfl | rfl | rfl
    · refine ((((hs.mul hs).const_mul 3).sub (hc.mul hc)).sub (hc.mul hs)).congr_deriv ?_
      simp only [wC, Fin.sum_univ_three, mk3_zero, vec3_zero, vec3_one, vec3_two, Real.sin_zero,
        Real.cos_zero]
      norm_num
    · refine (((hc.mul hc).const_mul 3).sub (hs.mul hs)).congr_deriv ?_
      simp only [wC, Fin.sum_univ_three, mk3_one, vec3_zero, vec3_one, vec3_two, Real.sin_zero,
        Real.cos_zero]
      norm_num
    · refine (((hs.mul hc).const_mul (-5)).sub ((hc.mul hc).div_const 2)).congr_deriv ?_
      simp only [wC, Fin.sum_univ_three, mk3_two, vec3_zero, vec3_one, vec3_two, Real.sin_zero,
        Real.cos_zero]
      norm_num
  hC := by
    intro i j
    simpa using hasDerivAt_const (0 : ℝ) (wC i j)
  hθ := hasDerivAt_id 0
  root := by
    intro t
    unfold objective
    rw [wGamma]
    simp only [quad, dotV, mulVec3, wC, wS, n1, n2, Fin.sum_univ_three, mk3_zero, mk3_one,
      mk3_two, vec3_zero, vec3_one, vec3_two]
    ring
  symm := wC_symm
  stiff := wD_ne 0

theorem w_n1 : n1 0 = vec3 1 0 0 := by
  unfold n1; simp
theorem w_n2 : n2 0 = vec3 0 0 1 := by
  unfold n2; simp
theorem w_n4 : n4 0 = vec3 0 1 0 := by
  unfold n4; simp
theorem w_S0 : wS 0 = vec3 (-1) 3 (-1 / 2) := by
  unfold wS
  simp only [Real.sin_zero, Real.cos_zero]
  norm_num

theorem w_dfdT : dfdT 0 wC (wS 0) = 9 / 2 := by
  unfold dfdT dgammadT tmp
  rw [wGamma, w_n1, w_n2, w_n4, w_S0]
  simp only [quad, dotV, mulVec3, wC, Fin.sum_univ_three, mk3_zero, mk3_one, mk3_two, vec3_zero,
    vec3_one, vec3_two]
  norm_num

theorem w_lin : mulVec3 (computeCLin 0 wC (wS 0)) (vec3 2 0 (-6)) 2 = -8 / 3 := by
  unfold computeCLin dfdELin dgammadELin dgammadT tmp
  rw [w_dfdT, wGamma, w_n1, w_n2]
  simp only [rowMul, quad, dotV, mulVec3, wC, Fin.sum_univ_three, mk3_zero, mk3_one, mk3_two,
    vec3_zero, vec3_one, vec3_two]
  norm_num

/-! ### A hyperelastic family whose elasticity matrix changes -/

/-- The stress of the energy `(E0² + E1² + E2² + E0² E1)/2` at `(-1, 1 + t, 0)`. -/
noncomputable def vS (t : ℝ) : Voigt := vec3 (-(2 + t)) (t + 3 / 2) 0

/-- Its elasticity matrix there. -/
noncomputable def vC (t : ℝ) : T3 := mk3 (2 + t) (-1) 0 (-1) 1 0 0 0 1

/-- Its third derivatives. -/
noncomputable def vdC : Fin 3 → T3 :=
  vec3 (mk3 0 1 0 1 0 0 0 0 0) (mk3 1 0 0 0 0 0 0 0 0) (mk3 0 0 0 0 0 0 0 0 0)

/-- The family. -/
noncomputable def vPath : WrinklePath where
  S := vS
  C := vC
  θ := fun _ => 0
  d := vec3 0 1 0
  dC := vdC
  θ' := 0
  hS := by
    intro i
    have hi := hasDerivAt_id (0 : ℝ)
    rcases fin3_cases i with rfl | rfl | rfl
    · refine ((hi.const_add 2).neg).congr_deriv ?_
      simp [vC, Fin.sum_univ_three]
    · refine (hi.add_const (3 / 2)).congr_deriv ?_
      simp [vC, Fin.sum_univ_three]
    · refine (hasDerivAt_const (0 : ℝ) (0 : ℝ)).congr_deriv ?_
      simp [vC, Fin.sum_univ_three]
  hC := by
    intro i j
    have hi := (hasDerivAt_id (0 : ℝ)).const_add 2
    have hk := fun c : ℝ => hasDerivAt_const (0 : ℝ) c
    rcases fin3_cases i with rfl | rfl | rfl <;> rcases fin3_cases j with rfl | rfl | rfl
    · exact hi.congr_deriv (by simp [vdC, Fin.sum_univ_three])
    all_goals exact (hk _).congr_deriv (by simp [vdC, Fin.sum_univ_three])
  hθ := hasDerivAt_const 0 0
  root := by
    intro t
    unfold objective
    rw [w_n1, w_n2]
    simp [quad, dotV, mulVec3, vC, vS, Fin.sum_univ_three]
  symm := by
    intro i j
    rcases fin3_cases i with rfl | rfl | rfl <;> rcases fin3_cases j with rfl | rfl | rfl <;> rfl
  stiff := by
    rw [w_n1]
    simp [quad, dotV, mulVec3, vC, Fin.sum_univ_three]

theorem v_gamma : gamma 0 (vC 0) (vS 0) = 1 := by
  unfold gamma
  rw [w_n1]
  simp only [quad, dotV, mulVec3, vC, vS, Fin.sum_univ_three, mk3_zero, mk3_one, mk3_two,
    vec3_zero, vec3_one, vec3_two]
  norm_num

theorem v_dfdT : dfdT 0 (vC 0) (vS 0) = 5 / 2 := by
  unfold dfdT dgammadT tmp
  rw [v_gamma, w_n1, w_n2, w_n4]
  simp only [quad, dotV, mulVec3, vC, vS, Fin.sum_univ_three, mk3_zero, mk3_one, mk3_two,
    vec3_zero, vec3_one, vec3_two]
  norm_num

end Verif.TFT
