import Verif.Lemmas.TFTWitness
import Mathlib.Tactic.Linarith
import Mathlib.Tactic.NormNum

/-! # C39: the tangent of wrinkled points -/

namespace Verif.TFT

/-- C39 (partial, nonlinear variant with constant elasticity matrix): the tangent is the
derivative of the wrinkled stress along every differentiable family of wrinkled states.
Missing: elasticity matrices which depend on the strain (see the negative result). -/
theorem C39_nonlinear_partial (P : WrinklePath) (h : P.dC = fun _ _ _ => 0)
    (hf : dfdT (P.θ 0) (P.C 0) (P.S 0) ≠ 0) :
    P.StressVelocity (mulVec3 (computeCNl (P.θ 0) (P.C 0) (P.S 0) P.dC) P.d) := by
  have hv := P.velocity hf
  have e : computeCNl (P.θ 0) (P.C 0) (P.S 0) P.dC
      = trueTangent (P.θ 0) (P.C 0) (P.S 0) P.dC := by
    rw [h]
    funext i j
    exact computeCNl_const _ _ _ P.symm i j
  rw [e]
  exact hv

/-- C39 (partial, linear variant): it is the derivative if the elasticity matrix does not
couple the wrinkling strain with the shear in the wrinkling frame. -/
theorem C39_linear_partial (P : WrinklePath) (h : P.dC = fun _ _ _ => 0)
    (hf : dfdT (P.θ 0) (P.C 0) (P.S 0) ≠ 0)
    (hg : quad (n2 (P.θ 0)) (P.C 0) (n1 (P.θ 0)) = 0) :
    P.StressVelocity (mulVec3 (computeCLin (P.θ 0) (P.C 0) (P.S 0)) P.d) := by
  have hv := P.velocity hf
  have e : computeCLin (P.θ 0) (P.C 0) (P.S 0)
      = trueTangent (P.θ 0) (P.C 0) (P.S 0) P.dC := by
    rw [h]
    have hz : dCN1 (P.θ 0) (fun _ _ _ => 0) = fun _ _ => 0 := by
      funext i j
      simp [dCN1, mulVec3]
    have hz2 : ∀ u j, rowMul u (fun _ _ => (0 : ℝ)) j = 0 := by
      intro u j; simp [rowMul]
    have h1 : dgammadELin (P.θ 0) (P.C 0)
        = dgammadENl (P.θ 0) (P.C 0) (P.S 0) (fun _ _ _ => 0) := by
      funext j
      unfold dgammadELin dgammadENl
      rw [hz, hz2, mul_zero, add_zero]
    have h2 : dfdELin (P.θ 0) (P.C 0)
        = dfdENl (P.θ 0) (P.C 0) (P.S 0) (fun _ _ _ => 0) := by
      funext j
      unfold dfdELin dfdENl
      rw [hz, hz2, hg]
      ring
    funext i j
    unfold computeCLin trueTangent dgamman1dE
    rw [h1, h2, hz, mul_zero, add_zero]
  rw [e]
  exact hv

/-- C39 (partial): for a constant symmetric matrix the nonlinear variant is symmetric. -/
theorem C39_symmetric_partial (θ : ℝ) (C : T3) (S : Voigt) (hC : Symm C) :
    Symm (computeCNl θ C S (fun _ _ _ => 0)) := by
  intro i j
  rw [computeCNl_const θ C S hC, computeCNl_const θ C S hC, trueTangent_const θ C S hC,
    trueTangent_const θ C S hC, hC i j]
  ring

/-- C39 (violated, linear variant): a positive definite constant elasticity matrix and a
family of wrinkled states passing the acceptance test whose stress velocity is not the
tangent times the strain velocity. -/
theorem C39_linear_violated : ∃ P : WrinklePath, (∀ t, P.C t = P.C 0) ∧
    P.dC = (fun _ _ _ => 0) ∧ PosDef (P.C 0) ∧ dfdT (P.θ 0) (P.C 0) (P.S 0) ≠ 0 ∧
    (∃ E, P.S 0 = mulVec3 (P.C 0) E ∧ checkTheta (P.θ 0) (P.S 0) E) ∧
    (∃ v, P.StressVelocity v) ∧
    ¬ P.StressVelocity (mulVec3 (computeCLin (P.θ 0) (P.C 0) (P.S 0)) P.d) := by
  have hf : dfdT (wPath.θ 0) (wPath.C 0) (wPath.S 0) ≠ 0 := by
    change dfdT 0 wC (wS 0) ≠ 0
    rw [w_dfdT]; norm_num
  refine ⟨wPath, fun _ => rfl, rfl, wC_pos, hf, ?_, ⟨_, wPath.velocity hf⟩, ?_⟩
  · refine ⟨vec3 (-1) 3 0, ?_, ?_, ?_⟩
    · change wS 0 = mulVec3 wC _
      rw [w_S0]
      funext i
      rcases fin3_cases i with rfl | rfl | rfl <;>
        simp only [mulVec3, wC, Fin.sum_univ_three, mk3_zero, mk3_one, mk3_two, vec3_zero,
          vec3_one, vec3_two] <;> norm_num
    · change dotV (n1 0) (wS 0) < 0
      rw [w_n1, w_S0]
      simp [dotV, Fin.sum_univ_three]
    · change dotV (n4 0) _ > 0
      rw [w_n4]
      simp [dotV, Fin.sum_univ_three]
  · intro h
    have h2 := h 2
    have hfun : (fun t => computeS (wPath.θ t) (wPath.C t) (wPath.S t) 2)
        = fun t => -3 * (Real.sin t * Real.cos t) := by
      funext t
      change computeS t wC (wS t) 2 = _
      unfold computeS
      rw [wGamma]
      simp only [mulVec3, wC, wS, n1, Fin.sum_univ_three, mk3_two, vec3_zero, vec3_one, vec3_two]
      ring
    rw [hfun] at h2
    have h3 := ((Real.hasDerivAt_sin 0).mul (Real.hasDerivAt_cos 0)).const_mul (-3)
    have h4 := h2.unique h3
    have h5 : mulVec3 (computeCLin (wPath.θ 0) (wPath.C 0) (wPath.S 0)) wPath.d 2 = -8 / 3 :=
      w_lin
    rw [h5] at h4
    simp only [Real.sin_zero, Real.cos_zero] at h4
    norm_num at h4

/-- C39 (violated, symmetry of the linear variant). -/
theorem C39_symmetry_violated : ∃ (C : T3) (S : Voigt) (θ : ℝ), Symm C ∧ PosDef C ∧
    objective C S θ = 0 ∧ dfdT θ C S ≠ 0 ∧ ¬ Symm (computeCLin θ C S) := by
  refine ⟨wC, wS 0, 0, wC_symm, wC_pos, wPath.root 0, by rw [w_dfdT]; norm_num, ?_⟩
  intro h
  have h1 := h 0 2
  unfold computeCLin dfdELin dgammadELin dgammadT tmp at h1
  rw [w_dfdT, wGamma, w_n1, w_n2] at h1
  simp only [rowMul, quad, dotV, mulVec3, wC, Fin.sum_univ_three, mk3_zero, mk3_one, mk3_two,
    vec3_zero, vec3_one, vec3_two] at h1
  norm_num at h1

/-- C39 (violated, nonlinear variant): for a hyperelastic material with strain-dependent
elasticity matrix the tangent is not the derivative of the wrinkled stress (the product with
the elasticity matrix is taken in transposed order). -/
theorem C39_nonlinear_violated : ∃ P : WrinklePath,
    dfdT (P.θ 0) (P.C 0) (P.S 0) ≠ 0 ∧ dotV (n1 (P.θ 0)) (P.S 0) < 0 ∧
    (∃ v, P.StressVelocity v) ∧
    ¬ P.StressVelocity (mulVec3 (computeCNl (P.θ 0) (P.C 0) (P.S 0) P.dC) P.d) := by
  have hf : dfdT (vPath.θ 0) (vPath.C 0) (vPath.S 0) ≠ 0 := by
    change dfdT 0 (vC 0) (vS 0) ≠ 0
    rw [v_dfdT]; norm_num
  refine ⟨vPath, hf, ?_, ⟨_, vPath.velocity hf⟩, ?_⟩
  · change dotV (n1 0) (vS 0) < 0
    rw [w_n1]
    simp [dotV, vS, Fin.sum_univ_three]
  · intro h
    have h2 := h 0
    have hfun : (fun t => computeS (vPath.θ t) (vPath.C t) (vPath.S t) 0) = fun _ => 0 := by
      funext t
      change computeS 0 (vC t) (vS t) 0 = _
      unfold computeS gamma
      rw [w_n1]
      simp only [quad, dotV, mulVec3, vC, vS, Fin.sum_univ_three, mk3_zero, vec3_zero, vec3_one,
        vec3_two]
      by_cases ht : 2 + t = 0
      · simp [ht]
      · simp only [one_mul, mul_one, mul_zero, zero_mul, add_zero, neg_neg, div_self ht]
        ring
    rw [hfun] at h2
    have h4 := h2.unique (hasDerivAt_const (0 : ℝ) (0 : ℝ))
    have h5 : mulVec3 (computeCNl (vPath.θ 0) (vPath.C 0) (vPath.S 0) vPath.dC) vPath.d 0
        = 1 := by
      change mulVec3 (computeCNl 0 (vC 0) (vS 0) vdC) (vec3 0 1 0) 0 = 1
      unfold computeCNl dgamman1dE dfdENl dgammadENl dgammadT tmp dCN1
      rw [v_dfdT, v_gamma, w_n1, w_n2]
      simp only [rowMul, quad, dotV, mulVec3, vC, vdC, Fin.sum_univ_three, mk3_zero, mk3_one,
        mk3_two, vec3_zero, vec3_one, vec3_two]
      norm_num
    rw [h5] at h4
    norm_num at h4

/-- The hypotheses of the partial theorems are met by the family above. -/
example : wPath.dC = (fun _ _ _ => 0) ∧ dfdT (wPath.θ 0) (wPath.C 0) (wPath.S 0) ≠ 0 := by
  refine ⟨rfl, ?_⟩
  change dfdT 0 wC (wS 0) ≠ 0
  rw [w_dfdT]; norm_num

end Verif.TFT
