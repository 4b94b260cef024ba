import Mathlib.Analysis.Asymptotics.Lemmas
import Verif.Lemmas.RelaxedWitness

/-!
# Claim C141: the tension field is the state of a membrane that cannot bear compression
-/

namespace Verif.Relaxed

open Verif.TFT Verif.Spec.Relaxed

/-- C141: for every positive definite stiffness and every stress there is exactly one state
without compression. -/
theorem C141_state (C : T3) (hC : PosDef C) (hs : Symm C) (S : Voigt) :
    ∃ T W, State C S T W ∧ ∀ T' W', State C S T' W' → T' = T ∧ W' = W := by
  obtain ⟨T, W, h⟩ := exists_state hC hs S
  exact ⟨T, W, h, fun T' W' h' => unique hC h' h⟩

example : PosDef (mk3 3 1 0 1 3 0 0 0 1) ∧ Symm (mk3 3 1 0 1 3 0 0 0 1) :=
  ⟨third_pos, third_symm⟩

/-- C141: the state is the one of least energy among all wrinkling strains. -/
theorem C141_minimum (C : T3) (hC : PosDef C) (hs : Symm C) (E T W : Voigt)
    (h : State C (mulVec3 C E) T W) (V : Voigt) (hV : Lengthens V) :
    energy C (fun i => E i + W i) ≤ energy C (fun i => E i + V i) := by
  have := below hC hs h E V hV
  have e : work T (fun i => E i - E i) = 0 := by simp [work]
  linarith

/-- The state of the strain `(1,-4,0)` for Young's modulus 8/3 and Poisson's ratio 1/3. -/
theorem third_state : State (mk3 3 1 0 1 3 0 0 0 1) (mulVec3 (mk3 3 1 0 1 3 0 0 0 1) (vec3 1 (-4) 0))
    (vec3 (8 / 3) 0 0) (vec3 0 (11 / 3) 0) := by
  refine ⟨fun i => ?_, ?_, ?_, ?_⟩
  · rcases fin3_cases i with rfl | rfl | rfl <;>
      norm_num [mulVec3, Fin.sum_univ_three]
  · rw [tension_iff]; norm_num
  · rw [lengthens_iff]; norm_num
  · rw [work_eq]; norm_num

example : State (mk3 3 1 0 1 3 0 0 0 1) (mulVec3 (mk3 3 1 0 1 3 0 0 0 1) (vec3 1 (-4) 0))
    (vec3 (8 / 3) 0 0) (vec3 0 (11 / 3) 0) := third_state

/-- C141: the stress of the state is the derivative of the energy left after wrinkling, in
every strain direction: the material with wrinkles is elastic. -/
theorem C141_potential (C : T3) (hC : PosDef C) (hs : Symm C) (E D : Voigt) (T W : ℝ → Voigt)
    (h : ∀ t, State C (mulVec3 C (fun i => E i + t * D i)) (T t) (W t)) :
    HasDerivAt (fun t => energy C (fun i => E i + t * D i + W t i)) (work (T 0) D) 0 := by
  rw [hasDerivAt_iff_isLittleO_nhds_zero]
  refine Asymptotics.IsBigO.trans_isLittleO (g := fun t : ℝ => t ^ 2) ?_
    (Asymptotics.isLittleO_pow_id one_lt_two)
  refine Asymptotics.IsBigO.of_bound ((1 / 2) * quad D C D) (Filter.Eventually.of_forall fun t => ?_)
  have hD := quad_nonneg hC D
  have e0 : (fun i => E i + 0 * D i) = E := by funext i; ring
  have h0 := h 0
  rw [e0] at h0
  have lo := below hC hs h0 (fun i => E i + t * D i) (W t) (h t).wrinkles
  have up := below hC hs (h t) (fun i => E i + t * D i) (W 0) h0.wrinkles
  have z : work (T t) (fun i => E i + t * D i - (E i + t * D i)) = 0 := by simp [work]
  have y : work (T 0) (fun i => E i + t * D i - E i) = t * work (T 0) D := by
    simp only [work, Fin.sum_univ_three]; ring
  have x : energy C (fun i => E i + t * D i + W 0 i)
      = energy C (fun i => E i + W 0 i) + t * work (T 0) D + t ^ 2 * ((1 / 2) * quad D C D) := by
    have l := law_eq h0
    have h1 := hs 1 0
    have h2 := hs 2 0
    have h3 := hs 2 1
    rw [energy_eq, energy_eq, work_eq]
    simp only [quad, dotV, mulVec3, Fin.sum_univ_three, l, h1, h2, h3]
    ring
  rw [y] at lo
  rw [z, x] at up
  have e1 : (fun i => E i + 0 * D i + W 0 i) = fun i => E i + W 0 i := by funext i; ring
  simp only [zero_add, e1, smul_eq_mul, Real.norm_eq_abs, abs_pow, sq_abs]
  rw [abs_le]
  constructor
  · have := mul_nonneg (mul_nonneg (by norm_num : (0 : ℝ) ≤ 1 / 2) hD) (sq_nonneg t)
    linarith
  · linarith

example : ∃ T W : ℝ → Voigt, ∀ t, State (mk3 3 1 0 1 3 0 0 0 1)
    (mulVec3 (mk3 3 1 0 1 3 0 0 0 1) (fun i => vec3 1 (-4) 0 i + t * vec3 0 1 2 i)) (T t) (W t) := by
  choose T W h using fun t : ℝ => exists_state third_pos third_symm
    (mulVec3 (mk3 3 1 0 1 3 0 0 0 1) (fun i => vec3 1 (-4) 0 i + t * vec3 0 1 2 i))
  exact ⟨T, W, h⟩

/-- C141, mixed criterion, in a surface with any metric: outside the tolerance of the
classification the material returns the stress of the state, if slack points are given no
stress and the angle of a wrinkled point is a zero of the searched function with compression
across and lengthening along the wrinkles. -/
theorem C141_mixed (A : T2) (hA : Spec.PosDef.Metric A) (C : T3) (hC : PosDef C) (E : Voigt)
    (s0 s1 e0 e1 : ℝ) (hS : PrincipalStress A (mulVec3 C E) s0 s1)
    (hE : PrincipalStrain A E e0 e1) (htol : 0 ≤ s0 ∨ s0 < -(max s1 0 * 1e-12)) (θ : ℝ)
    (hθ : tensionField 2 s0 s1 e0 e1 = .ok 0 → objective C (mulVec3 C E) θ = 0 ∧
      comp (stressTensor (mulVec3 C E)) (dirN θ) (dirN θ) ≤ 0 ∧
      0 ≤ comp (strainTensor E) (dirM θ) (dirM θ)) :
    ∃ T W, State C (mulVec3 C E) T W ∧
      (tensionField 2 s0 s1 e0 e1).bind (fun tf => evalStress tf 0 θ C (mulVec3 C E)) = .ok T := by
  rcases htol with h | h
  · refine ⟨mulVec3 C E, 0, ⟨fun i => by simp, (tension_principal hA hS).2 h, ?_, ?_⟩, ?_⟩
    · rw [lengthens_iff]; simp
    · simp [work]
    · rw [mixed_one h]; rfl
  · rcases lt_or_ge e1 0 with g | g
    · refine ⟨0, fun i => -E i, ⟨fun i => ?_, ?_, (strain_principal hA hE).1.2 g.le, ?_⟩, ?_⟩
      · simp only [Pi.zero_apply, mulVec3, Fin.sum_univ_three]; ring
      · rw [tension_iff]; simp
      · simp [work]
      · rw [mixed_slack h g]
        simp [Outcome.bind, evalStress]
        rfl
    · have h0 := mixed_wrinkled (e0 := e0) h g
      obtain ⟨o, n, m⟩ := hθ h0
      rw [comp_nn] at n
      refine ⟨_, _, state_of_angle hC o n (tension_sign hC E θ o m), ?_⟩
      rw [h0]; rfl

example : Spec.PosDef.Metric unit ∧ PosDef (mk3 3 1 0 1 3 0 0 0 1) ∧
    PrincipalStress unit (mulVec3 (mk3 3 1 0 1 3 0 0 0 1) (vec3 1 (-4) 0)) (-11) (-1) ∧
    PrincipalStrain unit (vec3 1 (-4) 0) (-4) 1 ∧ (-11 : ℝ) < -(max (-1) 0 * 1e-12) ∧
    objective (mk3 3 1 0 1 3 0 0 0 1) (mulVec3 (mk3 3 1 0 1 3 0 0 0 1) (vec3 1 (-4) 0))
      (Real.pi / 2) = 0 ∧
    comp (stressTensor (mulVec3 (mk3 3 1 0 1 3 0 0 0 1) (vec3 1 (-4) 0))) (dirN (Real.pi / 2))
      (dirN (Real.pi / 2)) ≤ 0 ∧
    0 ≤ comp (strainTensor (vec3 1 (-4) 0)) (dirM (Real.pi / 2)) (dirM (Real.pi / 2)) := by
  refine ⟨unit_metric, third_pos, ⟨?_, ?_, ?_⟩, ⟨?_, ?_, ?_⟩, ?_, ?_, ?_, ?_⟩
  · norm_num
  · norm_num [unit, stressTensor, mulVec3, Fin.sum_univ_two, Fin.sum_univ_three]
  · norm_num [unit, stressTensor, mulVec3, Fin.sum_univ_three, det2]
  · norm_num
  · rw [unit_inv]; norm_num [unit, strainTensor, Fin.sum_univ_two]
  · norm_num [unit, strainTensor, det2]
  · norm_num
  · norm_num [objective, gamma, quad, dotV, mulVec3, n1, n2, Fin.sum_univ_three]
  · norm_num [comp, stressTensor, dirN, mulVec3, Fin.sum_univ_two, Fin.sum_univ_three]
  · norm_num [comp, strainTensor, dirM, Fin.sum_univ_two]

/-- C141: every point which the mixed criterion calls wrinkled has such an angle. -/
theorem C141_angle (A : T2) (hA : Spec.PosDef.Metric A) (C : T3) (hC : PosDef C) (hs : Symm C)
    (E : Voigt) (s0 s1 e0 e1 : ℝ) (hS : PrincipalStress A (mulVec3 C E) s0 s1)
    (hE : PrincipalStrain A E e0 e1) (h : tensionField 2 s0 s1 e0 e1 = .ok 0) :
    ∃ θ, objective C (mulVec3 C E) θ = 0 ∧
      comp (stressTensor (mulVec3 C E)) (dirN θ) (dirN θ) < 0 ∧
      0 ≤ comp (stressTensor (computeS θ C (mulVec3 C E))) (dirM θ) (dirM θ) ∧
      State C (mulVec3 C E) (computeS θ C (mulVec3 C E))
        (fun i => gamma θ C (mulVec3 C E) * n1 θ i) := by
  obtain ⟨hs0, he1⟩ := mixed_zero h
  obtain ⟨T, W, hst⟩ := exists_state hC hs (mulVec3 C E)
  have hW : W ≠ 0 := by
    intro e
    have : T = mulVec3 C E := by
      funext i; rw [hst.law i, e]; simp
    have hn := hst.tension
    rw [this] at hn
    have := (tension_principal hA hS).1 hn
    linarith
  obtain ⟨w0, w1, w2⟩ := (lengthens_iff W).1 hst.wrinkles
  have hd : W 2 ^ 2 = 4 * (W 0 * W 1) := by
    by_contra hne
    have hlt : W 2 ^ 2 < 4 * (W 0 * W 1) := lt_of_le_of_ne (by nlinarith) hne
    have hp : 0 < W 0 * W 1 := by nlinarith [sq_nonneg (W 2)]
    have p0 : 0 < W 0 := lt_of_le_of_ne w0 (fun e => by rw [← e, zero_mul] at hp; exact lt_irrefl _ hp)
    have p1 : 0 < W 1 := lt_of_le_of_ne w1 (fun e => by rw [← e, mul_zero] at hp; exact lt_irrefl _ hp)
    have hT := zero_of_full hst.tension hst.idle p0 p1 hlt
    have hz : ∀ i, W i = -E i := by
      have hne : (fun i => E i + W i) = 0 := by
        by_contra hne
        have hq := quad_pos hC hne
        have hzero : mulVec3 C (fun i => E i + W i) = 0 := by
          funext i
          have l := hst.law i
          rw [hT] at l
          simp only [Pi.zero_apply, mulVec3, Fin.sum_univ_three] at l ⊢
          linarith
        rw [quad, hzero] at hq
        simp [dotV] at hq
      intro i
      have := congrFun hne i
      simp only [Pi.zero_apply] at this
      linarith
    have := (strain_principal hA hE).2 ⟨by rw [← hz]; exact p0, by rw [← hz]; exact p1, by
      have a := hz 0; have b := hz 1; have c := hz 2
      rw [a, b, c] at hlt
      linarith⟩
    linarith
  obtain ⟨θ, ho, hn, hm, hcs, hw⟩ := angle_of_state hC hst hW hd
  refine ⟨θ, ho, by rw [comp_nn]; exact hn, by rw [hcs]; exact hm, ?_⟩
  rw [hcs]
  have : (fun i => gamma θ C (mulVec3 C E) * n1 θ i) = W := funext fun i => (hw i).symm
  rw [this]; exact hst

example : tensionField 2 (-11) (-1) (-4) 1 = .ok 0 :=
  mixed_wrinkled (by norm_num) (by norm_num)

/-- C141: whichever of these angles the search returns, the stress and the wrinkling strain
are the same, and the wrinkling direction is the same up to sign. -/
theorem C141_search (C : T3) (hC : PosDef C) (S : Voigt) (θ φ : ℝ)
    (oθ : objective C S θ = 0) (nθ : comp (stressTensor S) (dirN θ) (dirN θ) < 0)
    (mθ : 0 ≤ comp (stressTensor (computeS θ C S)) (dirM θ) (dirM θ))
    (oφ : objective C S φ = 0) (nφ : comp (stressTensor S) (dirN φ) (dirN φ) < 0)
    (mφ : 0 ≤ comp (stressTensor (computeS φ C S)) (dirM φ) (dirM φ)) :
    computeS θ C S = computeS φ C S ∧ (∀ i, gamma θ C S * n1 θ i = gamma φ C S * n1 φ i) ∧
      Real.sin (θ - φ) = 0 := by
  rw [comp_nn] at nθ nφ
  have a := state_of_angle hC oθ nθ.le mθ
  have b := state_of_angle hC oφ nφ.le mφ
  obtain ⟨h1, h2⟩ := unique hC a b
  have h2' : ∀ i, gamma θ C S * n1 θ i = gamma φ C S * n1 φ i := fun i => congrFun h2 i
  refine ⟨h1, h2', ?_⟩
  have pos : 0 < gamma θ C S := div_pos (by linarith) (quad_pos hC (n1_ne θ))
  have x0 := h2' 0
  have x1 := h2' 1
  have x2 := h2' 2
  simp only [n1, vec3_zero, vec3_one, vec3_two] at x0 x1 x2
  have cθ := Real.cos_sq_add_sin_sq θ
  have cφ := Real.cos_sq_add_sin_sq φ
  have hg : gamma θ C S = gamma φ C S := by
    linear_combination x0 + x1 - gamma θ C S * cθ + gamma φ C S * cφ
  rw [← hg] at x0 x1 x2
  have y0 := mul_left_cancel₀ pos.ne' x0
  have y1 := mul_left_cancel₀ pos.ne' x1
  have y2 := mul_left_cancel₀ pos.ne' x2
  have : Real.sin (θ - φ) ^ 2 = 0 := by
    rw [Real.sin_sub]
    generalize Real.cos θ = c at *
    generalize Real.sin θ = s at *
    generalize Real.cos φ = d at *
    generalize Real.sin φ = u at *
    have e : (s * d - c * u) ^ 2 = s * s * (d * d) + c * c * (u * u)
        - (2 * c * s) * (2 * d * u) / 2 := by ring
    rw [e, y0, y1, y2]; ring
  exact pow_eq_zero_iff (two_ne_zero) |>.1 this

example : objective (mk3 3 1 0 1 3 0 0 0 1) (vec3 (-1) (-11) 0) (Real.pi / 2) = 0 ∧
    comp (stressTensor (vec3 (-1) (-11) 0)) (dirN (Real.pi / 2)) (dirN (Real.pi / 2)) < 0 ∧
    0 ≤ comp (stressTensor (computeS (Real.pi / 2) (mk3 3 1 0 1 3 0 0 0 1) (vec3 (-1) (-11) 0)))
      (dirM (Real.pi / 2)) (dirM (Real.pi / 2)) := by
  refine ⟨?_, ?_, ?_⟩
  · norm_num [objective, gamma, quad, dotV, mulVec3, n1, n2, Fin.sum_univ_three]
  · norm_num [comp, stressTensor, dirN, Fin.sum_univ_two]
  · norm_num [comp, stressTensor, dirM, Fin.sum_univ_two, computeS, mulVec3, gamma, quad, dotV, n1,
      Fin.sum_univ_three]

/-- C141: the wrinkled stress does not depend on the parametrisation of the surface: angles
with compression across and tension along the wrinkles, found in two coordinate systems, give
the components of one stress. -/
theorem C141_coordinates (J : T2) (hJ : det2 J ≠ 0) (C C' : T3) (hC : PosDef C) (hC' : PosDef C')
    (hCC : SameStiffness J C C') (S S' : Voigt) (hSS : SameStress J S S') (θ θ' : ℝ)
    (oθ : objective C S θ = 0) (nθ : comp (stressTensor S) (dirN θ) (dirN θ) ≤ 0)
    (mθ : 0 ≤ comp (stressTensor (computeS θ C S)) (dirM θ) (dirM θ))
    (oθ' : objective C' S' θ' = 0) (nθ' : comp (stressTensor S') (dirN θ') (dirN θ') ≤ 0)
    (mθ' : 0 ≤ comp (stressTensor (computeS θ' C' S')) (dirM θ') (dirM θ')) :
    SameStress J (computeS θ C S) (computeS θ' C' S') := by
  rw [comp_nn] at nθ nθ'
  obtain ⟨T', same, st⟩ := state_transfer hJ hCC hSS (state_of_angle hC oθ nθ mθ)
  rw [(unique hC' (state_of_angle hC' oθ' nθ' mθ') st).1]
  exact same

example : ∃ (J : T2) (C C' : T3) (S S' : Voigt), det2 J ≠ 0 ∧ J ≠ unit ∧ SameStiffness J C C' ∧
    SameStress J S S' ∧ S ≠ S' := by
  refine ⟨![![2, 0], ![0, 1]], mk3 48 4 0 4 3 0 0 0 4, mk3 3 1 0 1 3 0 0 0 1,
    vec3 (-4) (-11) 0, vec3 (-1) (-11) 0, ?_, ?_, ?_, ?_, ?_⟩
  · norm_num [det2]
  · intro h
    have := congrFun (congrFun h 0) 0
    norm_num [unit] at this
  · intro E F
    simp only [pull, comp, strainTensor, Fin.sum_univ_two, Fin.sum_univ_three, Matrix.cons_val_zero,
      Matrix.cons_val_one, vec3_zero, vec3_one, vec3_two, mk3_zero, mk3_one, mk3_two]
    ring
  · intro E
    simp only [pull, comp, strainTensor, Fin.sum_univ_two, Matrix.cons_val_zero,
      Matrix.cons_val_one, work_eq, vec3_zero, vec3_one, vec3_two]
    ring
  · intro h
    have := congrFun h 0
    norm_num at this

/-- C141 (partial): for the linear isotropic material in orthonormal coordinates the acceptance
test of the code accepts only right angles.  Missing: other coordinates and other materials,
see the negative result. -/
theorem C141_accept_partial (Y ν : ℝ) (hY : 0 < Y) (h1 : -1 < ν) (h2 : ν < 1 / 2) (E : Voigt)
    (s0 s1 e0 e1 θ : ℝ) (hE : PrincipalStrain unit E e0 e1) (h : tensionField 2 s0 s1 e0 e1 = .ok 0)
    (h0 : objective (Linear.matrix Y ν unit) (mulVec3 (Linear.matrix Y ν unit) E) θ = 0)
    (hc : checkTheta θ (mulVec3 (Linear.matrix Y ν unit) E) E) :
    ∃ W, State (Linear.matrix Y ν unit) (mulVec3 (Linear.matrix Y ν unit) E)
      (computeS θ (Linear.matrix Y ν unit) (mulVec3 (Linear.matrix Y ν unit) E)) W := by
  obtain ⟨hm, hcm⟩ := lame_pos hY h1 h2
  have he1 := (mixed_zero h).2
  rw [linear_unit] at h0 hc ⊢
  have hp := iso_pos hm hcm
  have hacc := iso_accept hm E θ hE he1 h0 hc.2
  exact ⟨_, state_of_angle hp h0 hc.1.le (tension_sign hp E θ h0 hacc)⟩

example : ∃ θ : ℝ, checkTheta θ (mulVec3 (Linear.matrix (8 / 3) (1 / 3) unit) (vec3 1 (-4) 0))
    (vec3 1 (-4) 0) := by
  refine ⟨Real.pi / 2, ?_, ?_⟩
  · rw [iso_third]
    norm_num [dotV, n1, mulVec3, Fin.sum_univ_three]
  · norm_num [dotV, n4, Fin.sum_univ_three]

/-- C141 (violated, strain criterion): an isotropic membrane under tension in all directions is
called wrinkled, and whatever the angle its stress is not that of the state. -/
theorem C141_strain_violated : ∃ (E T W : Voigt) (s0 s1 e0 e1 : ℝ),
    PrincipalStress unit (mulVec3 (Linear.matrix (8 / 3) (1 / 3) unit) E) s0 s1 ∧
    PrincipalStrain unit E e0 e1 ∧
    State (Linear.matrix (8 / 3) (1 / 3) unit) (mulVec3 (Linear.matrix (8 / 3) (1 / 3) unit) E)
      T W ∧ 0 < s0 ∧ tensionField 0 s0 s1 e0 e1 = .ok 0 ∧
    ∀ slack θ, evalStress 0 slack θ (Linear.matrix (8 / 3) (1 / 3) unit)
      (mulVec3 (Linear.matrix (8 / 3) (1 / 3) unit) E) ≠ .ok T := by
  rw [iso_third]
  have hS : mulVec3 (mk3 3 1 0 1 3 0 0 0 1) (vec3 4 (-1) 0) = vec3 11 1 0 := by
    funext i
    rcases fin3_cases i with rfl | rfl | rfl <;> norm_num [mulVec3, Fin.sum_univ_three]
  refine ⟨vec3 4 (-1) 0, vec3 11 1 0, 0, 1, 11, -1, 4, ⟨?_, ?_, ?_⟩, ⟨?_, ?_, ?_⟩,
    ⟨fun i => ?_, ?_, ?_, ?_⟩, ?_, ?_, fun slack θ h => ?_⟩
  · norm_num
  · rw [hS]; norm_num [unit, stressTensor, Fin.sum_univ_two]
  · rw [hS]; norm_num [unit, stressTensor, det2]
  · norm_num
  · rw [unit_inv]; norm_num [unit, strainTensor, Fin.sum_univ_two]
  · norm_num [unit, strainTensor, det2]
  · rw [hS]; simp
  · rw [tension_iff]; norm_num
  · rw [lengthens_iff]; simp
  · simp [work]
  · norm_num
  · simp only [tensionField, fieldOf]
    rw [if_pos trivial, if_neg (by norm_num), if_neg (by norm_num)]
  · rw [hS] at h
    have h : computeS θ (mk3 3 1 0 1 3 0 0 0 1) (vec3 11 1 0) = vec3 11 1 0 := by
      simp only [evalStress] at h
      rw [if_neg (by norm_num), if_neg (by norm_num), if_pos trivial] at h
      exact Outcome.ok.inj h
    have := dot_n1_computeS third_pos θ (vec3 11 1 0)
    rw [h] at this
    have hcs := Real.cos_sq_add_sin_sq θ
    simp only [dotV, n1, Fin.sum_univ_three, vec3_zero, vec3_one, vec3_two] at this
    nlinarith [sq_nonneg (Real.cos θ)]

/-- C141 (violated, stress criterion): an isotropic membrane which bears tension along its
wrinkles is called slack and given no stress. -/
theorem C141_stress_violated : ∃ (E T W : Voigt) (s0 s1 e0 e1 : ℝ),
    PrincipalStress unit (mulVec3 (Linear.matrix (8 / 3) (1 / 3) unit) E) s0 s1 ∧
    PrincipalStrain unit E e0 e1 ∧
    State (Linear.matrix (8 / 3) (1 / 3) unit) (mulVec3 (Linear.matrix (8 / 3) (1 / 3) unit) E)
      T W ∧ 0 < T 0 ∧ tensionField 1 s0 s1 e0 e1 = .ok (-1) ∧
    ∀ θ, evalStress (-1) 0 θ (Linear.matrix (8 / 3) (1 / 3) unit)
      (mulVec3 (Linear.matrix (8 / 3) (1 / 3) unit) E) ≠ .ok T := by
  rw [iso_third]
  refine ⟨vec3 1 (-4) 0, vec3 (8 / 3) 0 0, vec3 0 (11 / 3) 0, -11, -1, -4, 1, ⟨?_, ?_, ?_⟩,
    ⟨?_, ?_, ?_⟩, third_state, ?_, ?_, fun θ h => ?_⟩
  · norm_num
  · norm_num [unit, stressTensor, mulVec3, Fin.sum_univ_two, Fin.sum_univ_three]
  · norm_num [unit, stressTensor, mulVec3, Fin.sum_univ_three, det2]
  · norm_num
  · rw [unit_inv]; norm_num [unit, strainTensor, Fin.sum_univ_two]
  · norm_num [unit, strainTensor, det2]
  · norm_num
  · simp only [tensionField, fieldOf]
    rw [if_neg (by norm_num), if_pos trivial, if_neg (by norm_num), if_pos (by norm_num)]
  · simp only [evalStress] at h
    rw [if_neg (by norm_num), if_pos trivial] at h
    have := congrFun (Outcome.ok.inj h) 0
    norm_num at this

/-- C141 (violated, acceptance test): a point which the mixed criterion calls wrinkled and an
angle which is an exact zero and is accepted, for which the returned stress is not that of the
state: compression remains. -/
theorem C141_accept_violated : ∃ (C : T3) (E : Voigt) (s0 s1 e0 e1 θ : ℝ), PosDef C ∧ Symm C ∧
    PrincipalStress unit (mulVec3 C E) s0 s1 ∧ PrincipalStrain unit E e0 e1 ∧
    tensionField 2 s0 s1 e0 e1 = .ok 0 ∧ objective C (mulVec3 C E) θ = 0 ∧
    checkTheta θ (mulVec3 C E) E ∧
    ∀ T W, State C (mulVec3 C E) T W → evalStress 0 0 θ C (mulVec3 C E) ≠ .ok T := by
  obtain ⟨q1, q2, q4⟩ := quarter
  have hr : Real.sqrt 16385 * Real.sqrt 16385 = 16385 := Real.mul_self_sqrt (by norm_num)
  have hr0 : 0 ≤ Real.sqrt 16385 := Real.sqrt_nonneg _
  have hr1 : Real.sqrt 16385 ≤ 129 := by
    rw [Real.sqrt_le_left (by norm_num)]; norm_num
  have hg : gamma (-(Real.pi / 4)) badC (vec3 (-51) (-83) 127) = 4 := by
    rw [gamma, q1]
    norm_num [dotV, quad, mulVec3, badC, Fin.sum_univ_three]
  have hT : computeS (-(Real.pi / 4)) badC (vec3 (-51) (-83) 127) = vec3 (-1) (-1) (-1) := by
    funext i
    simp only [computeS, hg, q1]
    rcases fin3_cases i with rfl | rfl | rfl <;>
      norm_num [mulVec3, badC, Fin.sum_univ_three]
  refine ⟨badC, vec3 (-1) (-3) (15 / 4), -67 - Real.sqrt 16385, -67 + Real.sqrt 16385, -33 / 8,
    1 / 8, -(Real.pi / 4), badC_pos, badC_symm, ⟨?_, ?_, ?_⟩, ⟨?_, ?_, ?_⟩, ?_, ?_, ⟨?_, ?_⟩,
    fun T W hst h => ?_⟩
  · linarith
  · rw [bad_stress]; norm_num [unit, stressTensor, Fin.sum_univ_two]
  · rw [bad_stress]
    have : (-67 - Real.sqrt 16385) * (-67 + Real.sqrt 16385) = 4489 - 16385 := by
      linear_combination -hr
    rw [this]
    norm_num [unit, stressTensor, det2]
  · norm_num
  · rw [unit_inv]; norm_num [unit, strainTensor, Fin.sum_univ_two]
  · norm_num [unit, strainTensor, det2]
  · refine mixed_wrinkled ?_ (by norm_num)
    have : max (-67 + Real.sqrt 16385) 0 ≤ 62 := max_le (by linarith) (by norm_num)
    have := mul_le_mul_of_nonneg_right this (by norm_num : (0 : ℝ) ≤ 1e-12)
    norm_num at this ⊢
    linarith
  · rw [bad_stress, objective, hg, q1, q2]
    norm_num [dotV, quad, mulVec3, badC, Fin.sum_univ_three]
  · rw [bad_stress, q1]; norm_num [dotV, Fin.sum_univ_three]
  · rw [q4]; norm_num [dotV, Fin.sum_univ_three]
  · rw [bad_stress] at h
    simp only [evalStress] at h
    rw [if_neg (by norm_num), if_neg (by norm_num), if_pos trivial, hT] at h
    have h := Outcome.ok.inj h
    have := (tension_iff T).1 hst.tension
    rw [← h] at this
    norm_num at this

end Verif.Relaxed
