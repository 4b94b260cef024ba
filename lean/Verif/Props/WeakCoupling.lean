import Verif.Lemmas.WeakCoupling
import Verif.Props.Variation
import Mathlib.Tactic.NormNum
import Mathlib.Tactic.Positivity
import Mathlib.Tactic.LinearCombination

/-! # Properties C73, C74: weak C1 coupling and weak clamping -/

set_option linter.unusedSimpArgs false

namespace Verif.WeakForms

open V3 Verif.Geometry Verif.Variation

variable {ι F : Type}

/-! ## C73 -/

/-- **C73** Out-of-plane part: for every pair of patches, every quadrature rule and all fields, the
coupling vector is minus the gradient of the penalty energy of the angle between the normals. -/
theorem C73_out_force (Q : Finset ι) (wt α μ nn0 : ι → ℝ) (L R : IfcData ι) (hL : L.Regular Q)
    (hR : R.Regular Q) (wL wR : ι → Surf) :
    HasDerivAt (fun t => quad Q wt (fun q => angleEnergy (α q) (μ q) (L.side wL t q)
        (R.side wR t q) (nn0 q)))
      (-quad Q wt (fun q => c1VecOut (α q) (μ q) (L.now q) (R.now q) (nn0 q) (wL q) (wR q))) 0 := by
  rw [← quad_neg]
  refine quad_hasDeriv Q wt _ _ 0 (fun q hq => ?_)
  rw [← side_zero L wL q, ← side_zero R wR q]
  exact out_force _ _ _ (fun t => L.side wL t q) (fun t => R.side wR t q) _ _
    (sideCurve_nvar _ (wL q) _ (hL q hq).1 _ _).1 (sideCurve_nvar _ (wR q) _ (hR q hq).1 _ _).1

/-- **C73** Out-of-plane part: the coupling matrix is minus the derivative of the coupling
vector. -/
theorem C73_out_tangent (Q : Finset ι) (wt α μ nn0 : ι → ℝ) (L R : IfcData ι) (hL : L.Regular Q)
    (hR : R.Regular Q) (vL vR wL wR : ι → Surf) :
    HasDerivAt (fun t => quad Q wt (fun q => c1VecOut (α q) (μ q) (L.side wL t q)
        (R.side wR t q) (nn0 q) (vL q) (vR q)))
      (-quad Q wt (fun q =>
        c1MatOut1 (α q) (μ q) (L.now q) (R.now q) (nn0 q) (vL q) (vR q) (wL q) (wR q)
          + c1MatOut2 (α q) (μ q) (L.now q) (R.now q) (vL q) (vR q) (wL q) (wR q))) 0 := by
  rw [← quad_neg]
  refine quad_hasDeriv Q wt _ _ 0 (fun q hq => ?_)
  rw [← side_zero L wL q, ← side_zero R wR q]
  exact out_tangent _ _ _ (fun t => L.side wL t q) (fun t => R.side wR t q) _ _ _ _
    (sideCurve_nvar _ _ _ (hL q hq).1 _ _) (sideCurve_nvar _ _ _ (hR q hq).1 _ _)

/-- **C73** Out-of-plane part: the coupling matrix is symmetric. -/
theorem C73_out_symmetric (α μ nn0 : ℝ) (sL sR : Surf) (tL tR : V3) (vL vR wL wR : Surf) :
    c1MatOut1 α μ (sideOf sL tL) (sideOf sR tR) nn0 vL vR wL wR
        + c1MatOut2 α μ (sideOf sL tL) (sideOf sR tR) vL vR wL wR =
      c1MatOut1 α μ (sideOf sL tL) (sideOf sR tR) nn0 wL wR vL vR
        + c1MatOut2 α μ (sideOf sL tL) (sideOf sR tR) wL wR vL vR := by
  unfold c1MatOut1 c1MatOut2
  simp only [sideOf]
  rw [C64_symmetric sL vL wL, C64_symmetric sR vR wR, dot_comm (var1 sL vL) (var1 sR wR),
    dot_comm (var1 sR vR) (var1 sL wL)]
  ring

/-- **C73** In-plane part: the coupling vector is minus the gradient of its penalty energy. -/
theorem C73_in_force (Q : Finset ι) (wt α μ lr0 rl0 : ι → ℝ) (L R : IfcData ι) (hL : L.Regular Q)
    (hR : R.Regular Q) (wL wR : ι → Surf) :
    HasDerivAt (fun t => quad Q wt (fun q => outerEnergy (α q) (μ q) (L.side wL t q)
        (R.side wR t q) (lr0 q) (rl0 q)))
      (-quad Q wt (fun q =>
        c1VecIn (α q) (μ q) (L.now q) (R.now q) (lr0 q) (rl0 q) (wL q) (wR q))) 0 := by
  rw [← quad_neg]
  refine quad_hasDeriv Q wt _ _ 0 (fun q hq => ?_)
  rw [← side_zero L wL q, ← side_zero R wR q]
  exact in_force _ _ _ _ (fun t => L.side wL t q) (fun t => R.side wR t q) _ _
    (sideCurve_nvar _ (wL q) _ (hL q hq).1 _ _).1 (sideCurve_nvar _ (wR q) _ (hR q hq).1 _ _).1
    (sideCurve_o _ _ (hL q hq).1 _ _ (hL q hq).2) (sideCurve_o _ _ (hR q hq).1 _ _ (hR q hq).2)

/-- **C73** Matrices of the linear assembly (the lines without second variations in the reference
state): symmetric and positive semi-definite. -/
theorem C73_linear (α μ : ℝ) (hα : 0 ≤ α) (hμ : 0 ≤ μ) (L R : Side F) (vL vR wL wR : F) :
    c1MatOut2 α μ L R vL vR wL wR + c1MatIn2 α μ L R vL vR wL wR =
      c1MatOut2 α μ L R wL wR vL vR + c1MatIn2 α μ L R wL wR vL vR ∧
    0 ≤ c1MatOut2 α μ L R vL vR vL vR + c1MatIn2 α μ L R vL vR vL vR := by
  constructor
  · unfold c1MatOut2 c1MatIn2; ring
  · have : c1MatOut2 α μ L R vL vR vL vR + c1MatIn2 α μ L R vL vR vL vR
        = α * μ * (2 * (dot (L.n1 vL) R.n + dot (R.n1 vR) L.n) ^ 2
          + (dot (L.o1 vL) R.n + dot (R.n1 vR) L.o) ^ 2
          + (dot (R.o1 vR) L.n + dot (L.n1 vL) R.o) ^ 2) := by
      unfold c1MatOut2 c1MatIn2; ring
    rw [this]; positivity

/-- **C73** The nonlinear matrix in the reference state is the linear one, because the angle
differences vanish there. -/
theorem C73_reference (α μ : ℝ) (L R : Side F) (vL vR wL wR : F) :
    c1MatOut1 α μ L R (dot L.n R.n) vL vR wL wR = 0 ∧
    c1MatIn1 α μ L R (dot L.o R.n) (dot R.o L.n) vL vR wL wR = 0 := by
  constructor
  · unfold c1MatOut1 dN
    rw [dot_comm R.n L.n]; ring
  · unfold c1MatIn1 dnN; ring

/-- **C73** (partial: in-plane part with unit parametric tangents, at points where the angles have
their reference values) The coupling matrix is minus the derivative of the coupling vector. -/
theorem C73_in_partial (α μ lr0 rl0 : ℝ) (sL sR : Surf) (hL : Indep (sL.a 0) (sL.a 1))
    (hR : Indep (sR.a 0) (sR.a 1)) (huL : ∀ i, V3.norm (sL.a i) = 1)
    (huR : ∀ i, V3.norm (sR.a i) = 1) (cL cR : Fin 2) (σL σR : ℝ) (hσL : σL = 1 ∨ σL = -1)
    (hσR : σR = 1 ∨ σR = -1) (vL vR wL wR : Surf)
    (h0 : dnN (sideOf sL (σL • sL.a cL)) (sideOf sR (σR • sR.a cR)) lr0 = 0)
    (h0' : dnN (sideOf sR (σR • sR.a cR)) (sideOf sL (σL • sL.a cL)) rl0 = 0) :
    HasDerivAt (fun t => c1VecIn α μ (sideCurve sL wL cL σL t) (sideCurve sR wR cR σR t) lr0 rl0
        vL vR)
      (-(c1MatIn1 α μ (sideOf sL (σL • sL.a cL)) (sideOf sR (σR • sR.a cR)) lr0 rl0 vL vR wL wR
        + c1MatIn2 α μ (sideOf sL (σL • sL.a cL)) (sideOf sR (σR • sR.a cR)) vL vR wL wR)) 0 := by
  have h := in_tangent α μ lr0 rl0 (sideCurve sL wL cL σL) (sideCurve sR wR cR σR) vL vR wL wR
    (sideCurve_nvar _ _ _ hL _ _) (sideCurve_nvar _ _ _ hR _ _)
    (sideCurve_ovar _ _ _ hL huL _ _ hσL) (sideCurve_ovar _ _ _ hR huR _ _ hσR)
  have e1 : sideCurve sL wL cL σL 0 = sideOf sL (σL • sL.a cL) := by
    simp only [sideCurve, shift_zero]
  have e2 : sideCurve sR wR cR σR 0 = sideOf sR (σR • sR.a cR) := by
    simp only [sideCurve, shift_zero]
  rw [e1, e2] at h
  refine h.congr_deriv ?_
  unfold inDefect
  rw [h0, h0']; ring

/-- **C73** (partial: exact error of the in-plane part for unit parametric tangents) The derivative
of the in-plane vector differs from minus the coded matrix by exactly `inDefect`. -/
theorem C73_in_error_partial (α μ lr0 rl0 : ℝ) (sL sR : Surf) (hL : Indep (sL.a 0) (sL.a 1))
    (hR : Indep (sR.a 0) (sR.a 1)) (huL : ∀ i, V3.norm (sL.a i) = 1)
    (huR : ∀ i, V3.norm (sR.a i) = 1) (cL cR : Fin 2) (σL σR : ℝ) (hσL : σL = 1 ∨ σL = -1)
    (hσR : σR = 1 ∨ σR = -1) (vL vR wL wR : Surf) :
    HasDerivAt (fun t => c1VecIn α μ (sideCurve sL wL cL σL t) (sideCurve sR wR cR σR t) lr0 rl0
        vL vR)
      (-(c1MatIn1 α μ (sideOf sL (σL • sL.a cL)) (sideOf sR (σR • sR.a cR)) lr0 rl0 vL vR wL wR
        + c1MatIn2 α μ (sideOf sL (σL • sL.a cL)) (sideOf sR (σR • sR.a cR)) vL vR wL wR
        + inDefect α μ (sideOf sL (σL • sL.a cL)) (sideOf sR (σR • sR.a cR)) lr0 rl0
          vL vR wL wR)) 0 := by
  have h := in_tangent α μ lr0 rl0 (sideCurve sL wL cL σL) (sideCurve sR wR cR σR) vL vR wL wR
    (sideCurve_nvar _ _ _ hL _ _) (sideCurve_nvar _ _ _ hR _ _)
    (sideCurve_ovar _ _ _ hL huL _ _ hσL) (sideCurve_ovar _ _ _ hR huR _ _ hσR)
  have e1 : sideCurve sL wL cL σL 0 = sideOf sL (σL • sL.a cL) := by
    simp only [sideCurve, shift_zero]
  have e2 : sideCurve sR wR cR σR 0 = sideOf sR (σR • sR.a cR) := by
    simp only [sideCurve, shift_zero]
  rwa [e1, e2] at h

/-- Non-vacuity of `C73_in_partial` and of the theorems on regular interfaces: two patches folded by
an angle, in their reference state. -/
example : ∃ lr0 rl0 : ℝ,
    dnN (sideOf flatL ((1 : ℝ) • flatL.a 1)) (sideOf foldR ((-1 : ℝ) • foldR.a 1)) lr0 = 0 ∧
    dnN (sideOf foldR ((-1 : ℝ) • foldR.a 1)) (sideOf flatL ((1 : ℝ) • flatL.a 1)) rl0 = 0 :=
  ⟨_, _, sub_self _, sub_self _⟩

example : (⟨fun _ => flatL, fun _ => 1, fun _ => 1⟩ : IfcData ℕ).Regular {0} := fun _ _ =>
  ⟨flatL_indep, .inl rfl⟩

/-- **C73** is violated: for two patches folded at the interface (reference state flat), the coded
in-plane matrix is zero for a tilt of the left and a shear of the right patch, while the derivative
of the vector is not. -/
theorem C73_in_violated :
    ∃ vL vR wL wR : Surf, ¬ HasDerivAt
      (fun t => c1VecIn 1 1 (sideCurve flatL wL 1 1 t) (sideCurve foldR wR 1 (-1) t) 0 0 vL vR)
      (-(c1MatIn1 1 1 (sideOf flatL ((1 : ℝ) • flatL.a 1)) (sideOf foldR ((-1 : ℝ) • foldR.a 1)) 0 0
          vL vR wL wR
        + c1MatIn2 1 1 (sideOf flatL ((1 : ℝ) • flatL.a 1)) (sideOf foldR ((-1 : ℝ) • foldR.a 1))
          vL vR wL wR)) 0 := by
  refine ⟨tiltL, still, still, shearR, fun h => ?_⟩
  have h2 := C73_in_error_partial 1 1 0 0 flatL foldR flatL_indep foldR_indep flatL_unit foldR_unit
    1 1 1 (-1) (.inl rfl) (.inr rfl) tiltL still still shearR
  have h3 := h.unique h2
  have hdef : inDefect 1 1 witL witR 0 0 tiltL still still shearR = 0 := by
    unfold witL witR; linarith
  simp only [inDefect, dnN, witL_n, witR_n, witL_o, witR_o, witL_n1_tilt, witL_n1_still, witR_n1_shear,
    witR_n1_still, witL_o1_tilt, witL_o1_still, witR_o1_shear, witR_o1_still, witL_n2.1, witL_n2.2,
    witR_n2.1, witR_n2.2, witL_o2_zero.1, witL_o2_zero.2, witR_o2_zero.1, witR_o2_zero.2] at hdef
  norm_num [dot] at hdef

/-- **C73** is violated: the coded in-plane matrix is not symmetric for the folded patches of
`C73_in_violated`. -/
theorem C73_in_symmetry_violated : ∃ (sL sR : Surf) (vL vR wL wR : Surf),
    Indep (sL.a 0) (sL.a 1) ∧ Indep (sR.a 0) (sR.a 1) ∧
    c1MatIn1 1 1 (sideOf sL ((1 : ℝ) • sL.a 1)) (sideOf sR ((-1 : ℝ) • sR.a 1)) 0 0 vL vR wL wR
        + c1MatIn2 1 1 (sideOf sL ((1 : ℝ) • sL.a 1)) (sideOf sR ((-1 : ℝ) • sR.a 1)) vL vR wL wR ≠
      c1MatIn1 1 1 (sideOf sL ((1 : ℝ) • sL.a 1)) (sideOf sR ((-1 : ℝ) • sR.a 1)) 0 0 wL wR vL vR
        + c1MatIn2 1 1 (sideOf sL ((1 : ℝ) • sL.a 1)) (sideOf sR ((-1 : ℝ) • sR.a 1))
          wL wR vL vR := by
  refine ⟨flatL, foldR, tiltL, still, still, shearR, flatL_indep, foldR_indep, fun h => ?_⟩
  change c1MatIn1 1 1 witL witR 0 0 tiltL still still shearR
    + c1MatIn2 1 1 witL witR tiltL still still shearR
    = c1MatIn1 1 1 witL witR 0 0 still shearR tiltL still
      + c1MatIn2 1 1 witL witR still shearR tiltL still at h
  simp only [c1MatIn1, c1MatIn2, dnN, witL_n, witR_n, witL_o, witR_o, witL_n1_tilt, witL_n1_still, witR_n1_shear,
    witR_n1_still, witL_o1_tilt, witL_o1_still, witR_o1_shear, witR_o1_still, witL_n2.1, witL_n2.2,
    witR_n2.1, witR_n2.2, witL_o2_zero.1, witL_o2_zero.2, witR_o2_zero.1, witR_o2_zero.2] at h
  norm_num [dot] at h

/-! ## C74 -/

/-- **C74** (partial: the reference state) In the reference state the clamping vector vanishes, the
nonlinear matrix is the linear one, symmetric and positive semi-definite. -/
theorem C74_reference_partial (α μ : ℝ) (hα : 0 ≤ α) (hμ : 0 ≤ μ) (ori : Surf) (ν N : V3)
    (v w : Surf) :
    clampVec α μ ori (normal ori) N v = 0 ∧
    clampMat α μ ori (normal ori) ν v w = clampMatLin α μ ori ν v w ∧
    clampMat α μ ori (normal ori) ν v w = clampMat α μ ori (normal ori) ν w v ∧
    0 ≤ clampMat α μ ori (normal ori) ν v v := by
  refine ⟨?_, ?_, ?_, ?_⟩
  · unfold clampVec; ring
  · unfold clampMat clampMatLin; ring
  · unfold clampMat; ring
  · have : clampMat α μ ori (normal ori) ν v v = α * μ * dot (var1 ori v) ν ^ 2 := by
      unfold clampMat; ring
    rw [this]; positivity

/-- The gradient of the clamping energy: what the clamping vector should be minus. -/
noncomputable def clampGrad (α μ : ℝ) (s : Surf) (n0 ν : V3) (v : Surf) : ℝ :=
  α * (dot (normal s) ν - dot n0 ν) * dot (var1 s v) ν * μ

/-- **C74** (partial: matrix in the reference state) The linear clamping matrix is the second
derivative of the clamping energy in the reference state. -/
theorem C74_energy_partial (α μ : ℝ) (ori : Surf) (h : Indep (ori.a 0) (ori.a 1)) (n0 ν : V3)
    (v w : Surf) :
    HasDerivAt (fun t => clampEnergy α μ (shift ori w t) n0 ν) (clampGrad α μ ori n0 ν w) 0 ∧
    HasDerivAt (fun t => clampGrad α μ (shift ori w t) (normal ori) ν v)
      (clampMatLin α μ ori ν v w) 0 := by
  have hn := hasVDeriv_normal ori w h
  have hv := hasVDeriv_var1 ori v w h
  constructor
  · have h1 := ((hn.dot_const ν).sub_const (dot n0 ν)).pow 2
    have h2 := (h1.const_mul (α / 2)).mul_const μ
    refine (h2.congr_deriv ?_).congr_of_eventuallyEq (Filter.Eventually.of_forall (fun t => ?_))
    · unfold clampGrad
      simp only [shift_zero]
      push_cast; ring
    · simp only [clampEnergy, unitNormal, normal, normalized, V3.norm, Pi.pow_apply]
  · have h1 := ((hn.dot_const ν).sub_const (dot (normal ori) ν)).const_mul α
    have h2 := (h1.mul (hv.dot_const ν)).mul_const μ
    refine h2.congr_deriv ?_
    unfold clampMatLin
    simp only [shift_zero]
    ring

/-- **C74** (partial: the exact derivative of the vector) -/
theorem C74_vector_partial (α μ : ℝ) (s : Surf) (h : Indep (s.a 0) (s.a 1)) (n0 N : V3)
    (v w : Surf) :
    HasDerivAt (fun t => clampVec α μ (shift s w t) n0 N v)
      (-(α * (dot (var1 s w) N * dot (var1 s v) n0
        + (dot (normal s) N - dot n0 N) * dot (var2 s v w) n0) * μ)) 0 := by
  have hn := hasVDeriv_normal s w h
  have hv := hasVDeriv_var1 s v w h
  have h1 := ((hn.dot_const N).sub_const (dot n0 N)).const_mul (-α)
  have h2 := (h1.mul (hv.dot_const n0)).mul_const μ
  refine h2.congr_deriv ?_
  simp only [shift_zero]
  ring

/-- **C74** is violated: in the reference state the derivative of the clamping vector is zero in
every direction, for every regular surface and every boundary normal, because the vector projects
the variation of the normal on the normal itself. -/
theorem C74_vector_violated (α μ : ℝ) (ori : Surf) (h : Indep (ori.a 0) (ori.a 1)) (N : V3)
    (v w : Surf) :
    HasDerivAt (fun t => clampVec α μ (shift ori w t) (normal ori) N v) 0 0 := by
  refine (C74_vector_partial α μ ori h (normal ori) N v w).congr_deriv ?_
  have : dot (var1 ori v) (normal ori) = 0 := var1_dot_normal ori v h
  rw [this]; ring

/-- A plate turned about its boundary. -/
def turn : Surf := ⟨![⟨0, 0, 1⟩, 0], 0, 0, 0⟩

/-- **C74** is violated: for a flat plate turned about its clamped side the coded matrix is not
minus the derivative of the coded vector. -/
theorem C74_violated : ∃ (ori v w : Surf) (ν : V3), Indep (ori.a 0) (ori.a 1) ∧
    ν = cross (normalized (ori.a 1)) (normal ori) ∧
    ¬ HasDerivAt (fun t => clampVec 1 1 (shift ori w t) (normal ori) ν v)
      (-clampMat 1 1 ori (normal ori) ν v w) 0 := by
  refine ⟨flatL, turn, turn, ⟨1, 0, 0⟩, flatL_indep, ?_, fun h => ?_⟩
  · have : flatL.a 1 = ⟨0, 1, 0⟩ := by simp [flatL]
    rw [this, unit_ey, flatL_normal]; ext <;> norm_num [cross]
  · have h0 := h.unique (C74_vector_violated 1 1 flatL flatL_indep ⟨1, 0, 0⟩ turn turn)
    have hv : var1 flatL turn = ⟨-1, 0, 0⟩ := by
      unfold var1 mvec
      rw [flatL_measure, flatL_normal]; ext <;> norm_num [flatL, turn, dot, cross]
    unfold clampMat at h0
    rw [hv] at h0
    norm_num [dot] at h0

/-- **C74** is violated: the second-order term of the coded matrix contracts the second derivatives
of the surface with the components of the boundary normal; for a flat surface it is zero although
the second variation of the normal is not. -/
theorem C74_second_violated : ∃ (s v w : Surf) (n0 ν : V3), Indep (s.a 0) (s.a 1) ∧
    dot (normal s) ν - dot n0 ν ≠ 0 ∧ dot (var2 s v w) ν ≠ 0 ∧
    clampMat 1 1 s n0 ν v w = 1 * (dot (var1 s v) ν * dot (var1 s w) ν) * 1 := by
  refine ⟨flatL, turn, turn, ⟨3 / 5, 0, 4 / 5⟩, ⟨4 / 5, 0, -3 / 5⟩, flatL_indep, ?_, ?_, ?_⟩
  · rw [flatL_normal]; norm_num [dot]
  · unfold var2 var2From var1 mvec muv
    rw [flatL_measure, flatL_normal]
    norm_num [flatL, turn, dot, cross]
  · unfold clampMat var2deriv2 deriv2dot
    simp [flatL, dbl3, dot, dotV, Fin.sum_univ_three, vec3]

/-- Non-vacuity of the theorems on C74: a regular surface. -/
example : Indep (flatL.a 0) (flatL.a 1) := flatL_indep

end Verif.WeakForms
