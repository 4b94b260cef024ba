import Verif.Lemmas.DWR3

/-!
# Goals and duals of the goal-oriented error estimator

C90: on the domain the assembled dual is the derivative of the goal.  C91: on boundaries.
C92: on points.  C93: independence of the parametrisation.
-/

set_option linter.unusedSimpArgs false

namespace Verif.DWR

open V3 Verif.Geometry Verif.Variation

/-! ## C90 -/

/-- **C90** On the domain, for every goal that is not built from principal directions and every
component, the assembled dual is the derivative of the computed goal along the test function, if the
moduli are the derivatives of the stresses and the given field is the displacement. -/
theorem C90_domain_partial (g : Goal) (hg : Direct g) (c : ℕ) (hc : Comp3 c) (r : Rule)
    (h : ∀ q ∈ r, Moves q.2.1 q.2.2 ∧ Tangent q.2.1 ∧ IsDisplacement (q.2.1 0)) :
    IsDerivative (fun t => goal .domain g c (r.at t)) (dual .domain g c r.start) :=
  isDerivative_sum .domain g c r fun q hq =>
    direct_at .domain g hg c hc ⟨fun _ => Or.inr rfl, fun _ => Or.inr fun _ => by simp⟩ q.2.1 q.2.2
      (h q hq).1 (h q hq).2.1 (h q hq).2.2

/-- **C90** For the linear material the hypotheses on the moduli hold: goal and dual match for any
deformation and any test function. -/
theorem C90_linear_partial (E ν τ : ℝ) (g : Goal) (hg : Direct g) (c : ℕ) (hc : Comp3 c)
    (L : List (ℝ × Pt × Fld)) (h : ∀ q ∈ L, Indep (q.2.1.defo.a 0) (q.2.1.defo.a 1)) :
    IsDerivative
      (fun t => goal .domain g c (L.map fun q => (q.1, linState E ν τ (displaced q.2.1 q.2.2 t))))
      (dual .domain g c
        (L.map fun q => (q.1, linState E ν τ (displaced q.2.1 q.2.2 0), q.2.2))) := by
  have hr := C90_domain_partial g hg c hc
    (L.map fun q => (q.1, (fun t => linState E ν τ (displaced q.2.1 q.2.2 t)), q.2.2)) (by
      intro q hq
      obtain ⟨q', hq', rfl⟩ := List.mem_map.1 hq
      exact ⟨lin_moves E ν τ q'.2.1 q'.2.2 (h q' hq'), lin_tangent E ν τ q'.2.1 q'.2.2 (h q' hq'),
        rfl⟩)
  simpa only [Rule.at, Rule.start, List.map_map, Function.comp_def] using hr

example : ∀ q ∈ [((2 : ℝ), flatPt, (⟨⟨1, 0, 0⟩, ⟨![⟨0, 0, 1⟩, ⟨1, 0, 0⟩], ⟨0, 0, 1⟩, 0, 0⟩, 0⟩ : Fld))],
    Indep (q.2.1.defo.a 0) (q.2.1.defo.a 1) := by
  intro q hq
  rw [List.mem_singleton.1 hq]
  exact flatPt_indep

/-- **C90** Components 0, 1 and 9 of the goals `Stretch` and `PStrain`, with principal directions
that move with the deformation, in orthonormal reference coordinates. -/
theorem C90_principal_partial (R : Region) (hR : R ≠ .points) (g : Goal)
    (hg : g = .stretch ∨ g = .pstrain) (c : ℕ) (hc : c = 0 ∨ c = 1 ∨ c = 9) (r : Rule)
    (h : ∀ q ∈ r, PrincipalMotion q.2.1 q.2.2) :
    IsDerivative (fun t => goal R g c (r.at t)) (dual R g c r.start) := by
  refine isDerivative_sum R g c r fun q hq => ?_
  obtain ⟨h0, h1, h2, hid⟩ := (h q hq).values
  have hmeas := (h q hq).1.meas_eq R
  have gs : ∀ p, goalAt R g c p = select c (R.meas p.ori) (quantity p g) := by
    intro p
    rcases hg with rfl | rfl
    · cases R with
      | points => exact absurd rfl hR
      | _ => rfl
    · rfl
  have ds : ∀ p v, dualAt R g c p v =
      selectDer c (R.meas p.ori) (quantity p g) (quantityDer p v g) := by
    intro p v; rcases hg with rfl | rfl <;> rfl
  have q2 : ∀ t, quantity (q.2.1 t) g 2 = 0 := by
    intro t
    rcases hg with rfl | rfl
    · exact h2 t
    · simp only [quantity, Emp_entries, h2 t, (hid t).2.2]; ring
  have qd : ∀ i : Fin 3, i ≠ 2 →
      HasDerivAt (fun t => quantity (q.2.1 t) g i) (quantityDer (q.2.1 0) q.2.2 g i) 0 := by
    have key : ∀ i : Fin 3, i ≠ 2 →
        HasDerivAt (fun t => lam (q.2.1 t) i) (lamDer (q.2.1 0) q.2.2 i) 0 := by
      intro i hi
      rcases fin3_cases i with rfl | rfl | rfl
      · exact h0
      · exact h1
      · exact absurd rfl hi
    have hone : ∀ i : Fin 3, i ≠ 2 → ∀ t, mulVec3 (q.2.1 t).T (Cm (q.2.1 t).ori) i = 1 := by
      intro i hi t
      rcases fin3_cases i with rfl | rfl | rfl
      · exact (hid t).1
      · exact (hid t).2.1
      · exact absurd rfl hi
    intro i hi
    rcases hg with rfl | rfl
    · exact key i hi
    · refine ((((key i hi).sub_const 1).const_mul 0.5).congr_of_eventuallyEq
        (Filter.Eventually.of_forall fun t => ?_)).congr_deriv ?_
      · simp only [quantity, Emp_entries, hone i hi t]
      · simp only [quantityDer, EmpDer_entries]
  simp only [gs, ds]
  rcases hc with rfl | rfl | rfl
  · refine ⟨fun t => quantity (q.2.1 t) g 0 * R.meas (q.2.1 0).ori, _, fun t => ?_, ?_,
      (qd 0 (by decide)).mul_const _⟩
    · simp [select, hmeas t]
    · simp [selectDer]
  · refine ⟨fun t => quantity (q.2.1 t) g 1 * R.meas (q.2.1 0).ori, _, fun t => ?_, ?_,
      (qd 1 (by decide)).mul_const _⟩
    · simp [select, hmeas t]
    · simp [selectDer]
  · have d0 := qd 0 (by decide)
    have d1 := qd 1 (by decide)
    refine ⟨fun t => (quantity (q.2.1 t) g 0 * quantity (q.2.1 t) g 0
        + quantity (q.2.1 t) g 1 * quantity (q.2.1 t) g 1) * R.meas (q.2.1 0).ori, _,
      fun t => ?_, ?_, ((d0.mul d0).add (d1.mul d1)).mul_const _⟩
    · simp [select, hmeas t, dotV, Fin.sum_univ_three, q2 t]
    · simp only [selectDer, dotV, Fin.sum_univ_three, q2 0, if_true]
      congr 1
      ring

/-- **C90** The principal stresses: components 0, 1 and 9, if the rates of the principal stresses
are the diagonal entries of the transformed rate of the stress. -/
theorem C90_pstress_partial (R : Region) (hR : R ≠ .points) (c : ℕ)
    (hc : c = 0 ∨ c = 1 ∨ c = 9) (r : Rule)
    (h : ∀ q ∈ r, Moves q.2.1 q.2.2 ∧ ∀ i : Fin 2,
      HasDerivAt (fun t => (q.2.1 t).P0 i) (SmpDer (q.2.1 0) q.2.2 i.castSucc) 0) :
    IsDerivative (fun t => goal R .pstress c (r.at t)) (dual R .pstress c r.start) := by
  refine isDerivative_sum R .pstress c r fun q hq => ?_
  obtain ⟨hm, hd⟩ := h q hq
  have ds : ∀ p v, dualAt R .pstress c p v =
      if c = 9 then .ok (2 * (SmpDer p v 0 * p.P0 0 + SmpDer p v 1 * p.P0 1)
        * R.meas p.ori)
      else if h : c < 2 then .ok (SmpDer p v (Fin.castSucc ⟨c, h⟩) * R.meas p.ori)
      else .ub := by
    intro p v
    cases R with
    | points => exact absurd rfl hR
    | _ => rfl
  rw [ds]
  have d0 := hd 0
  have d1 := hd 1
  rcases hc with rfl | rfl | rfl
  · refine ⟨fun t => (q.2.1 t).P0 0 * R.meas (q.2.1 0).ori, _, fun t => ?_, ?_,
      d0.mul_const _⟩
    · simp [goalAt, select2, hm.meas_eq R t]
    · simp
  · refine ⟨fun t => (q.2.1 t).P0 1 * R.meas (q.2.1 0).ori, _, fun t => ?_, ?_,
      d1.mul_const _⟩
    · simp [goalAt, select2, hm.meas_eq R t]
    · simp
  · refine ⟨fun t => ((q.2.1 t).P0 0 * (q.2.1 t).P0 0 + (q.2.1 t).P0 1 * (q.2.1 t).P0 1)
        * R.meas (q.2.1 0).ori, _, fun t => ?_, ?_,
      ((d0.mul d0).add (d1.mul d1)).mul_const _⟩
    · simp [goalAt, select2, hm.meas_eq R t]
    · simp only [if_true]
      congr 1
      simp only [Fin.castSucc_zero, Fin.castSucc_one]
      ring

/-- Uniaxial stress in fixed directions meets the hypotheses. -/
example : ∀ q ∈ ([((1 : ℝ), (fun t => { linState 1 0.3 0.1 (displaced flatPt shV t) with
      P0 := fun i => (linState 1 0.3 0.1 (displaced flatPt shV t)).S0 i.castSucc }), shV)] : Rule),
    Moves q.2.1 q.2.2 ∧ ∀ i : Fin 2,
      HasDerivAt (fun t => (q.2.1 t).P0 i) (SmpDer (q.2.1 0) q.2.2 i.castSucc) 0 := by
  intro q hq
  rw [List.mem_singleton.1 hq]
  have hm := lin_moves 1 0.3 0.1 flatPt shV flatPt_indep
  refine ⟨⟨hm.ori, hm.X, hm.x, hm.defo, hm.indep⟩, fun i => ?_⟩
  refine (((lin_tangent 1 0.3 0.1 flatPt shV flatPt_indep).stress hm).1 i.castSucc).congr_deriv ?_
  have hT : ∀ w : Voigt, mulVec3 (mk3 1 0 0 0 1 0 0 0 1) w i.castSucc = w i.castSucc := by
    intro w
    rcases fin2_cases i with rfl | rfl <;> simp [mulVec3, Fin.sum_univ_three, mk3]
  exact (hT _).symm

/-- **C90** Component 2 of `Stretch`: the transformed tensor has no shear entry, the goal is zero
for every deformation, but the assembled dual is not. -/
theorem C90_shear_violated :
    ∃ (P : ℝ → Pt) (v : Fld), PrincipalMotion P v ∧
      (∀ t, goalAt .domain .stretch 2 (P t) = .ok 0) ∧
      dualAt .domain .stretch 2 (P 0) v = .ok 1 ∧
      ¬ IsDerivative (fun t => goalAt .domain .stretch 2 (P t)) (dualAt .domain .stretch 2 (P 0) v) := by
  have hz : ∀ t, goalAt .domain .stretch 2 (shPath t) = .ok 0 := by
    intro t
    have := (shPath_principal.values).2.2.1 t
    simp only [Region.meas, goalAt, select]
    rw [if_neg (by decide), dif_pos (by decide)]
    congr 1
    show lam (shPath t) 2 * _ = 0
    rw [this]; ring
  have hH : shH 0 = 3 := by
    rw [shH]
    rw [show ((3 + (0:ℝ) ^ 2) ^ 2 + 4 * 0 ^ 2) = 3 ^ 2 by norm_num]
    exact Real.sqrt_sq (by norm_num)
  have hD : shD 0 = 6 := by
    rw [shD, hH]
    rw [show ((3 + (0:ℝ) ^ 2 + 3) ^ 2 + 4 * 0 ^ 2) = 6 ^ 2 by norm_num]
    exact Real.sqrt_sq (by norm_num)
  have hn : shN 0 = ![⟨1, 0, 0⟩, ⟨0, 1, 0⟩] := by
    unfold shN
    rw [hH, hD]
    norm_num
  have hT : (shPath 0).T = mk3 1 0 0 0 1 0 0 0 1 := by
    simp only [shPath, stretchState, Transform.spec2con, covBasis_zero, hn]
    simp [displaced, shP, flatPt, Transform.transformation, dot]
  have hd : dualAt .domain .stretch 2 (shPath 0) shV = .ok 1 := by
    simp only [Region.meas, dualAt, selectDer]
    rw [if_neg (by decide), dif_pos (by decide)]
    congr 1
    have hm : Variation.measure (shPath 0).ori = 1 := flatPt_measure
    rw [hm, mul_one]
    show lamDer (shPath 0) shV 2 = 1
    simp only [lamDer, hT, mulVec3, Fin.sum_univ_three]
    simp [mk3, CmDer, half3, EmDer, shPath, stretchState, displaced, shP, shV, shift, dot]
    norm_num
  refine ⟨shPath, shV, shPath_principal, hz, hd, ?_⟩
  rw [hd]
  exact not_isDerivative (f := fun _ => 0) hz (hasDerivAt_const _ _) (by norm_num)

example : PrincipalMotion shPath shV := shPath_principal

/-- **C90** The goals `Modal` and `Buckling` are listed among the goal functions, but the goal itself
is never computed. -/
theorem C90_eigen_violated :
    ∃ g : Goal, ∀ R c (p : Pt), goalAt R g c p = .throws :=
  ⟨.modal, fun _ _ _ => rfl⟩

/-- **C90** For the other materials (stresses of the strain at height `z`), the dual of the membrane
stress at the mid-surface is the derivative of the goal. -/
theorem C90_membrane_stress_partial (S : Voigt → Voigt) (C : Voigt → T3) (p : Pt) (v : Fld)
    (hp : Indep (p.defo.a 0) (p.defo.a 1)) (c : ℕ) (hc : Comp3 c)
    (hS : ∀ i, HasFDerivAt (fun e => S e i)
      (∑ j, C (Em p.ori p.defo) i j • (ContinuousLinearMap.proj j : (Fin 3 → ℝ) →L[ℝ] ℝ))
      (Em p.ori p.defo))
    (hC : ∀ i j, C (Em p.ori p.defo) i j = C (Em p.ori p.defo) j i) :
    IsDerivative (fun t => goalAt .domain .membraneStress c (nonlinState S C 0 (displaced p v t)))
      (dualAt .domain .membraneStress c (nonlinState S C 0 (displaced p v 0)) v) := by
  have hm := displaced_moves p v hp
  have e0 : (displaced p v 0).defo = p.defo := by simp [displaced, shift_zero]
  refine isDerivative_select c hc (fun t => Variation.measure (displaced p v t).ori) hm.measure_eq
    (fun t => (nonlinState S C 0 (displaced p v t)).S0) _ _ rfl fun i => ?_
  have hE : HasDerivAt (fun t => Em (displaced p v t).ori (displaced p v t).defo)
      (EmDer p.defo v.d) 0 := by
    have := hasDerivAt_pi.2 fun i => hm.membrane i
    rw [e0] at this
    exact this
  have h0 : Em (displaced p v 0).ori (displaced p v 0).defo = Em p.ori p.defo := by rw [e0]; rfl
  have hS' := hS i
  rw [← h0] at hS'
  refine ((hS'.comp_hasDerivAt 0 hE).congr_of_eventuallyEq
    (Filter.Eventually.of_forall fun t => ?_)).congr_deriv ?_
  · simp [nonlinState]
  · have e1 : (nonlinState S C 0 (displaced p v 0)).mmA = C (Em p.ori p.defo) := by
      simp only [nonlinState]
      congr 1
      funext k
      rw [h0]; ring
    have e2 : (nonlinState S C 0 (displaced p v 0)).defo = p.defo := e0
    simp only [quantityDer, SmDer, rowMul, e1, e2]
    simp [sum_apply]
    exact Finset.sum_congr rfl fun j _ => by rw [h0, hC i j]; ring

example : ∀ i, HasFDerivAt (fun e : Fin 3 → ℝ => (fun e : Voigt => e) e i)
    (∑ j, (fun _ => mk3 1 0 0 0 1 0 0 0 1 : Voigt → T3) (Em flatPt.ori flatPt.defo) i j •
      (ContinuousLinearMap.proj j : (Fin 3 → ℝ) →L[ℝ] ℝ)) (Em flatPt.ori flatPt.defo) := by
  intro i
  have hL : (∑ j, (fun _ => mk3 1 0 0 0 1 0 0 0 1 : Voigt → T3) (Em flatPt.ori flatPt.defo) i j •
      (ContinuousLinearMap.proj j : (Fin 3 → ℝ) →L[ℝ] ℝ)) = ContinuousLinearMap.proj i := by
    rcases fin3_cases i with rfl | rfl | rfl <;> simp [Fin.sum_univ_three, mk3]
  rw [hL]
  exact (ContinuousLinearMap.proj i : (Fin 3 → ℝ) →L[ℝ] ℝ).hasFDerivAt

/-- **C90** The goal `FlexuralStress` of a non-linear material is the membrane stress at the
mid-surface: its derivative along a stretch is 1, the assembled dual is 0. -/
theorem C90_flexural_stress_violated :
    ∃ (S : Voigt → Voigt) (C : Voigt → T3) (p : Pt) (v : Fld),
      (∀ e i, S e i = ∑ j, C e i j * e j) ∧ (∀ e, C e = mk3 1 0 0 0 1 0 0 0 1) ∧
      Moves (fun t => nonlinState S C 0 (displaced p v t)) v ∧
      ¬ IsDerivative (fun t => goalAt .domain .flexuralStress 0 (nonlinState S C 0 (displaced p v t)))
        (dualAt .domain .flexuralStress 0 (nonlinState S C 0 (displaced p v 0)) v) := by
  let v : Fld := ⟨0, ⟨![⟨1, 0, 0⟩, 0], 0, 0, 0⟩, 0⟩
  have hm := displaced_moves flatPt v flatPt_indep
  refine ⟨fun e => e, fun _ => mk3 1 0 0 0 1 0 0 0 1, flatPt, v, fun e i => ?_, fun _ => rfl,
    ⟨hm.ori, hm.X, hm.x, hm.defo, hm.indep⟩, ?_⟩
  · rcases fin3_cases i with rfl | rfl | rfl <;> simp [Fin.sum_univ_three, mk3]
  · have hd : dualAt .domain .flexuralStress 0 (nonlinState (fun e => e)
        (fun _ => mk3 1 0 0 0 1 0 0 0 1) 0 (displaced flatPt v 0)) v = .ok 0 := by
      simp [Region.meas, dualAt, selectDer, quantityDer, SfDer, rowMul, nonlinState, mk3, Fin.sum_univ_three,
        EfDer, dbl3, deriv2dot, displaced, shift, flatPt, v, dot]
    rw [hd]
    have hE := hm.membrane 0
    refine not_isDerivative (f := fun t => Em (displaced flatPt v t).ori (displaced flatPt v t).defo 0)
      (fun t => ?_) hE ?_
    · simp only [Region.meas, goalAt, select]
      rw [if_neg (by decide), dif_pos (by decide)]
      have h1 : Variation.measure (nonlinState (fun e => e) (fun _ => mk3 1 0 0 0 1 0 0 0 1) 0
        (displaced flatPt v t)).ori = 1 := flatPt_measure
      rw [h1]
      simp [quantity, nonlinState]
    · simp [EmDer, displaced, shift, flatPt, v, dot]

/-- **C90** Above the mid-surface the membrane stress of a non-linear material depends on the
curvature, and its dual does not. -/
theorem C90_height_violated :
    ∃ (S : Voigt → Voigt) (C : Voigt → T3) (z : ℝ) (p : Pt) (v : Fld),
      (∀ e i, S e i = ∑ j, C e i j * e j) ∧ (∀ e, C e = mk3 1 0 0 0 1 0 0 0 1) ∧
      Moves (fun t => nonlinState S C z (displaced p v t)) v ∧
      ¬ IsDerivative (fun t => goalAt .domain .membraneStress 0 (nonlinState S C z (displaced p v t)))
        (dualAt .domain .membraneStress 0 (nonlinState S C z (displaced p v 0)) v) := by
  let v : Fld := ⟨0, ⟨![0, 0], ⟨0, 0, 1⟩, 0, 0⟩, 0⟩
  have hm := displaced_moves flatPt v flatPt_indep
  refine ⟨fun e => e, fun _ => mk3 1 0 0 0 1 0 0 0 1, 1, flatPt, v, fun e i => ?_, fun _ => rfl,
    ⟨hm.ori, hm.X, hm.x, hm.defo, hm.indep⟩, ?_⟩
  · rcases fin3_cases i with rfl | rfl | rfl <;> simp [Fin.sum_univ_three, mk3]
  · have hd : dualAt .domain .membraneStress 0 (nonlinState (fun e => e)
        (fun _ => mk3 1 0 0 0 1 0 0 0 1) 1 (displaced flatPt v 0)) v = .ok 0 := by
      simp [Region.meas, dualAt, selectDer, quantityDer, SmDer, rowMul, nonlinState, mk3, Fin.sum_univ_three,
        EmDer, displaced, shift, flatPt, v, dot]
    rw [hd]
    have hE := (hm.membrane 0).add ((hm.bending 0).const_mul 1)
    refine not_isDerivative (f := fun t => Em (displaced flatPt v t).ori (displaced flatPt v t).defo 0
        + 1 * Ef (displaced flatPt v t).ori (displaced flatPt v t).defo 0)
      (fun t => ?_) hE ?_
    · simp only [Region.meas, goalAt, select]
      rw [if_neg (by decide), dif_pos (by decide)]
      have h1 : Variation.measure (nonlinState (fun e => e) (fun _ => mk3 1 0 0 0 1 0 0 0 1) 1
        (displaced flatPt v t)).ori = 1 := flatPt_measure
      rw [h1]
      simp [quantity, nonlinState]
    · have hv : var1 (displaced flatPt v 0).defo v.d = 0 := by
        ext <;> simp [var1, mvec, v, cross, dot]
      simp [EmDer, EfDer, dbl3, deriv2dot, hv]
      simp [displaced, shift, flatPt, v, dot, normal, normalized, V3.norm, cross]

/-! ## C91 -/

/-- **C91** On boundaries the dual is the derivative of the goal, except for a component of
`MembraneForce` and for all components of `FlexuralStrain`. -/
theorem C91_boundary_partial (d : Fin 2) (g : Goal) (hg : Direct g) (c : ℕ) (hc : Comp3 c)
    (h1 : g = .membraneForce → c = 9) (h2 : g = .flexuralStrain → c ≠ 9) (r : Rule)
    (h : ∀ q ∈ r, Moves q.2.1 q.2.2 ∧ Tangent q.2.1 ∧ IsDisplacement (q.2.1 0)) :
    IsDerivative (fun t => goal (.boundary d) g c (r.at t)) (dual (.boundary d) g c r.start) :=
  isDerivative_sum (.boundary d) g c r fun q hq =>
    direct_at (.boundary d) g hg c hc ⟨fun e => Or.inl (h1 e), fun e => Or.inl (h2 e)⟩ q.2.1 q.2.2
      (h q hq).1 (h q hq).2.1 (h q hq).2.2

/-- The linear material meets the hypotheses. -/
example : Moves (fun t => linState 1 0.3 0.1 (displaced flatPt shV t)) shV ∧
    Tangent (fun t => linState 1 0.3 0.1 (displaced flatPt shV t)) ∧
    IsDisplacement (linState 1 0.3 0.1 (displaced flatPt shV 0)) :=
  ⟨lin_moves _ _ _ _ _ flatPt_indep, lin_tangent _ _ _ _ _ flatPt_indep, rfl⟩

/-- **C91** A component of the membrane force: the goal is computed, the assembly of the dual
fails. -/
theorem C91_force_violated (d : Fin 2) (c : ℕ) (hc : c < 3) (p : Pt) (v : Fld) :
    (goalAt (.boundary d) .membraneForce c p).isOk ∧ dualAt (.boundary d) .membraneForce c p v = .throws := by
  have h9 : c ≠ 9 := by omega
  constructor
  · exact ⟨p.N ⟨c, hc⟩ * V3.norm (p.ori.a d), by
      simp [goalAt, select, quantity, h9, hc, Region.meas]⟩
  · simp [Region.meas, dualAt, forceDual, h9, hc]

example : (1 : ℕ) < 3 := by norm_num

/-- **C91** All components of the flexural strain: the dual doubles the twist twice (16 instead of
the derivative 8). -/
theorem C91_flexural_violated :
    ∃ (P : ℝ → Pt) (v : Fld), Moves P v ∧
      dualAt .domain .flexuralStrain 9 (P 0) v = .ok 8 ∧
      dualAt (.boundary 0) .flexuralStrain 9 (P 0) v = .ok 16 ∧
      ¬ IsDerivative (fun t => goalAt (.boundary 0) .flexuralStrain 9 (P t))
        (dualAt (.boundary 0) .flexuralStrain 9 (P 0) v) := by
  have hind : Indep (twistPt.defo.a 0) (twistPt.defo.a 1) := flatPt_indep
  have hm := displaced_moves twistPt twistV hind
  have h0 : (displaced twistPt twistV 0).defo = twistPt.defo := by simp [displaced, shift_zero]
  have hmu : Variation.measure (displaced twistPt twistV 0).ori = 1 := flatPt_measure
  have hle : ∀ t, V3.norm ((displaced twistPt twistV t).ori.a 0) = 1 := fun t => by
    simp [displaced, twistPt, flatPt, V3.norm, dot]
  have hn : normal twistPt.defo = ⟨0, 0, 1⟩ := by
    ext <;> simp [normal, twistPt, normalized, V3.norm, dot, cross]
  have hno : normal (displaced twistPt twistV 0).ori = ⟨0, 0, 1⟩ := by
    ext <;> simp [normal, displaced, twistPt, flatPt, normalized, V3.norm, dot, cross]
  have hv : var1 twistPt.defo twistV.d = 0 := by
    ext <;> simp [var1, mvec, twistV, cross, dot]
  have hE : EfDer (displaced twistPt twistV 0).defo twistV.d = vec3 0 0 (-2) := by
    funext k
    rw [h0]
    rcases fin3_cases k with rfl | rfl | rfl <;>
      simp only [EfDer, dbl3, deriv2dot, hv, hn] <;> simp [twistV, dot]
  have hF : Ef (displaced twistPt twistV 0).ori (displaced twistPt twistV 0).defo
      = vec3 0 0 (-2) := by
    funext k
    rw [h0]
    rcases fin3_cases k with rfl | rfl | rfl <;>
      simp [Ef, dbl3, deriv2dot, hno, hn] <;> simp [twistPt, displaced, flatPt, dot]
  have d1 : dualAt .domain .flexuralStrain 9 (displaced twistPt twistV 0) twistV = .ok 8 := by
    simp only [Region.meas, dualAt, flexDual, selectDer, if_true, hE, hF, hmu, dotV, Fin.sum_univ_three]
    simp; norm_num
  have d2 : dualAt (.boundary 0) .flexuralStrain 9 (displaced twistPt twistV 0) twistV = .ok 16 := by
    simp only [Region.meas, dualAt, flexDual, if_true, hE, hF, hle, dotV, Fin.sum_univ_three, dbl3]
    simp; norm_num
  refine ⟨displaced twistPt twistV, twistV, hm, d1, d2, ?_⟩
  rw [d2]
  have b := hm.bending
  refine not_isDerivative (d' := 8)
    (f := fun t => dotV (Ef (displaced twistPt twistV t).ori (displaced twistPt twistV t).defo)
      (Ef (displaced twistPt twistV t).ori (displaced twistPt twistV t).defo)) (fun t => ?_) ?_
    (by norm_num)
  · simp [Region.meas, goalAt, select, quantity, hle t]
  · simp only [dotV, Fin.sum_univ_three]
    refine ((((b 0).mul (b 0)).add ((b 1).mul (b 1))).add ((b 2).mul (b 2))).congr_deriv ?_
    rw [hE, hF]; simp; norm_num

/-! ## C92 -/

/-- **C92** On points the dual is the derivative of the goal for the goals without principal
directions, except for a component of `MembraneForce`. -/
theorem C92_points_partial (g : Goal) (hg : Direct g) (c : ℕ) (hc : Comp3 c)
    (h1 : g = .membraneForce → c = 9) (r : Rule)
    (h : ∀ q ∈ r, Moves q.2.1 q.2.2 ∧ Tangent q.2.1 ∧ IsDisplacement (q.2.1 0)) :
    IsDerivative (fun t => goal .points g c (r.at t)) (dual .points g c r.start) :=
  isDerivative_sum .points g c r fun q hq =>
    direct_at .points g hg c hc ⟨fun e => Or.inl (h1 e), fun _ => Or.inr fun _ => by simp⟩ q.2.1 q.2.2
      (h q hq).1 (h q hq).2.1 (h q hq).2.2

/-- The linear material meets the hypotheses. -/
example : Moves (fun t => linState 2 0.2 0.1 (displaced twistPt twistV t)) twistV ∧
    Tangent (fun t => linState 2 0.2 0.1 (displaced twistPt twistV t)) ∧
    IsDisplacement (linState 2 0.2 0.1 (displaced twistPt twistV 0)) :=
  ⟨lin_moves _ _ _ _ _ flatPt_indep, lin_tangent _ _ _ _ _ flatPt_indep, rfl⟩

/-- **C92** A component of the stretch at a point is computed from the displacement: a stretch in
place does not change the goal, but has the dual 2. -/
theorem C92_stretch_component_violated :
    ∃ (P : ℝ → Pt) (v : Fld), Moves P v ∧
      goalAt .points .stretch 0 (P 0) ≠ goalAt .domain .stretch 0 (P 0) ∧
      ¬ IsDerivative (fun t => goalAt .points .stretch 0 (P t))
        (dualAt .points .stretch 0 (P 0) v) := by
  let v : Fld := ⟨0, ⟨![⟨1, 0, 0⟩, 0], 0, 0, 0⟩, 0⟩
  have hm := displaced_moves flatPt v flatPt_indep
  have hmu : ∀ t, Variation.measure (displaced flatPt v t).ori = 1 := fun _ => flatPt_measure
  have hJ : ∀ t, goalAt .points .stretch 0 (displaced flatPt v t) = .ok 0 := by
    intro t
    simp [Region.meas, goalAt, select, comps, displaced, flatPt, v]
  refine ⟨displaced flatPt v, v, hm, ?_, ?_⟩
  · rw [hJ]
    simp only [Region.meas, goalAt, select, hmu]
    simp [lam, mulVec3, Fin.sum_univ_three, displaced, flatPt, mk3, Cm, half3, flat, Acov, shift, dot]
  · have hd : dualAt .points .stretch 0 (displaced flatPt v 0) v = .ok 2 := by
      simp only [Region.meas, dualAt, selectDer, hmu]
      rw [if_neg (by decide), dif_pos (by decide)]
      simp [quantityDer, lamDer, mulVec3, Fin.sum_univ_three, displaced, flatPt, mk3, CmDer, half3,
        EmDer, shift, dot, v]
    rw [hd]
    exact not_isDerivative (f := fun _ => 0) hJ (hasDerivAt_const _ _) (by norm_num)

/-- **C92** The squared stretches at a point are computed with the transposed transformation. -/
theorem C92_stretch_violated :
    ∃ (P : ℝ → Pt) (v : Fld), PrincipalMotion P v ∧
      goalAt .domain .stretch 9 (P 0) = .ok 82 ∧ goalAt .points .stretch 9 (P 0) = .ok 58 ∧
      ¬ IsDerivative (fun t => goalAt .points .stretch 9 (P t))
        (dualAt .points .stretch 9 (P 0) v) := by
  have hmu : ∀ t, Variation.measure (displaced diagPt diagV t).ori = 1 := fun _ => flatPt_measure
  have hC : ∀ t, Cm (displaced diagPt diagV t).defo =
      vec3 (5 * (1 + t) ^ 2) (5 * (1 + t) ^ 2) (4 * (1 + t) ^ 2) := by
    intro t
    funext k
    rcases fin3_cases k with rfl | rfl | rfl <;>
      simp [Cm, half3, flat, Acov, displaced, diagPt, diagV, shift, dot] <;> ring
  have hl : ∀ t, lam (displaced diagPt diagV t) = vec3 (9 * (1 + t) ^ 2) ((1 + t) ^ 2) 0 := by
    intro t
    funext k
    simp only [lam, hC, mulVec3, Fin.sum_univ_three]
    rcases fin3_cases k with rfl | rfl | rfl <;> simp [displaced, diagPt, mk3] <;> ring
  have hp : ∀ t, lamPoints (displaced diagPt diagV t) =
      vec3 (3 * (1 + t) ^ 2) (7 * (1 + t) ^ 2) 0 := by
    intro t
    funext k
    simp only [lamPoints, hC, mulVec3, Fin.sum_univ_three, transpose3]
    rcases fin3_cases k with rfl | rfl | rfl <;> simp [displaced, diagPt, mk3] <;> ring
  have hJ : ∀ t, goalAt .points .stretch 9 (displaced diagPt diagV t) = .ok (58 * (1 + t) ^ 4) := by
    intro t
    simp only [Region.meas, goalAt, select, if_true, hmu, hp, dotV, Fin.sum_univ_three]
    congr 1; simp; ring
  have hD : CmDer (displaced diagPt diagV 0).defo diagV.d = vec3 10 10 8 := by
    funext k
    rcases fin3_cases k with rfl | rfl | rfl <;>
      simp [CmDer, half3, EmDer, displaced, diagPt, diagV, shift, dot] <;> norm_num
  have hd : dualAt .points .stretch 9 (displaced diagPt diagV 0) diagV = .ok 328 := by
    simp only [Region.meas, dualAt, selectDer, if_true, hmu, quantity, quantityDer, hl, lamDer, hD, dotV, mulVec3,
      Fin.sum_univ_three]
    congr 1
    simp [displaced, diagPt, mk3]; norm_num
  refine ⟨displaced diagPt diagV, diagV, diag_principal, ?_, ?_, ?_⟩
  · simp only [Region.meas, goalAt, select, if_true, hmu, hl, dotV, Fin.sum_univ_three]
    congr 1; simp; norm_num
  · rw [hJ]; norm_num
  · rw [hd]
    have h1 : HasDerivAt (fun t : ℝ => 58 * (1 + t) ^ 4) 232 0 := by
      have := ((((hasDerivAt_id (0 : ℝ)).const_add 1).pow 4).const_mul 58)
      refine this.congr_deriv ?_
      norm_num
    exact not_isDerivative hJ h1 (by norm_num)

/-- **C92** The squared principal stresses at a point: the goal is computed, the dual multiplies a
row of three entries with a vector of two. -/
theorem C92_pstress_violated (p : Pt) (v : Fld) :
    (goalAt .points .pstress 9 p).isOk ∧ dualAt .points .pstress 9 p v = .ub :=
  ⟨⟨_, rfl⟩, rfl⟩

/-- **C92** A component of the membrane force at a point: for every test function but the first,
the value is read outside the 1×1 result; for the first one the entry is the force itself. -/
theorem C92_force_violated (c : ℕ) (hc : c < 3) (p : Pt) (v : Fld) :
    (goalAt .points .membraneForce c p).isOk ∧
      (v.loc ≠ 0 → dualAt .points .membraneForce c p v = .ub) ∧
      (v.loc = 0 → dualAt .points .membraneForce c p v = goalAt .points .membraneForce c p) := by
  have h9 : c ≠ 9 := by omega
  refine ⟨⟨p.N ⟨c, hc⟩ * Variation.measure p.ori, by
    simp [goalAt, select, quantity, h9, hc, Region.meas]⟩,
    fun h => ?_, fun h => ?_⟩
  · simp [Region.meas, dualAt, forceDual, h9, hc, h]
  · simp [Region.meas, dualAt, forceDual, goalAt, select, quantity, h9, hc, h]

example : (2 : ℕ) < 3 ∧ (1 : ℕ) ≠ 0 := by norm_num

/-! ## C93 -/

/-- **C93** The displacement goal on the domain is an integral over the surface: under any change of
surface coordinates the integrand is multiplied by the Jacobian determinant, for every component. -/
theorem C93_displacement_partial (c : ℕ) (hc : Comp3 c) (P : T2) (g1 g2 g3 : Fin 2 → ℝ) (p : Pt) :
    ∃ f, goalAt .domain .displacement c p = .ok f ∧
      goalAt .domain .displacement c (reparamPt P g1 g2 g3 p) = .ok (|det2 P| * f) := by
  have hm : Variation.measure (reparamPt P g1 g2 g3 p).ori = |det2 P| * Variation.measure p.ori :=
    measure_reparam P g1 g2 g3 p.ori
  by_cases h9 : c = 9
  · refine ⟨_, by simp only [Region.meas, goalAt, select, h9, if_true]; rfl, ?_⟩
    simp only [Region.meas, goalAt, select, h9, if_true, hm]
    congr 1
    simp only [quantity, reparamPt]; ring
  · have h3 := hc.resolve_left h9
    refine ⟨_, by simp only [Region.meas, goalAt, select, h9, if_false, h3, dif_pos]; rfl, ?_⟩
    simp only [Region.meas, goalAt, select, h9, if_false, h3, dif_pos, hm]
    congr 1
    simp only [quantity, reparamPt]; ring

example : Comp3 9 ∧ Comp3 2 := ⟨Or.inl rfl, Or.inr (by norm_num)⟩

/-- **C93** The displacement at a point depends on the parametrisation: the value is multiplied by
the area element. -/
theorem C93_points_violated :
    ∃ (P : T2) (p : Pt), det2 P ≠ 0 ∧
      goalAt .points .displacement 0 p = .ok 1 ∧
      goalAt .points .displacement 0 (reparamPt P (fun _ => 0) (fun _ => 0) (fun _ => 0) p) = .ok 2 := by
  have h1 : Variation.measure movedPt.ori = 1 := flatPt_measure
  refine ⟨![![1, 0], ![0, 2]], movedPt, by simp [det2], ?_, ?_⟩
  · simp only [Region.meas, goalAt, select, h1]
    simp [quantity, comps, movedPt, flatPt]
  · simp only [Region.meas, goalAt, select, movedPt_measure]
    simp [quantity, comps, movedPt, flatPt, reparamPt, det2]

/-- **C93** On a boundary the displacement goal is an integral over the side: under a change of
coordinates that maps the side to itself, the integrand is multiplied by the derivative along the
side, whatever the change does across it. -/
theorem C93_boundary_partial (d : Fin 2) (c : ℕ) (hc : Comp3 c) (P : T2) (g1 g2 g3 : Fin 2 → ℝ)
    (p : Pt) (l : ℝ) (hP : (reparamPt P g1 g2 g3 p).ori.a d = l • p.ori.a d) :
    ∃ f, goalAt (.boundary d) .displacement c p = .ok f ∧
      goalAt (.boundary d) .displacement c (reparamPt P g1 g2 g3 p) = .ok (|l| * f) := by
  have hm : Region.meas (reparamPt P g1 g2 g3 p).ori (.boundary d) =
      |l| * Region.meas p.ori (.boundary d) := by
    simp only [Region.meas, hP]
    unfold V3.norm
    rw [dot_smul_left, dot_smul_right, ← mul_assoc, Real.sqrt_mul (mul_self_nonneg _),
      Real.sqrt_mul_self_eq_abs]
  by_cases h9 : c = 9
  · refine ⟨_, by simp only [goalAt, select, h9, if_true]; rfl, ?_⟩
    simp only [goalAt, select, h9, if_true, hm]
    congr 1
    simp only [quantity, reparamPt]; ring
  · have h3 := hc.resolve_left h9
    refine ⟨_, by simp only [goalAt, select, h9, if_false, h3, dif_pos]; rfl, ?_⟩
    simp only [goalAt, select, h9, if_false, h3, dif_pos, hm]
    congr 1
    simp only [quantity, reparamPt]; ring

/-- The first coordinate is stretched by 3 along the side, the second one is sheared. -/
example : (reparamPt ![![3, 0], ![1, 2]] (fun _ => 0) (fun _ => 0) (fun _ => 0) movedPt).ori.a 0 =
    (3 : ℝ) • movedPt.ori.a 0 := by
  ext <;> simp [reparamPt, Linear.reparam]

/-- **C93** The stretch goal on the domain depends on the parametrisation: for the undeformed square
the integrand is 1, after doubling both coordinates it is 64 instead of 4. -/
theorem C93_stretch_violated :
    ∃ (P : T2) (p : Pt) (n : Fin 2 → V3), det2 P = 4 ∧ (∀ i, n i = p.ori.a i) ∧
      goalAt .domain .stretch 0 (stretchState n p) = .ok 1 ∧
      goalAt .domain .stretch 0
        (stretchState n (reparamPt P (fun _ => 0) (fun _ => 0) (fun _ => 0) p)) = .ok 64 := by
  have h1 : Variation.measure (stretchState (fun i => movedPt.ori.a i) movedPt).ori = 1 :=
    flatPt_measure
  refine ⟨![![2, 0], ![0, 2]], movedPt, fun i => movedPt.ori.a i, by simp [det2]; norm_num,
    fun _ => rfl, ?_, ?_⟩
  · simp only [Region.meas, goalAt, select, h1]
    rw [if_neg (by decide), dif_pos (by decide)]
    congr 1
    have := (lam_entries (stretchState (fun i => movedPt.ori.a i) movedPt) movedPt.ori _ rfl).1
    show lam _ 0 * 1 = 1
    rw [this]
    simp [stretchState, movedPt, flatPt, Cm, half3, flat, Acov, dot]
  · have hm : Variation.measure (stretchState (fun i => movedPt.ori.a i) (reparamPt ![![2, 0], ![0, 2]]
        (fun _ => 0) (fun _ => 0) (fun _ => 0) movedPt)).ori = |det2 ![![2, 0], ![0, 2]]| :=
      movedPt_measure _
    simp only [Region.meas, goalAt, select, hm]
    rw [if_neg (by decide), dif_pos (by decide)]
    congr 1
    have := (lam_entries (stretchState (fun i => movedPt.ori.a i) (reparamPt ![![2, 0], ![0, 2]]
        (fun _ => 0) (fun _ => 0) (fun _ => 0) movedPt)) (reparamPt ![![2, 0], ![0, 2]]
        (fun _ => 0) (fun _ => 0) (fun _ => 0) movedPt).ori _ rfl).1
    show lam _ 0 * _ = 64
    rw [this]
    simp [stretchState, reparamPt, Linear.reparam, movedPt, flatPt, Cm, half3, flat, Acov, dot, det2]
    norm_num

/-- **C93** Components of the membrane strain are covariant components: doubling the first coordinate
multiplies the integrand by 8 instead of 2. -/
theorem C93_strain_violated :
    ∃ (P : T2) (p : Pt), det2 P = 2 ∧
      goalAt .domain .membraneStrain 0 p = .ok (3 / 2) ∧
      goalAt .domain .membraneStrain 0
        (reparamPt P (fun _ => 0) (fun _ => 0) (fun _ => 0) p) = .ok 12 := by
  have h1 : Variation.measure shP.ori = 1 := flatPt_measure
  have hm : Variation.measure (reparamPt ![![2, 0], ![0, 1]] (fun _ => 0) (fun _ => 0) (fun _ => 0)
      shP).ori = |det2 ![![2, 0], ![0, 1]]| := movedPt_measure _
  refine ⟨![![2, 0], ![0, 1]], shP, by simp [det2], ?_, ?_⟩
  · simp only [Region.meas, goalAt, select, h1]
    rw [if_neg (by decide), dif_pos (by decide)]
    congr 1
    simp [quantity, Em, flat, Acov, shP, flatPt, dot]; norm_num
  · simp only [Region.meas, goalAt, select, hm]
    rw [if_neg (by decide), dif_pos (by decide)]
    congr 1
    simp [quantity, Em, flat, Acov, shP, flatPt, dot, reparamPt, Linear.reparam, det2]; norm_num

end Verif.DWR
