import Verif.Lemmas.AtTensor
import Verif.Props.HyperReference
import Verif.Props.HyperCompressible
import Verif.Lemmas.PosDef
import Verif.Model.StressFun

/-! # Property C151: materials evaluated at a given deformation tensor -/

namespace Verif.AtTensor

open Verif.Geometry Spec.AtTensor Filter Topology
open Verif.Hyper hiding rate
open Spec.Hyper (contract)
open Verif.Linear (Output StrainKind strainKind)

/-- **C151** The evaluations at a tensor and at a deformed geometry have the same outcome, if the tensor
is that of the deformed geometry at the height of the evaluation: values, errors and undefined cases of
stress and tangent, every law. -/
theorem C151_same (L : Law) (ori defo : Surf) (h : Indep (defo.a 0) (defo.a 1)) (z : ℝ) :
    stressC L ori z (deformation defo z) = stress L ori defo z ∧
    matrixC L ori z (deformation defo z) = matrix L ori defo z := by
  rw [stressC, matrixC, metricC_deformation ori defo h z]
  exact ⟨rfl, rfl⟩

/-- **C151** (partial: incompressible neo-Hookean and Mooney–Rivlin) The matrix at a tensor is the
derivative of the stress at that tensor with respect to the strain, if the stress returned is not zero. -/
theorem C151_derivative_partial (p : Par) (ori : Surf) (h : Indep (ori.a 0) (ori.a 1)) (z : ℝ)
    (ho : IsMetric (deformation ori z)) (c : Voigt) (hc : IsMetric c) (L : Law)
    (hL : L = .inc (sNH p) (cNH p) ∨ L = .inc (sMR p) (cMR p))
    (hn : stressC L ori z c ≠ .ok (vec3 0 0 0)) (e : Voigt) :
    ∃ (S : ℝ → Voigt) (C : T3), matrixC L ori z c = .ok C ∧
      (∀ᶠ τ in 𝓝 (0 : ℝ), stressC L ori z (fun k => c k + τ * rate e k) = .ok (S τ)) ∧
      ∀ k, HasDerivAt (fun τ => S τ k) (∑ j, C k j * e j) 0 := by
  have hd := det_deformation h ho
  rcases hL with rfl | rfl
  · exact derivative_of (PlanarSystem.neoHooke_elastic p hd.ne' (Gblock_symm' ori z)) hd hc hn e
  · exact derivative_of (PlanarSystem.mooneyRivlin_elastic p hd.ne' (Gblock_symm' ori z)) hd hc hn e

/-- **C151** (partial: compressible materials, the thickness stretch found is exact) The matrix at a tensor is the
derivative with respect to the strain of the stress with the thickness stretch for which the stress across the thickness
vanishes. -/
theorem C151_plane_partial (p : Par) (ori : Surf) (h : Indep (ori.a 0) (ori.a 1)) (z : ℝ)
    (ho : IsMetric (deformation ori z)) (c : Voigt) (hc : IsMetric c)
    (ST : (CData → Fin 3 → Fin 3 → ℝ) × (CData → Fin 3 → Fin 3 → Fin 3 → Fin 3 → ℝ))
    (hST : ST = (sNHc p, cNHc p) ∨ ST = (sMRc p, cMRc p) ∨ ST = (sNHe p, cNHe p)) (e : Voigt)
    {x : ℝ → ℝ} {x' : ℝ} (hx : HasDerivAt x x' 0) (hpos : 0 < x 0)
    (hN : Newton.c33Of ST.1 ST.2 (data (Gblock ori z) (tensor c)) = .ok (x 0))
    (hplane : ∀ᶠ τ in 𝓝 (0 : ℝ), ST.1 (cdata (data (Gblock ori z) (tensor fun k => c k + τ * rate e k)) (x τ)) 2 2 = 0)
    (hstiff : ST.2 (cdata (data (Gblock ori z) (tensor c)) (x 0)) 2 2 2 2 ≠ 0) :
    ∃ C : T3, matrixC (.comp ST.1 ST.2) ori z c = .ok C ∧
      ∀ k, HasDerivAt (fun τ => ShellTangent.stressV
        (ST.1 (cdata (data (Gblock ori z) (tensor fun k => c k + τ * rate e k)) (x τ))) k) (∑ j, C k j * e j) 0 := by
  have hA := det_deformation h ho
  have hd : 0 < det2 (tensor c) := by rw [det_tensor]; linarith [hc.2.2]
  have hg := Gblock_symm' ori z
  have hs : Spec.Hyper.ElasticSymm (ST.2 (cdata (data (Gblock ori z) (tensor c)) (x 0))) := by
    have h1 : ∀ i j, (cdata (data (Gblock ori z) (tensor c)) (x 0)).cinv i j
        = (cdata (data (Gblock ori z) (tensor c)) (x 0)).cinv j i := by
      intro i j
      rcases fin3_cases i with rfl | rfl | rfl <;> rcases fin3_cases j with rfl | rfl | rfl <;>
        simp [cdata, withThickness, data, embed, inv2]
    have h2 : ∀ i j, (data (Gblock ori z) (tensor c)).Gori i j = (data (Gblock ori z) (tensor c)).Gori j i := by
      intro i j
      rcases fin3_cases i with rfl | rfl | rfl <;> rcases fin3_cases j with rfl | rfl | rfl <;>
        simp [data, embed, inv2, hg]
    have := C48_compressible p (cdata (data (Gblock ori z) (tensor c)) (x 0)) h1 h2
    rcases hST with rfl | rfl | rfl
    exacts [this.1, this.2.1, this.2.2]
  refine ⟨fillMatrix (condense (ST.2 (cdata (data (Gblock ori z) (tensor c)) (x 0)))), ?_, fun k => ?_⟩
  · rw [matrixC, metricC_pos ori z c hA hd]
    simp only [Outcome.bind, matrixOf, hN, Outcome.map]
  · have hcur := tensor_curve c e
    have h0 : (fun k => c k + 0 * rate e k) = c := by funext k; ring
    have key := fun i j => C51_models p hA hg hcur hx (by rw [h0]; exact hd) hpos ST hST hplane
      (by rw [h0]; exact hstiff) i j
    rw [h0] at key
    have hm := C48_matrix _ (C48_condensed _ hs) (fun i j => tensor (rate e) i j / 2) (by simp)
    have he : vec3 (tensor (rate e) 0 0 / 2) (tensor (rate e) 1 1 / 2) (2 * (tensor (rate e) 0 1 / 2)) = e := by
      funext k
      rcases fin3_cases k with rfl | rfl | rfl <;> simp [rate]; ring
    rw [he] at hm
    have hk := congrFun hm k
    simp only [mulVec3] at hk
    rw [hk]
    rcases fin3_cases k with rfl | rfl | rfl
    · refine (key 0 0).congr_deriv ?_
      simp only [vec3_zero, contract, Fin.sum_univ_two]; ring
    · refine (key 1 1).congr_deriv ?_
      simp only [vec3_one, contract, Fin.sum_univ_two]; ring
    · refine (key 0 1).congr_deriv ?_
      simp only [vec3_two, contract, Fin.sum_univ_two]; ring

/-- **C151** is violated at the undeformed state of every shell of neo-Hookean material: the stress
returned near it is zero, so that its derivative is zero, and the matrix is not. -/
theorem C151_derivative_violated (p : Par) (hp : 0 < p.mu) (ori : Surf) (h : Indep (ori.a 0) (ori.a 1)) (z : ℝ)
    (ho : IsMetric (deformation ori z)) (e : Voigt) :
    (∀ᶠ τ in 𝓝 (0 : ℝ), stressC (.inc (sNH p) (cNH p)) ori z (fun k => deformation ori z k + τ * rate e k)
      = .ok (vec3 0 0 0)) ∧
    ∃ C : T3, matrixC (.inc (sNH p) (cNH p)) ori z (deformation ori z) = .ok C ∧ 0 < C 0 0 := by
  have hd := det_deformation h ho
  have ht := tensor_deformation ori h z
  have hd' : 0 < det2 (tensor (deformation ori z)) := by rw [ht]; exact hd
  constructor
  · filter_upwards [close_near (deformation ori z) e (Gblock ori z) hd' (by rw [ht]), det_line _ e hd'] with τ h1 h2
    rw [stressC, metricC_pos ori z _ hd h2]
    exact evalStress_near (cNH p) h1
  · refine ⟨_, by rw [matrixC, metricC_pos ori z _ hd hd']; rfl, ?_⟩
    have g : 0 < inv2 (tensor (deformation ori z)) 0 0 := by
      simp only [inv2]
      simpa using div_pos ho.2.1 hd'
    have hJ : 0 < det2 (tensor (deformation ori z)) / det2 (Gblock ori z) := div_pos hd' hd
    simp only [fillMatrix, mk3_zero, vec3_zero, cNH, data, embed_00]
    positivity

/-- **C151** (partial: tensors whose determinant decides) With a regular undeformed shell a tensor with
negative determinant is rejected and a metric is not. -/
theorem C151_reject_partial (L : Law) (ori : Surf) (h : Indep (ori.a 0) (ori.a 1)) (z : ℝ)
    (ho : IsMetric (deformation ori z)) (c : Voigt) :
    (c 0 * c 1 < c 2 ^ 2 → stressC L ori z c = .throws ∧ matrixC L ori z c = .throws) ∧
    (IsMetric c → ∀ S T, (∃ v, stressC (.inc S T) ori z c = .ok v) ∧ ∃ C, matrixC (.inc S T) ori z c = .ok C) := by
  have hd := det_deformation h ho
  constructor
  · intro hc
    have hn : det2 (tensor c) < 0 := by rw [det_tensor]; linarith
    have hm : metricC ori z c = .throws := by
      rw [metricC_ok ori z c hd.ne' hn.ne, if_neg (not_le.2 (div_neg_of_neg_of_pos hn hd))]
    rw [stressC, matrixC, hm]
    exact ⟨rfl, rfl⟩
  · intro hc S T
    have hp : 0 < det2 (tensor c) := by rw [det_tensor]; linarith [hc.2.2]
    rw [stressC, matrixC, metricC_pos ori z c hd hp]
    exact ⟨⟨_, rfl⟩, ⟨_, rfl⟩⟩

/-- **C151** is violated: minus the metric of a regular shell, which is no metric, is accepted, and the
stress for it has a value. -/
theorem C151_reject_violated (S : Data → Fin 3 → Fin 3 → ℝ) (T : Data → Fin 3 → Fin 3 → Fin 3 → Fin 3 → ℝ)
    (ori : Surf) (h : Indep (ori.a 0) (ori.a 1)) (z : ℝ) (ho : IsMetric (deformation ori z)) :
    ¬ IsMetric (fun k => -deformation ori z k) ∧
    ∃ v, stressC (.inc S T) ori z (fun k => -deformation ori z k) = .ok v := by
  have hd := det_deformation h ho
  refine ⟨fun hm => by linarith [hm.1, ho.1], ?_⟩
  have hp : 0 < det2 (tensor fun k => -deformation ori z k) := by
    rw [det_tensor]; nlinarith [ho.2.2]
  rw [stressC, metricC_pos ori z _ hd hp]
  exact ⟨_, rfl⟩

/-! ## Linear material -/

/-- **C151** (partial: three groups of output kinds) The stress of the linear material at the tensor of
the deformed shell is the stress of the deformed shell: at every height for the kinds of the full strain,
on the mid-surface for those of the membrane strain, for a deformed shell without curvature for those of
the bending strain. -/
theorem C151_linear_partial (E ν : ℝ) (ori defo : Surf) (h : Indep (defo.a 0) (defo.a 1)) (o : Output) (z : ℝ)
    (hz : strainKind o = .ok .membrane → z = 0)
    (hb : strainKind o = .ok .bending → ∀ i j, Bcov defo i j = 0) :
    linVectorC E ν ori o z (deformation defo z) = TFTSection.linStress E ν ori defo o z := by
  unfold linVectorC TFTSection.linStress
  have ht := tensor_deformation defo h z
  cases hk : strainKind o with
  | throws => rfl
  | ub => rfl
  | ok k =>
    simp only [Outcome.map]
    congr 2
    cases k with
    | membrane =>
      obtain rfl := hz hk
      funext i j
      simp [strainC, TFTSection.linStrain, ht, membraneStrain, Gblock]
    | bending =>
      funext i j
      simp [strainC, TFTSection.linStrain, bendingStrain, hb hk]
    | full =>
      funext i j
      simp [strainC, TFTSection.linStrain, ht, strainAt]

/-- **C151** The matrix of the linear material at a tensor is the derivative of the stress at that
tensor with respect to the strain, at every tensor, for the kinds of the membrane and of the full strain. -/
theorem C151_linear_derivative (E ν : ℝ) (ori : Surf) (o : Output) (z : ℝ) (c e : Voigt)
    (ho : strainKind o = .ok .membrane ∨ strainKind o = .ok .full) :
    ∃ S : ℝ → Voigt, (∀ τ, linVectorC E ν ori o z (fun k => c k + τ * rate e k) = .ok (S τ)) ∧
      ∀ k, HasDerivAt (fun τ => S τ k) (∑ j, linMatrixC E ν ori z c k j * e j) 0 := by
  have key : ∀ B : T2, ∀ k, HasDerivAt (fun τ => Linear.stress E ν (Acon ori)
      (fun i j => 0.5 * (tensor (fun k => c k + τ * rate e k) i j - B i j)) k)
      (∑ j, linMatrixC E ν ori z c k j * e j) 0 := by
    intro B k
    have hs : ∀ i j, Acon ori i j = Acon ori j i := by
      intro i j
      rcases fin2_cases i with rfl | rfl <;> rcases fin2_cases j with rfl | rfl <;>
        simp [Acon, inv2, Acov_symm ori 1 0]
    have ht : ∀ i j, HasDerivAt (fun τ : ℝ => (0.5 : ℝ) * (tensor (fun k => c k + τ * rate e k) i j - B i j))
        (0.5 * tensor (rate e) i j) 0 := fun i j =>
      ((tensor_curve c e).deriv i j).sub_const (B i j) |>.const_mul 0.5
    have hS : ∀ i j, HasDerivAt (fun τ => Linear.Sij E ν (Acon ori)
        (fun i j => 0.5 * (tensor (fun k => c k + τ * rate e k) i j - B i j)) i j)
        (Linear.Sij E ν (Acon ori) (fun i j => 0.5 * tensor (rate e) i j) i j) 0 := fun i j =>
      ((((ht 0 0).const_mul _).add ((ht 0 1).const_mul _)).add ((ht 1 0).const_mul _)).add ((ht 1 1).const_mul _)
    rcases fin3_cases k with rfl | rfl | rfl
    · refine (hS 0 0).congr_deriv ?_
      simp [Linear.Sij, linMatrixC, Linear.matrix, Fin.sum_univ_three, rate, Linear.Cval, hs 1 0]; ring
    · refine (hS 1 1).congr_deriv ?_
      simp [Linear.Sij, linMatrixC, Linear.matrix, Fin.sum_univ_three, rate, Linear.Cval, hs 1 0]; ring
    · refine (hS 0 1).congr_deriv ?_
      simp [Linear.Sij, linMatrixC, Linear.matrix, Fin.sum_univ_three, rate, Linear.Cval, hs 1 0]; ring
  rcases ho with ho | ho
  · exact ⟨_, fun τ => by rw [linVectorC, ho]; rfl, key (Acov ori)⟩
  · exact ⟨_, fun τ => by rw [linVectorC, ho]; rfl, key (Gblock ori z)⟩

/-- **C151** is violated for the linear material, although nothing is deformed: on a cylinder the
stress of the membrane strain at the tensor of a height `z` and the stress of the bending strain are not
those of the cylinder, which are zero. -/
theorem C151_linear_violated (E : ℝ) (hE : 0 < E) (z : ℝ) (h0 : 0 < z) (h1 : z < 1) :
    (∃ v, linVectorC E 0 cylinder .vectorN z (deformation cylinder z) = .ok v ∧ v 0 < 0) ∧
    (∃ v, linVectorC E 0 cylinder .vectorM z (deformation cylinder z) = .ok v ∧ 0 < v 0) ∧
    (∃ v, TFTSection.linStress E 0 cylinder cylinder .vectorN z = .ok v ∧ v 0 = 0) ∧
    ∃ v, TFTSection.linStress E 0 cylinder cylinder .vectorM z = .ok v ∧ v 0 = 0 := by
  have hA : Acon cylinder = ![![1, 0], ![0, 1]] := cylinder_Acon
  have hc : Linear.Cconst E 0 = 0 := by simp [Linear.Cconst, Linear.lam]
  have hmu : Linear.mu E 0 = E / 2 := by simp [Linear.mu]
  refine ⟨⟨_, rfl, ?_⟩, ⟨_, rfl, ?_⟩, ⟨_, rfl, ?_⟩, ⟨_, rfl, ?_⟩⟩
  · simp [Linear.stress, Linear.Sij, Linear.Cval, hA, hc, hmu, strainC, cylinder_deformation, cylinder_Acov]
    nlinarith [mul_pos hE h0, mul_pos (mul_pos hE h0) (sub_pos.2 h1)]
  · simp [Linear.stress, Linear.Sij, Linear.Cval, hA, hc, hmu, strainC, cylinder_B]
    positivity
  · simp [Linear.stress, Linear.Sij, TFTSection.linStrain, membraneStrain]
  · simp [Linear.stress, Linear.Sij, TFTSection.linStrain, bendingStrain]

/-! ## Functions of the strain -/

/-- **C151** (partial: after an evaluation) The public `S` is Hooke's law of the point evaluated last:
the stress column is the matrix of that point times the strain column, whatever point the strain
belongs to. -/
theorem C151_public_partial (E ν : ℝ) (A e : T2) (hA : A 0 1 = A 1 0) (he : e 0 1 = e 1 0) :
    ∃ S, publicS (some (E, ν, A)) e = .ok S ∧ S 0 1 = S 1 0 ∧
      vec3 (S 0 0) (S 1 1) (S 0 1) = mulVec3 (Linear.matrix E ν A) (vec3 (e 0 0) (e 1 1) (2 * e 0 1)) := by
  refine ⟨_, rfl, ?_, ?_⟩
  · simp [Linear.Sij, Linear.Cval, hA]; ring
  · funext k
    rcases fin3_cases k with rfl | rfl | rfl <;>
      simp [Linear.Sij, mulVec3, Linear.matrix, Fin.sum_univ_three, Linear.Cval, hA, he] <;> ring

/-- **C151** is violated: the public `S` is undefined before the first evaluation, and the public `C` is
undefined always, since it writes the third row of a matrix with two.  With three rows it would be the
matrix of the point evaluated last. -/
theorem C151_public_violated (l : Last) (e : T2) (E ν : ℝ) (A : T2) :
    publicS none e = .ub ∧ publicC 2 l = .ub ∧
    ∃ m, publicC 3 (some (E, ν, A)) = .ok m ∧ ∀ i j : Fin 3, m i j = Linear.matrix E ν A i j := by
  refine ⟨rfl, ?_, _, rfl, ?_⟩
  · rcases l with _ | ⟨E, ν, A⟩
    · rfl
    · simp [publicC, puts, put, Outcome.bind]
  · intro i j
    rcases fin3_cases i with rfl | rfl | rfl <;> rcases fin3_cases j with rfl | rfl | rfl <;>
      simp [Linear.matrix]

/-! ## Cases meeting the hypotheses -/

/-- Non-vacuity: on the cylinder at the height one half, with the metric `(2, 1, 1/2)`, the neo-Hookean
stress is not zero, so that the matrix is its derivative. -/
example : stressC (.inc (sNH ⟨3, 1 / 2, 1⟩) (cNH ⟨3, 1 / 2, 1⟩)) cylinder (1 / 2) (vec3 2 1 (1 / 2)) ≠ .ok (vec3 0 0 0) := by
  have ho := det_deformation cylinder_indep cylinder_metric
  have hG : Gblock cylinder (1 / 2) = tensor (vec3 (1 / 4) 1 0) := by
    rw [← tensor_deformation _ cylinder_indep, cylinder_deformation]; norm_num
  have hd : 0 < det2 (tensor (vec3 2 1 (1 / 2))) := by rw [det_tensor]; norm_num
  intro h
  rw [stressC, metricC_pos _ _ _ ho hd] at h
  by_cases hc : Shortcut.allClose (data (Gblock cylinder (1 / 2)) (tensor (vec3 2 1 (1 / 2)))).Gori
      (data (Gblock cylinder (1 / 2)) (tensor (vec3 2 1 (1 / 2)))).gcon (1 / 10 ^ 12)
  · exact far_example hG hc
  · have := (evalStress_far (cNH ⟨3, 1 / 2, 1⟩) (S := sNH ⟨3, 1 / 2, 1⟩) hc).symm.trans h
    injection this with this
    have h0 := congrFun this 0
    rw [hG] at h0
    simp [ShellTangent.stressV, sNH, data, inv2, det2, embed, Par.mu] at h0
    norm_num at h0

/-- Non-vacuity: the extended neo-Hookean material with Poisson's ratio zero on the undeformed cylinder, where the
thickness stays the same; the loop returns it exactly. -/
example : ∃ C : T3, matrixC (.comp (sNHe ⟨2, 0, 1⟩) (cNHe ⟨2, 0, 1⟩)) cylinder (1 / 2) (deformation cylinder (1 / 2)) = .ok C ∧
    ∀ k, HasDerivAt (fun τ => ShellTangent.stressV (sNHe ⟨2, 0, 1⟩ (cdata (data (Gblock cylinder (1 / 2))
      (tensor fun k => deformation cylinder (1 / 2) k + τ * rate (vec3 1 2 3) k)) 1)) k) (∑ j, C k j * vec3 1 2 3 j) 0 := by
  have hd := det_deformation cylinder_indep cylinder_metric
  have hJ : (data (Gblock cylinder (1 / 2)) (tensor (deformation cylinder (1 / 2)))).J0 = 1 := by
    rw [tensor_deformation _ cylinder_indep]
    exact div_self hd.ne'
  refine C151_plane_partial ⟨2, 0, 1⟩ cylinder cylinder_indep (1 / 2) cylinder_metric _ cylinder_metric
    (sNHe ⟨2, 0, 1⟩, cNHe ⟨2, 0, 1⟩) (.inr (.inr rfl)) _ (x := fun _ => 1) (hasDerivAt_const _ _) one_pos ?_ ?_ ?_
  · simp only [Newton.c33Of, Newton.c33, hJ]
    simp [Newton.loop, Newton.itmax, Newton.step, Newton.tol, sNHe, cNHe, dCinv, cdata, withT_22, Par.mu, Par.lam, data]
  · exact Filter.Eventually.of_forall fun τ => by simp [sNHe, cdata, data, withT_22, Par.mu, Par.lam]
  · simp [cNHe, dCinv, cdata, data, withT_22, Par.mu, Par.lam]

example (L : Law) : stressC L plane 0 (deformation cylinder 0) = stress L plane cylinder 0 :=
  (C151_same L plane cylinder cylinder_indep 0).1

example (p : Par) (hp : 0 < p.mu) :=
  C151_derivative_violated p hp cylinder cylinder_indep (1 / 2) cylinder_metric (vec3 1 0 0)

example (L : Law) : stressC L cylinder (1 / 2) (vec3 1 (-1) 0) = .throws :=
  ((C151_reject_partial L cylinder cylinder_indep (1 / 2) cylinder_metric (vec3 1 (-1) 0)).1 (by simp)).1

example (S : Data → Fin 3 → Fin 3 → ℝ) (T : Data → Fin 3 → Fin 3 → Fin 3 → Fin 3 → ℝ) :=
  C151_reject_violated S T cylinder cylinder_indep (1 / 2) cylinder_metric

example : linVectorC 1 (1 / 3) plane .stress (1 / 2) (deformation cylinder (1 / 2))
    = TFTSection.linStress 1 (1 / 3) plane cylinder .stress (1 / 2) :=
  C151_linear_partial 1 (1 / 3) plane cylinder cylinder_indep .stress (1 / 2) (by simp [strainKind])
    (by simp [strainKind])

example := C151_linear_derivative 1 (1 / 3) cylinder .vectorN 0 (vec3 2 1 (1 / 2)) (vec3 1 0 1) (.inl rfl)

example := C151_linear_violated 1 one_pos (1 / 2) (by norm_num) (by norm_num)

example := C151_public_partial 1 (1 / 3) ![![1, 0], ![0, 1]] ![![1, 2], ![2, 0]] rfl rfl

end Verif.AtTensor
