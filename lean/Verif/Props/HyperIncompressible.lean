import Verif.Lemmas.Hyper
import Verif.Spec.Hyper

/-! # Properties C44, C45, C57: incompressible materials -/

namespace Verif.Hyper

open Verif.Geometry Spec.Hyper

/-! ## C44 -/

/-- **C44** Neo-Hookean stress: the generalized implementation returns the analytical
value, for all members with unit thickness entry of the reference metric. -/
theorem C44_NH_stress (p : Par) (D : Data) (h33 : D.Gori 2 2 = 1) (i j : Fin 2) :
    sGen (dPsiNH p D) D (up i) (up j) = sNH p D (up i) (up j) := by
  simp only [sGen, dPsiNH, sNH, h33]
  ring

/-- **C44** Neo-Hookean tangent. -/
theorem C44_NH_tangent (p : Par) (D : Data) (h33 : D.Gori 2 2 = 1) (i j k l : Fin 2) :
    cGen (dPsiNH p D) (d2PsiNH p D) D (up i) (up j) (up k) (up l)
      = cNH p D (up i) (up j) (up k) (up l) := by
  simp only [cGen, dPsiNH, d2PsiNH, cNH, h33]
  ring

/-- **C44** Mooney–Rivlin stress. -/
theorem C44_MR_stress (p : Par) (D : Data) (i j : Fin 2) :
    sGen (dPsiMR p D) D (up i) (up j) = sMR p D (up i) (up j) := by
  simp only [sGen, dPsiMR, sMR, up_ne_two, if_false, and_self, if_true]
  ring

/-- **C44** Mooney–Rivlin tangent. -/
theorem C44_MR_tangent (p : Par) (D : Data) (i j k l : Fin 2) :
    cGen (dPsiMR p D) (d2PsiMR p D) D (up i) (up j) (up k) (up l)
      = cMR p D (up i) (up j) (up k) (up l) := by
  simp only [cGen, dPsiMR, d2PsiMR, cMR, up_ne_two, false_and, if_false, and_self, if_true,
    or_self, not_false_eq_true, not_true_eq_false, and_false]
  ring

/-- **C44** The members that `_getMetric` produces satisfy the hypothesis of the neo-Hookean
statements. -/
theorem C44_metric_hypothesis (A C : T2) : (data A C).Gori 2 2 = 1 := rfl

/-- Non-vacuity: a sheared deformation with non-zero stress. -/
example : sNH ⟨3, 1 / 2, 1⟩ (data ![![1, 0], ![0, 1]] ![![2, 1], ![1, 2]]) (up 0) (up 1)
    = 1 / 9 := by
  simp [sNH, data, embed, inv2, det2, Par.mu]; norm_num

/-! ## C45 -/

section
variable {C : ℝ → T2} {H : T2} {t : ℝ}

/-- **C45** Neo-Hookean: along every differentiable curve of deformation tensors the stress
changes with half the tangent times the velocity. -/
theorem C45_NH (p : Par) (A : T2) (hA : det2 A ≠ 0) (hc : Curve C H t)
    (hdet : det2 (C t) ≠ 0) (i j : Fin 2) :
    HasDerivAt (fun s => sNH p (data A (C s)) (up i) (up j))
      (1 / 2 * contract
        (fun i j k l => cNH p (data A (C t)) (up i) (up j) (up k) (up l)) H i j) t := by
  have hg := hasDerivAt_inv2 hc.deriv hdet i j
  have hd := (hasDerivAt_det2 hc.deriv hdet).div_const (det2 A)
  have hJ : det2 (C t) / det2 A ≠ 0 := div_ne_zero hdet hA
  have h := (((hasDerivAt_const t (inv2 A i j)).sub
    ((hd.inv hJ).mul hg))).const_mul p.mu
  refine deriv_conv h (fun s => ?_) ?_
  · simp only [sNH, data, embed_up, Pi.sub_apply, Pi.mul_apply, Pi.inv_apply, one_div]
  have s := inv2_symm (C t) hc.symm
  simp only [contract, cNH, data, embed_up, Fin.sum_univ_two, Pi.inv_apply, s 0 j, s 1 j, s 1 0,
    hc.symmH]
  generalize inv2 (C t) = g at *
  field_simp
  ring

/-- **C45** Mooney–Rivlin. -/
theorem C45_MR (p : Par) (A : T2) (hA : det2 A ≠ 0) (hsA : A 0 1 = A 1 0) (hc : Curve C H t)
    (hdet : det2 (C t) ≠ 0) (i j : Fin 2) :
    HasDerivAt (fun s => sMR p (data A (C s)) (up i) (up j))
      (1 / 2 * contract
        (fun i j k l => cMR p (data A (C t)) (up i) (up j) (up k) (up l)) H i j) t := by
  have hg := hasDerivAt_inv2 hc.deriv hdet i j
  have hd := (hasDerivAt_det2 hc.deriv hdet).div_const (det2 A)
  have hJ : det2 (C t) / det2 A ≠ 0 := div_ne_zero hdet hA
  have hJi := hd.inv hJ
  have htr := ((((hc.deriv 0 0).mul_const (inv2 A 0 0)).add
    ((hc.deriv 0 1).mul_const (inv2 A 0 1))).add
    ((hc.deriv 1 0).mul_const (inv2 A 1 0))).add ((hc.deriv 1 1).mul_const (inv2 A 1 1))
  have h1 := ((hasDerivAt_const t (inv2 A i j)).sub (hJi.mul hg)).const_mul p.c1
  have h2 := (hJi.const_mul p.c2).mul ((hasDerivAt_const t (inv2 A i j)).sub (htr.mul hg))
  have h3 := (hd.const_mul p.c2).mul hg
  have h := (h1.add h2).add h3
  refine deriv_conv h (fun s => ?_) ?_
  · simp only [sMR, traceCt, data, embed_up, embed_00, embed_01, embed_10, embed_11,
      Pi.sub_apply, Pi.mul_apply, Pi.inv_apply, Pi.add_apply, div_eq_mul_inv]
    ring
  have s := inv2_symm (C t) hc.symm
  have sA := inv2_symm A hsA
  simp only [contract, cMR, traceCt, data, embed_up, embed_00, embed_01, embed_10, embed_11,
    Fin.sum_univ_two, Pi.inv_apply, Pi.add_apply, Pi.sub_apply, Pi.mul_apply, s 0 j, s 1 j, s 1 0,
    sA 1 0, hc.symmH, hc.symm]
  generalize inv2 (C t) = g at *
  generalize inv2 A = G at *
  field_simp
  ring

end

/-- Non-vacuity: a curve through a sheared, stretched state. -/
example : Curve (fun s => ![![2, 1 + s], ![1 + s, 2]]) ![![0, 1], ![1, 0]] 0 ∧
    det2 (![![2, 1 + 0], ![1 + 0, 2]] : T2) ≠ 0 := by
  refine ⟨⟨fun i j => ?_, rfl, rfl⟩, by simp [det2]; norm_num⟩
  rcases fin2_cases i with rfl | rfl <;> rcases fin2_cases j with rfl | rfl
  · exact hasDerivAt_const _ _
  · exact (hasDerivAt_id (0 : ℝ)).const_add 1
  · exact (hasDerivAt_id (0 : ℝ)).const_add 1
  · exact hasDerivAt_const _ _

/-! ## C57 -/

/-- **C57** The closed-form derivative of the neo-Hookean tangent is its derivative along
every differentiable curve of deformation tensors. -/
theorem C57_derivative {C : ℝ → T2} {H : T2} {t : ℝ} (p : Par) (A : T2) (hA : det2 A ≠ 0)
    (hc : Curve C H t) (hdet : det2 (C t) ≠ 0) (i j k l : Fin 2) :
    HasDerivAt (fun s => cNH p (data A (C s)) (up i) (up j) (up k) (up l))
      (∑ m, ∑ n, dCNH p (data A (C t)) (up i) (up j) (up k) (up l) (up m) (up n) * H m n) t := by
  have g := hasDerivAt_inv2 hc.deriv hdet
  have hd := (hasDerivAt_det2 hc.deriv hdet).div_const (det2 A)
  have hJ : det2 (C t) / det2 A ≠ 0 := div_ne_zero hdet hA
  have h := ((hd.inv hJ).const_mul p.mu).mul
    (((((g i j).const_mul 2).mul (g k l)).add ((g i k).mul (g j l))).add ((g i l).mul (g j k)))
  refine deriv_conv h (fun s => ?_) ?_
  · simp only [cNH, data, embed_up, Pi.mul_apply, Pi.inv_apply, Pi.add_apply, div_eq_mul_inv,
      mul_one]
  have s := inv2_symm (C t) hc.symm
  simp only [dCNH, dgcon, data, embed_up, Fin.sum_univ_two, Pi.inv_apply, Pi.add_apply,
    Pi.mul_apply, s 0 j, s 1 j, s 0 k, s 1 k, s 0 l, s 1 l, s 1 0, hc.symmH]
  generalize inv2 (C t) = g at *
  field_simp
  ring

/-- **C57** The derivative has the symmetries of a second derivative of a stress: it is
unchanged by exchanging indices within a pair and by exchanging any two of the three index
pairs. -/
theorem C57_symmetric (p : Par) (D : Data) (hs : ∀ i j, D.gcon i j = D.gcon j i)
    (i j k l m n : Fin 3) :
    dCNH p D i j k l m n = dCNH p D j i k l m n ∧
    dCNH p D i j k l m n = dCNH p D k l i j m n ∧
    dCNH p D i j k l m n = dCNH p D m n k l i j := by
  simp only [dCNH, dgcon]
  refine ⟨?_, ?_, ?_⟩
  · rw [hs j i, hs k m]; ring
  · rw [hs k i, hs l j, hs l i, hs k j]; ring
  · rw [hs m k, hs m l, hs n k, hs n l, hs m i, hs m j, hs n i, hs n j, hs l i, hs l j,
      hs k i, hs k j]; ring

end Verif.Hyper
