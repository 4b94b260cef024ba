import Verif.Lemmas.Hyper
import Verif.Spec.Hyper

/-! # Properties C49 – C51: compressible materials -/

set_option linter.unusedSimpArgs false

namespace Verif.Hyper

open Verif.Geometry Spec.Hyper

/-! ## C49 -/

/-- **C49** Compressible neo-Hookean: stress and tangent of the generalized implementation
are those of the analytical one, for all arguments. -/
theorem C49_NH (p : Par) (d : CData) (i j k l : Fin 3) :
    sGenc (dPsiNHc p d) i j = sNHc p d i j ∧
    cGenc (d2PsiNHc p d) i j k l = cNHc p d i j k l := by
  constructor
  · simp only [sGenc, dPsiNHc, sNHc, dPsiVol, dI1]; ring
  · simp only [cGenc, d2PsiNHc, cNHc, d2PsiVol, dI1]; ring

/-- **C49** Compressible Mooney–Rivlin. -/
theorem C49_MR (p : Par) (d : CData) (i j k l : Fin 3) :
    sGenc (dPsiMRc p d) i j = sMRc p d i j ∧
    cGenc (d2PsiMRc p d) i j k l = cMRc p d i j k l := by
  constructor
  · simp only [sGenc, dPsiMRc, sMRc, dPsiVol, dI1]; ring
  · simp only [cGenc, d2PsiMRc, cMRc, d2PsiVol]; ring

/-- **C49** Extended neo-Hookean. -/
theorem C49_NHext (p : Par) (d : CData) (i j k l : Fin 3) :
    sGenc (dPsiNHe p d) i j = sNHe p d i j ∧
    cGenc (d2PsiNHe p d) i j k l = cNHe p d i j k l := by
  constructor
  · simp only [sGenc, dPsiNHe, sNHe, dI1]; ring
  · simp only [cGenc, d2PsiNHe, cNHe]; ring

/-- **C49** Hence the condensed tangents agree as well. -/
theorem C49_condensed (p : Par) (d : CData) (i j k l : Fin 3) :
    condense (cGenc (d2PsiNHc p d)) i j k l = condense (cNHc p d) i j k l ∧
    condense (cGenc (d2PsiMRc p d)) i j k l = condense (cMRc p d) i j k l ∧
    condense (cGenc (d2PsiNHe p d)) i j k l = condense (cNHe p d) i j k l := by
  refine ⟨?_, ?_, ?_⟩
  · simp only [condense, fun i j k l => (C49_NH p d i j k l).2]
  · simp only [condense, fun i j k l => (C49_MR p d i j k l).2]
  · simp only [condense, fun i j k l => (C49_NHext p d i j k l).2]

/-! ## C50 -/

/-- Half the three-dimensional tangent applied to an in-plane velocity `H` and a thickness
velocity `h`: the rate that the stress component `(a,b)` must have. -/
noncomputable def rate (T : Fin 3 → Fin 3 → Fin 3 → Fin 3 → ℝ) (H : T2) (h : ℝ)
    (a b : Fin 3) : ℝ :=
  1 / 2 * (∑ k, ∑ l, T a b (up k) (up l) * H k l + T a b 2 2 * h)

/-- `T` is twice the derivative of `S` with respect to the deformation: along every
differentiable curve of symmetric in-plane deformations `C` and thickness stretches `x` at
an admissible state, all in-plane stresses and the thickness stress have the rate predicted
by `T`.  `A` is the reference metric. -/
def IsTangent (A : T2) (S : CData → Fin 3 → Fin 3 → ℝ)
    (T : CData → Fin 3 → Fin 3 → Fin 3 → Fin 3 → ℝ) : Prop :=
  ∀ (C : ℝ → T2) (x : ℝ → ℝ) (H : T2) (h t : ℝ), Curve C H t → HasDerivAt x h t →
    0 < det2 (C t) → 0 < x t →
    (∀ i j : Fin 2, HasDerivAt (fun s => S (cdata (data A (C s)) (x s)) (up i) (up j))
      (rate (T (cdata (data A (C t)) (x t))) H h (up i) (up j)) t) ∧
    HasDerivAt (fun s => S (cdata (data A (C s)) (x s)) 2 2)
      (rate (T (cdata (data A (C t)) (x t))) H h 2 2) t

/-- **C50** Extended neo-Hookean. -/
theorem C50_NHext (p : Par) (A : T2) (hA : 0 < det2 A) :
    IsTangent A (sNHe p) (cNHe p) := by
  intro C x H h t hc hx hdet hpos
  have hd := ((hasDerivAt_det2 hc.deriv hdet.ne').div_const (det2 A)).mul hx
  have s := inv2_symm (C t) hc.symm
  have hxi := hx.inv hpos.ne'
  constructor
  · intro i j
    have hg := hasDerivAt_inv2 hc.deriv hdet.ne' i j
    have hh := ((hasDerivAt_const t (p.mu * inv2 A i j)).sub (hg.const_mul p.mu)).add
      (((hd.sub_const 1).const_mul (p.lam / 2)).mul hg)
    refine deriv_conv hh (fun s => ?_) ?_
    · simp only [sNHe, cdata, data, withT_up, embed_up, Pi.add_apply, Pi.sub_apply, Pi.mul_apply]
    · simp only [rate, cNHe, dCinv, cdata, data, withT_up, withT_up_two, withT_22, embed_up,
        Fin.sum_univ_two, Pi.mul_apply, s 0 j, s 1 j, s 1 0, hc.symmH]
      generalize inv2 (C t) = g at *
      have := hpos.ne'
      field_simp
      ring
  · have hh := ((hasDerivAt_const t p.mu).sub (hxi.const_mul p.mu)).add
      (((hd.sub_const 1).const_mul (p.lam / 2)).mul hxi)
    refine deriv_conv hh (fun s => ?_) ?_
    · simp only [sNHe, cdata, data, withT_22, embed_22, Pi.add_apply, Pi.sub_apply, Pi.mul_apply,
        Pi.inv_apply, one_div, mul_one]
    · simp only [rate, cNHe, dCinv, cdata, data, withT_up, withT_two_up, withT_22, embed_up,
        Fin.sum_univ_two, Pi.mul_apply, Pi.inv_apply, s 1 0, hc.symmH]
      generalize inv2 (C t) = g at *
      have := hpos.ne'
      field_simp
      ring

/-- **C50** Neo-Hookean. -/
theorem C50_NH (p : Par) (A : T2) (hA : 0 < det2 A) (hsA : A 0 1 = A 1 0) :
    IsTangent A (sNHc p) (cNHc p) := by
  intro C x H h t hc hx hdet hpos
  have hd := ((hasDerivAt_det2 hc.deriv hdet.ne').div_const (det2 A)).mul hx
  have hJ : 0 < (((fun s => det2 (C s) / det2 A) * x : ℝ → ℝ)) t := by
    simp only [Pi.mul_apply]; positivity
  have hR := hasDerivAt_rpow_const (-1 / 3) hd hJ
  have htr := ((((hc.deriv 0 0).mul_const (inv2 A 0 0)).add
    ((hc.deriv 0 1).mul_const (inv2 A 0 1))).add
    ((hc.deriv 1 0).mul_const (inv2 A 1 0))).add ((hc.deriv 1 1).mul_const (inv2 A 1 1))
  have hI := htr.add hx
  have s := inv2_symm (C t) hc.symm
  have sA := inv2_symm A hsA
  have hxi := hx.inv hpos.ne'
  have hx0 := hpos.ne'
  constructor
  · intro i j
    have hg := hasDerivAt_inv2 hc.deriv hdet.ne' i j
    have h1 := (hR.const_mul p.mu).mul ((hasDerivAt_const t (inv2 A i j)).sub
      ((hI.const_mul (1 / 3)).mul hg))
    have h3 := ((hd.sub_const 1).const_mul (p.K * (1 / 2))).mul hg
    have hh := h1.add h3
    refine deriv_conv hh (fun s => ?_) ?_
    · simp only [sNHc, I1, traceCt, cdata, data, withT_22, embed_22, withT_up, embed_up, embed_00, embed_01,
        embed_10, embed_11,
        Pi.add_apply, Pi.sub_apply, Pi.mul_apply, Pi.inv_apply, one_div]
    · simp only [rate, cNHc, dCinv, I1, traceCt, cdata, data, withT_22, embed_22, withT_up, embed_up, embed_00, embed_01,
        embed_10, embed_11, withT_up_two, withT_two_up,
        Pi.add_apply, Pi.sub_apply, Pi.mul_apply, Pi.inv_apply, Fin.sum_univ_two, s 0 j, s 1 j, s 1 0, sA 1 0, hc.symm, hc.symmH]
      generalize (det2 (C t) / det2 A * x t) ^ (-1 / 3 : ℝ) = R at *
      generalize inv2 (C t) = g at *
      generalize inv2 A = G at *
      have hdet0 := hdet.ne'
      have hA0 := hA.ne'
      field_simp
      ring
  · have h1 := (hR.const_mul p.mu).mul ((hasDerivAt_const t ((1 : ℝ))).sub
      ((hI.const_mul (1 / 3)).mul hxi))
    have h3 := ((hd.sub_const 1).const_mul (p.K * (1 / 2))).mul hxi
    have hh := h1.add h3
    refine deriv_conv hh (fun s => ?_) ?_
    · simp only [sNHc, I1, traceCt, cdata, data, withT_22, embed_22, withT_up, embed_up, embed_00, embed_01,
        embed_10, embed_11,
        Pi.add_apply, Pi.sub_apply, Pi.mul_apply, Pi.inv_apply, one_div]
    · simp only [rate, cNHc, dCinv, I1, traceCt, cdata, data, withT_22, embed_22, withT_up, embed_up, embed_00, embed_01,
        embed_10, embed_11, withT_up_two, withT_two_up,
        Pi.add_apply, Pi.sub_apply, Pi.mul_apply, Pi.inv_apply, Fin.sum_univ_two, s 1 0, sA 1 0, hc.symm, hc.symmH]
      generalize (det2 (C t) / det2 A * x t) ^ (-1 / 3 : ℝ) = R at *
      generalize inv2 (C t) = g at *
      generalize inv2 A = G at *
      have hdet0 := hdet.ne'
      have hA0 := hA.ne'
      field_simp
      ring

/-- **C50** Mooney–Rivlin. -/
theorem C50_MR (p : Par) (A : T2) (hA : 0 < det2 A) (hsA : A 0 1 = A 1 0) :
    IsTangent A (sMRc p) (cMRc p) := by
  intro C x H h t hc hx hdet hpos
  have hd := ((hasDerivAt_det2 hc.deriv hdet.ne').div_const (det2 A)).mul hx
  have hJ : 0 < (((fun s => det2 (C s) / det2 A) * x : ℝ → ℝ)) t := by
    simp only [Pi.mul_apply]; positivity
  have hR := hasDerivAt_rpow_const (-1 / 3) hd hJ
  have hR2 := hasDerivAt_rpow_const (-2 / 3) hd hJ
  have hd0 := (hasDerivAt_det2 hc.deriv hdet.ne').div_const (det2 A)
  have htr := ((((hc.deriv 0 0).mul_const (inv2 A 0 0)).add
    ((hc.deriv 0 1).mul_const (inv2 A 0 1))).add
    ((hc.deriv 1 0).mul_const (inv2 A 1 0))).add ((hc.deriv 1 1).mul_const (inv2 A 1 1))
  have hI := htr.add hx
  have hI2 := (hx.mul htr).add hd0
  have s := inv2_symm (C t) hc.symm
  have sA := inv2_symm A hsA
  have hxi := hx.inv hpos.ne'
  have hx0 := hpos.ne'
  constructor
  · intro i j
    have hg := hasDerivAt_inv2 hc.deriv hdet.ne' i j
    have h1 := (hR.const_mul p.c1).mul ((hasDerivAt_const t (inv2 A i j)).sub
      ((hI.const_mul (1 / 3)).mul hg))
    have h2 := (hR2.const_mul p.c2).mul (((hx.mul_const (inv2 A i j)).add (hd0.mul hg)).sub
      ((hI2.const_mul (2 / 3)).mul hg))
    have h3 := ((hd.sub_const 1).const_mul (p.K * (1 / 2))).mul hg
    have hh := (h1.add h2).add h3
    refine deriv_conv hh (fun s => ?_) ?_
    · simp only [sMRc, I2, dI2, d2I2, delta_up, idelta_up, delta_two, idelta_two, dI1, I1, traceCt, cdata, data, withT_22, embed_22, withT_up, embed_up, embed_00, embed_01,
        embed_10, embed_11,
        Pi.add_apply, Pi.sub_apply, Pi.mul_apply, Pi.inv_apply, one_div]
      ring
    · simp only [rate, cMRc, I2, dI2, d2I2, delta_up, idelta_up, delta_two, idelta_two, dI1, dCinv, I1, traceCt, cdata, data, withT_22, embed_22, withT_up, embed_up, embed_00, embed_01,
        embed_10, embed_11, withT_up_two, withT_two_up,
        Pi.add_apply, Pi.sub_apply, Pi.mul_apply, Pi.inv_apply, Fin.sum_univ_two, s 0 j, s 1 j, s 1 0, sA 1 0, hc.symm, hc.symmH]
      generalize (det2 (C t) / det2 A * x t) ^ (-1 / 3 : ℝ) = R at *
      generalize (det2 (C t) / det2 A * x t) ^ (-2 / 3 : ℝ) = R2 at *
      generalize inv2 (C t) = g at *
      generalize inv2 A = G at *
      have hdet0 := hdet.ne'
      have hA0 := hA.ne'
      field_simp
      ring
  · have h1 := (hR.const_mul p.c1).mul ((hasDerivAt_const t ((1 : ℝ))).sub
      ((hI.const_mul (1 / 3)).mul hxi))
    have h2 := (hR2.const_mul p.c2).mul (htr.sub ((hI2.const_mul (2 / 3)).mul hxi))
    have h3 := ((hd.sub_const 1).const_mul (p.K * (1 / 2))).mul hxi
    have hh := (h1.add h2).add h3
    refine deriv_conv hh (fun s => ?_) ?_
    · simp only [sMRc, I2, dI2, d2I2, delta_up, idelta_up, delta_two, idelta_two, dI1, I1, traceCt, cdata, data, withT_22, embed_22, withT_up, embed_up, embed_00, embed_01,
        embed_10, embed_11,
        Pi.add_apply, Pi.sub_apply, Pi.mul_apply, Pi.inv_apply, one_div]
      ring
    · simp only [rate, cMRc, I2, dI2, d2I2, delta_up, idelta_up, delta_two, idelta_two, dI1, dCinv, I1, traceCt, cdata, data, withT_22, embed_22, withT_up, embed_up, embed_00, embed_01,
        embed_10, embed_11, withT_up_two, withT_two_up,
        Pi.add_apply, Pi.sub_apply, Pi.mul_apply, Pi.inv_apply, Fin.sum_univ_two, s 1 0, sA 1 0, hc.symm, hc.symmH]
      generalize (det2 (C t) / det2 A * x t) ^ (-1 / 3 : ℝ) = R at *
      generalize (det2 (C t) / det2 A * x t) ^ (-2 / 3 : ℝ) = R2 at *
      generalize inv2 (C t) = g at *
      generalize inv2 A = G at *
      have hdet0 := hdet.ne'
      have hA0 := hA.ne'
      field_simp
      ring

/-- Non-vacuity: a sheared, stretched state that thins while the shear grows. -/
example : Curve (fun s => ![![2, 1 + s], ![1 + s, 2]]) ![![0, 1], ![1, 0]] 0 ∧
    HasDerivAt (fun s : ℝ => 1 / 2 - s) (-1) 0 ∧
    0 < det2 (![![2, 1 + 0], ![1 + 0, 2]] : T2) ∧ (0 : ℝ) < 1 / 2 - 0 := by
  refine ⟨⟨fun i j => ?_, rfl, rfl⟩, ?_, by simp [det2]; norm_num, by norm_num⟩
  · rcases fin2_cases i with rfl | rfl <;> rcases fin2_cases j with rfl | rfl
    · exact hasDerivAt_const _ _
    · exact (hasDerivAt_id (0 : ℝ)).const_add 1
    · exact (hasDerivAt_id (0 : ℝ)).const_add 1
    · exact hasDerivAt_const _ _
  · exact (hasDerivAt_id (0 : ℝ)).const_sub (1 / 2)

/-! ## C51 -/

/-- **C51** For every stress law with tangent `T`: along a curve on which the thickness
stress stays zero, the in-plane stress has the rate given by the condensed tangent. -/
theorem C51_condensation {A : T2} {S : CData → Fin 3 → Fin 3 → ℝ}
    {T : CData → Fin 3 → Fin 3 → Fin 3 → Fin 3 → ℝ} (hT : IsTangent A S T)
    {C : ℝ → T2} {x : ℝ → ℝ} {H : T2} {h t : ℝ} (hc : Curve C H t) (hx : HasDerivAt x h t)
    (hdet : 0 < det2 (C t)) (hpos : 0 < x t)
    (hplane : ∀ᶠ s in nhds t, S (cdata (data A (C s)) (x s)) 2 2 = 0)
    (hstiff : T (cdata (data A (C t)) (x t)) 2 2 2 2 ≠ 0) (i j : Fin 2) :
    HasDerivAt (fun s => S (cdata (data A (C s)) (x s)) (up i) (up j))
      (1 / 2 * contract (fun i j k l => condense (T (cdata (data A (C t)) (x t)))
        (up i) (up j) (up k) (up l)) H i j) t := by
  obtain ⟨h1, h2⟩ := hT C x H h t hc hx hdet hpos
  have h0 : HasDerivAt (fun s => S (cdata (data A (C s)) (x s)) 2 2) 0 t :=
    (hasDerivAt_const t (0 : ℝ)).congr_of_eventuallyEq hplane
  have e := h2.unique h0
  refine (h1 i j).congr_deriv ?_
  simp only [rate, Fin.sum_univ_two, contract, condense] at e ⊢
  generalize T (cdata (data A (C t)) (x t)) = T at *
  have hh : h = -(T 2 2 (up 0) (up 0) * H 0 0 + T 2 2 (up 0) (up 1) * H 0 1
      + (T 2 2 (up 1) (up 0) * H 1 0 + T 2 2 (up 1) (up 1) * H 1 1)) / T 2 2 2 2 := by
    field_simp
    linarith
  rw [hh]
  field_simp
  ring

/-- **C51** Applied to the three analytical models. -/
theorem C51_models (p : Par) {A : T2} (hA : 0 < det2 A) (hsA : A 0 1 = A 1 0)
    {C : ℝ → T2} {x : ℝ → ℝ} {H : T2} {h t : ℝ} (hc : Curve C H t) (hx : HasDerivAt x h t)
    (hdet : 0 < det2 (C t)) (hpos : 0 < x t)
    (ST : (CData → Fin 3 → Fin 3 → ℝ) × (CData → Fin 3 → Fin 3 → Fin 3 → Fin 3 → ℝ))
    (hST : ST = (sNHc p, cNHc p) ∨ ST = (sMRc p, cMRc p) ∨ ST = (sNHe p, cNHe p))
    (hplane : ∀ᶠ s in nhds t, ST.1 (cdata (data A (C s)) (x s)) 2 2 = 0)
    (hstiff : ST.2 (cdata (data A (C t)) (x t)) 2 2 2 2 ≠ 0) (i j : Fin 2) :
    HasDerivAt (fun s => ST.1 (cdata (data A (C s)) (x s)) (up i) (up j))
      (1 / 2 * contract (fun i j k l => condense (ST.2 (cdata (data A (C t)) (x t)))
        (up i) (up j) (up k) (up l)) H i j) t := by
  have hT : IsTangent A ST.1 ST.2 := by
    rcases hST with rfl | rfl | rfl
    · exact C50_NH p A hA hsA
    · exact C50_MR p A hA hsA
    · exact C50_NHext p A hA
  exact C51_condensation hT hc hx hdet hpos hplane hstiff i j

/-- **C51** The condensed tangent has no thickness components: condensing makes the
thickness row and column vanish. -/
theorem C51_no_thickness (T : Fin 3 → Fin 3 → Fin 3 → Fin 3 → ℝ) (h : T 2 2 2 2 ≠ 0)
    (i j : Fin 3) : condense T i j 2 2 = 0 ∧ condense T 2 2 i j = 0 := by
  constructor <;> · unfold condense; field_simp; ring

/-- Non-vacuity: for `ν = 0` the extended neo-Hookean material keeps its thickness in every
in-plane deformation, so a curve with constant thickness satisfies the hypotheses. -/
example : (∀ᶠ s in nhds (0 : ℝ), sNHe ⟨2, 0, 1⟩ (cdata (data ![![1, 0], ![0, 1]]
      ![![2 + s, 1], ![1, 2]]) 1) 2 2 = 0) ∧
    cNHe ⟨2, 0, 1⟩ (cdata (data ![![1, 0], ![0, 1]] ![![2 + 0, 1], ![1, 2]]) 1) 2 2 2 2 ≠ 0 := by
  refine ⟨Filter.Eventually.of_forall fun s => ?_, ?_⟩
  · simp [sNHe, cdata, data, withT_22, Par.mu, Par.lam]
  · simp [cNHe, dCinv, cdata, data, withT_22, Par.mu, Par.lam]

end Verif.Hyper
