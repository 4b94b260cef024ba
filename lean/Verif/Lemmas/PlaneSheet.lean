import Verif.Spec.PlaneSheet
import Verif.Lemmas.PlanarSystem
import Verif.Lemmas.PlaneStress
import Verif.Props.HyperCompressible
import Verif.Props.HyperReference
import Verif.Props.PosDef
import Mathlib.Analysis.Calculus.ImplicitContDiff
import Mathlib.Analysis.Calculus.Deriv.MeanValue
import Mathlib.Analysis.SpecialFunctions.Pow.Deriv
import Mathlib.Analysis.SpecialFunctions.Log.Deriv

/-! # Helper lemmas: sheets of compressible material in plane stress -/

namespace Verif.PlaneSheet

open Verif.Geometry Verif.Hyper Verif.PlaneStress
open Verif.PlanarSystem (det_smooth inv_smooth trace_smooth OnMetrics)
open Spec.PlaneSheet Spec.Hyper Spec.PosDef
open Filter Topology

theorem pos_of_mul_pos_of_pos_left' {a b : ℝ} (ha : 0 < a) (h : 0 < a * b) : 0 < b :=
  (mul_pos_iff_of_pos_left ha).1 h

/-! ## The energies -/

theorem tr_eq (A C : T2) : traceCt (data A C) = tr A C := by
  simp only [traceCt, data, tr, embed_00, embed_01, embed_10, embed_11, Fin.sum_univ_two]; ring

section
variable {A : T2} {C : ℝ → T2} {x : ℝ → ℝ} {H : T2} {h t : ℝ}

/-- Half the stress is the derivative of the energy. -/
theorem energy_deriv (s : Solid) (p : Par) (hA : 0 < det2 A) (hc : Curve C H t)
    (hx : HasDerivAt x h t) (hdet : 0 < det2 (C t)) (hpos : 0 < x t) :
    HasDerivAt (fun τ => energy s p A (C τ) (x τ))
      (1 / 2 * ((∑ i, ∑ j, s.stress p (cdata (data A (C t)) (x t)) (up i) (up j) * H i j)
        + s.stress p (cdata (data A (C t)) (x t)) 2 2 * h)) t := by
  have hd0 := (hasDerivAt_det2 hc.deriv hdet.ne').div_const (det2 A)
  have hd := hd0.mul hx
  have hJ : 0 < (((fun s => det2 (C s) / det2 A) * x : ℝ → ℝ)) t := by
    simp only [Pi.mul_apply]; positivity
  have htr := ((((hc.deriv 0 0).mul_const (inv2 A 0 0)).add
    ((hc.deriv 0 1).mul_const (inv2 A 0 1))).add
    ((hc.deriv 1 0).mul_const (inv2 A 1 0))).add ((hc.deriv 1 1).mul_const (inv2 A 1 1))
  have hI := htr.add hx
  have hlog := hd.log hJ.ne'
  have g := inv2_symm (C t) hc.symm
  have hx0 := hpos.ne'
  have hdet0 := hdet.ne'
  have hA0 := hA.ne'
  cases s
  · have hR := hasDerivAt_rpow_const (-1 / 3) hd hJ
    have hh := (((hR.mul hI).sub_const 3).const_mul (p.mu / 2)).add
      (((hd.sub_const 1).sub hlog).const_mul (p.K / 4))
    refine deriv_conv hh (fun s => ?_) ?_
    · simp only [energy, volume, tr, Fin.sum_univ_two, Pi.add_apply, Pi.sub_apply, Pi.mul_apply]; ring
    · simp only [Solid.stress, sNHc, I1, traceCt, cdata, data, withT_22, embed_22, withT_up, embed_up, embed_00, embed_01,
        embed_10, embed_11, Pi.add_apply, Pi.mul_apply, Fin.sum_univ_two, g 1 0, hc.symm, hc.symmH]
      generalize (det2 (C t) / det2 A * x t) ^ (-1 / 3 : ℝ) = R at *
      generalize inv2 (C t) = g at *
      generalize inv2 A = G at *
      field_simp
      ring
  · have hR := hasDerivAt_rpow_const (-1 / 3) hd hJ
    have hR2 := hasDerivAt_rpow_const (-2 / 3) hd hJ
    have hI2 := (hx.mul htr).add hd0
    have hh := ((((hR.mul hI).sub_const 3).const_mul (p.c1 / 2)).add
      (((hR2.mul hI2).sub_const 3).const_mul (p.c2 / 2))).add
      (((hd.sub_const 1).sub hlog).const_mul (p.K / 4))
    refine deriv_conv hh (fun s => ?_) ?_
    · simp only [energy, volume, tr, Fin.sum_univ_two, Pi.add_apply, Pi.sub_apply, Pi.mul_apply]; ring
    · simp only [Solid.stress, sMRc, I2, dI2, delta_up, idelta_up, delta_two, idelta_two, dI1, I1, traceCt, cdata, data, withT_22, embed_22, withT_up, embed_up, embed_00, embed_01,
        embed_10, embed_11, Pi.add_apply, Pi.mul_apply, Fin.sum_univ_two, g 1 0, hc.symm, hc.symmH]
      generalize (det2 (C t) / det2 A * x t) ^ (-1 / 3 : ℝ) = R at *
      generalize (det2 (C t) / det2 A * x t) ^ (-2 / 3 : ℝ) = R2 at *
      generalize inv2 (C t) = g at *
      generalize inv2 A = G at *
      field_simp
      ring
  · have hh := (((hI.sub_const 3).sub hlog).const_mul (p.mu / 2)).add
      (((hd.sub_const 1).sub hlog).const_mul (p.lam / 4))
    refine deriv_conv hh (fun s => ?_) ?_
    · simp only [energy, volume, tr, Fin.sum_univ_two, Pi.add_apply, Pi.sub_apply, Pi.mul_apply]; ring
    · simp only [Solid.stress, sNHe, cdata, data, withT_22, embed_22, withT_up, embed_up,
        Pi.mul_apply, Fin.sum_univ_two, g 1 0, hc.symmH]
      generalize inv2 (C t) = g at *
      generalize inv2 A = G at *
      field_simp
      ring

end

/-! ## The stress across the thickness -/

/-- Thickness stress times stretch as function of trace, squared area ratio and squared stretch. -/
noncomputable def G (s : Solid) (p : Par) (t j x : ℝ) : ℝ :=
  match s with
  | .neoHooke => F p.mu 0 p.K t j (j * x)
  | .mooneyRivlin => F p.c1 p.c2 p.K t j (j * x)
  | .extended => p.mu * (x - 1) + p.lam / 2 * (j * x - 1)

theorem G_eq (s : Solid) (p : Par) (A C : T2) {x : ℝ} (hj : 0 < det2 C / det2 A) (hx : 0 < x) :
    x * s.stress p (cdata (data A C) x) 2 2 = G s p (tr A C) (det2 C / det2 A) x := by
  cases s
  · have := sNHc_F p A C x hj hx
    rw [tr_eq] at this
    exact this
  · have := sMRc_F p A C x hj hx
    rw [tr_eq] at this
    exact this
  · simp only [Solid.stress, sNHe, cdata, data, withT_22, embed_22, G]
    field_simp

theorem F_deriv {c1 c2 K t j w : ℝ} (h1 : 0 ≤ c1) (h2 : 0 ≤ c2) (hK : 0 < K) (ht : 0 < t) (hj : 0 < j) (hw : 0 < w) :
    ∃ g > 0, HasDerivAt (F c1 c2 K t j) g w := by
  have r := fun a : ℝ => hasDerivAt_rpow_const a (hasDerivAt_id' w) hw
  refine ⟨_, ?_, ((((r (2 / 3)).const_mul (2 / j)).sub ((r (-1 / 3)).const_mul t)).const_mul (c1 / 3)).add
    ((((r (1 / 3)).const_mul (t / j)).sub ((r (-2 / 3)).const_mul (2 * j))).const_mul (c2 / 3)) |>.add
    (((hasDerivAt_id' w).sub_const 1).const_mul (K / 2))⟩
  have q := fun a : ℝ => Real.rpow_pos_of_pos hw a
  have q1 := q (2 / 3)
  have q2 := q (-1 / 3)
  have q3 := q (1 / 3)
  have q4 := q (-2 / 3)
  have e1 : 0 ≤ c1 / 3 * (2 / j * (2 / 3 * w ^ (2 / 3 : ℝ) * (1 / w)) - t * (-1 / 3 * w ^ (-1 / 3 : ℝ) * (1 / w))) := by
    have : t * (-1 / 3 * w ^ (-1 / 3 : ℝ) * (1 / w)) = -(t * (1 / 3 * w ^ (-1 / 3 : ℝ) * (1 / w))) := by ring
    rw [this, sub_neg_eq_add]; positivity
  have e2 : 0 ≤ c2 / 3 * (t / j * (1 / 3 * w ^ (1 / 3 : ℝ) * (1 / w)) - 2 * j * (-2 / 3 * w ^ (-2 / 3 : ℝ) * (1 / w))) := by
    have : 2 * j * (-2 / 3 * w ^ (-2 / 3 : ℝ) * (1 / w)) = -(2 * j * (2 / 3 * w ^ (-2 / 3 : ℝ) * (1 / w))) := by ring
    rw [this, sub_neg_eq_add]; positivity
  have e3 : 0 < K / 2 * 1 := by positivity
  linarith

theorem G_slope {s : Solid} {p : Par} (hp : Positive s p) {t j x : ℝ} (ht : 0 < t) (hj : 0 < j) (hx : 0 < x) :
    ∃ g > 0, HasDerivAt (G s p t j) g x := by
  have hm : HasDerivAt (fun y : ℝ => j * y) j x := by simpa using (hasDerivAt_id' x).const_mul j
  cases s
  · obtain ⟨g, hg, h⟩ := F_deriv (w := j * x) hp.1.le le_rfl hp.2 ht hj (mul_pos hj hx)
    exact ⟨g * j, mul_pos hg hj, h.comp x hm⟩
  · obtain ⟨g, hg, h⟩ := F_deriv (w := j * x) hp.1.le hp.2.1.le hp.2.2 ht hj (mul_pos hj hx)
    exact ⟨g * j, mul_pos hg hj, h.comp x hm⟩
  · refine ⟨p.mu * 1 + p.lam / 2 * j, ?_, (((hasDerivAt_id' x).sub_const 1).const_mul p.mu).add
      ((hm.sub_const 1).const_mul (p.lam / 2))⟩
    have := hp.1
    have := mul_nonneg hp.2 hj.le
    linarith

theorem G_root {s : Solid} {p : Par} (hp : Positive s p) {t j : ℝ} (ht : 0 < t) (hj : 0 < j) :
    ∃ x, 0 < x ∧ G s p t j x = 0 := by
  have hF : ∀ c1 c2 K : ℝ, 0 ≤ c1 → 0 ≤ c2 → 0 < K → ∃ x, 0 < x ∧ F c1 c2 K t j (j * x) = 0 := by
    intro c1 c2 K h1 h2 hK
    have hlo : 0 < min (min (t / 2) (1 / j)) (2 * j / t) := by
      simp only [lt_min_iff]; refine ⟨⟨?_, ?_⟩, ?_⟩ <;> positivity
    obtain ⟨x, ⟨hx1, -⟩, hx⟩ := F_root (hi := max (max (t / 2) (1 / j)) (2 * j / t)) h1 h2 hK ht hj hlo
      ((min_le_left _ _).trans ((min_le_left _ _).trans ((le_max_left _ _).trans (le_max_left _ _))))
      ((min_le_left _ _).trans (min_le_left _ _)) ((min_le_left _ _).trans (min_le_right _ _))
      (fun _ => min_le_right _ _) ((le_max_left _ _).trans (le_max_left _ _))
      ((le_max_right _ _).trans (le_max_left _ _)) fun _ => le_max_right _ _
    exact ⟨x, lt_of_lt_of_le hlo hx1, hx⟩
  cases s
  · exact hF _ _ _ hp.1.le le_rfl hp.2
  · exact hF _ _ _ hp.1.le hp.2.1.le hp.2.2
  · have hm := hp.1
    have hl := hp.2
    have h0 : 0 < 2 * p.mu + p.lam * j := by positivity
    refine ⟨(2 * p.mu + p.lam) / (2 * p.mu + p.lam * j), by positivity, ?_⟩
    simp only [G]
    field_simp
    ring

theorem G_mono {s : Solid} {p : Par} (hp : Positive s p) {t j : ℝ} (ht : 0 < t) (hj : 0 < j) :
    StrictMonoOn (G s p t j) (Set.Ioi 0) := by
  refine strictMonoOn_of_deriv_pos (convex_Ioi 0) (fun x hx => ?_) fun x hx => ?_
  · obtain ⟨g, -, h⟩ := G_slope hp ht hj hx
    exact h.continuousAt.continuousWithinAt
  · rw [interior_Ioi] at hx
    obtain ⟨g, hg, h⟩ := G_slope hp ht hj hx
    rw [h.deriv]; exact hg

theorem F_smooth (c1 c2 K : ℝ) {t j x : ℝ} (hj : 0 < j) (hx : 0 < x) :
    ContDiffAt ℝ 2 (fun z : (ℝ × ℝ) × ℝ => F c1 c2 K z.1.1 z.1.2 (z.1.2 * z.2)) ((t, j), x) := by
  have ht' : ContDiffAt ℝ 2 (fun z : (ℝ × ℝ) × ℝ => z.1.1) ((t, j), x) := by fun_prop
  have hj' : ContDiffAt ℝ 2 (fun z : (ℝ × ℝ) × ℝ => z.1.2) ((t, j), x) := by fun_prop
  have hx' : ContDiffAt ℝ 2 (fun z : (ℝ × ℝ) × ℝ => z.2) ((t, j), x) := by fun_prop
  have hw := hj'.mul hx'
  have hr : ∀ a : ℝ, ContDiffAt ℝ 2 (fun z : (ℝ × ℝ) × ℝ => (z.1.2 * z.2) ^ a) ((t, j), x) := fun a =>
    hw.rpow_const_of_ne (mul_pos hj hx).ne'
  have hj0 : ((t, j), x).1.2 ≠ 0 := hj.ne'
  unfold F
  exact ((contDiffAt_const.mul (((contDiffAt_const.div hj' hj0).mul (hr _)).sub (ht'.mul (hr _)))).add
    (contDiffAt_const.mul (((ht'.div hj' hj0).mul (hr _)).sub ((contDiffAt_const.mul hj').mul (hr _))))).add
    (contDiffAt_const.mul (hw.sub contDiffAt_const))

theorem G_smooth (s : Solid) (p : Par) {t j x : ℝ} (hj : 0 < j) (hx : 0 < x) :
    ContDiffAt ℝ 2 (fun z : (ℝ × ℝ) × ℝ => G s p z.1.1 z.1.2 z.2) ((t, j), x) := by
  cases s
  · exact F_smooth _ _ _ hj hx
  · exact F_smooth _ _ _ hj hx
  · simp only [G]
    fun_prop

open Classical in
/-- The root. -/
noncomputable def R (s : Solid) (p : Par) (z : ℝ × ℝ) : ℝ :=
  if h : ∃ x, 0 < x ∧ G s p z.1 z.2 x = 0 then h.choose else 1

theorem R_spec {s : Solid} {p : Par} (hp : Positive s p) {t j : ℝ} (ht : 0 < t) (hj : 0 < j) :
    0 < R s p (t, j) ∧ G s p t j (R s p (t, j)) = 0 := by
  have h : ∃ x, 0 < x ∧ G s p (t, j).1 (t, j).2 x = 0 := G_root hp ht hj
  unfold R
  rw [dif_pos h]
  exact h.choose_spec

theorem R_unique {s : Solid} {p : Par} (hp : Positive s p) {t j x : ℝ} (ht : 0 < t) (hj : 0 < j) (hx : 0 < x)
    (h0 : G s p t j x = 0) : x = R s p (t, j) := by
  obtain ⟨h1, h2⟩ := R_spec hp ht hj
  exact (G_mono hp ht hj).injOn hx h1 (h0.trans h2.symm)

theorem R_smooth {s : Solid} {p : Par} (hp : Positive s p) {t j : ℝ} (ht : 0 < t) (hj : 0 < j) :
    ContDiffAt ℝ 2 (R s p) (t, j) := by
  obtain ⟨h1, h2⟩ := R_spec hp ht hj
  have hs := G_smooth s p (t := t) hj h1
  obtain ⟨g, hg, hd⟩ := G_slope hp ht hj h1
  have hinv : (fderiv ℝ (fun z : (ℝ × ℝ) × ℝ => G s p z.1.1 z.1.2 z.2) ((t, j), R s p (t, j))
      ∘L .inr ℝ (ℝ × ℝ) ℝ).IsInvertible := by
    have hf := (hs.differentiableAt (by norm_num)).hasFDerivAt
    have hl : HasDerivAt (fun y : ℝ => (((t, j), y) : (ℝ × ℝ) × ℝ)) ((0 : ℝ × ℝ), (1 : ℝ)) (R s p (t, j)) :=
      (hasDerivAt_const _ _).prodMk (hasDerivAt_id' _)
    have hc := hf.comp_hasDerivAt (R s p (t, j)) hl
    have he := hc.unique hd
    refine ⟨ContinuousLinearEquiv.unitsEquivAut ℝ (Units.mk0 g hg.ne'), ?_⟩
    ext
    simp only [ContinuousLinearEquiv.coe_coe, ContinuousLinearEquiv.unitsEquivAut_apply, Units.val_mk0, one_mul,
      ContinuousLinearMap.comp_apply, ContinuousLinearMap.inr_apply]
    exact he.symm
  have hi := hs.contDiffAt_implicitFunction (by norm_num) hinv
  refine hi.congr_of_eventuallyEq ?_
  have hv := hs.eventually_apply_implicitFunction (by norm_num) hinv
  have hval := hs.implicitFunction_apply_self (by norm_num) hinv
  have hpos : ∀ᶠ z in 𝓝 (t, j), 0 < hs.implicitFunction (by norm_num) hinv z := by
    refine hi.continuousAt.eventually_const_lt ?_
    rw [hval]; exact h1
  have h11 : ∀ᶠ z : ℝ × ℝ in 𝓝 (t, j), 0 < z.1 := continuousAt_fst.eventually_const_lt ht
  have h12 : ∀ᶠ z : ℝ × ℝ in 𝓝 (t, j), 0 < z.2 := continuousAt_snd.eventually_const_lt hj
  filter_upwards [hv, hpos, h11, h12] with z e1 e2 e3 e4
  exact (R_unique hp e3 e4 e2 (by simpa [h2] using e1)).symm

/-! ## The stretch -/

section
variable {s : Solid} {p : Par} {A C : T2}

theorem tr_pos (hA : Metric A) (hC : Metric C) : 0 < tr A C := by
  rw [← tr_eq]; exact trace_pos hA hC

theorem ratio_pos (hA : Metric A) (hC : Metric C) : 0 < det2 C / det2 A := J0_pos hA hC

theorem balanced_iff (s : Solid) (p : Par) (A C : T2) {x : ℝ} (hj : 0 < det2 C / det2 A) (hx : 0 < x) :
    s.stress p (cdata (data A C) x) 2 2 = 0 ↔ G s p (tr A C) (det2 C / det2 A) x = 0 := by
  rw [← G_eq s p A C hj hx, mul_eq_zero, or_iff_right hx.ne']

theorem exact_spec (hp : Positive s p) (ht : 0 < tr A C) (hj : 0 < det2 C / det2 A) :
    0 < exact s p (data A C) ∧ s.stress p (cdata (data A C) (exact s p (data A C))) 2 2 = 0 := by
  have h : ∃ x, 0 < x ∧ s.stress p (cdata (data A C) x) 2 2 = 0 := by
    obtain ⟨x, hx, h0⟩ := G_root hp ht hj
    exact ⟨x, hx, (balanced_iff s p A C hj hx).2 h0⟩
  unfold exact
  rw [dif_pos h]
  exact h.choose_spec

theorem exact_eq (hp : Positive s p) (ht : 0 < tr A C) (hj : 0 < det2 C / det2 A) :
    exact s p (data A C) = R s p (tr A C, det2 C / det2 A) := by
  obtain ⟨h1, h2⟩ := exact_spec hp ht hj
  exact R_unique hp ht hj h1 ((balanced_iff s p A C hj h1).1 h2)

theorem stress_sign (hp : Positive s p) (ht : 0 < tr A C) (hj : 0 < det2 C / det2 A) {x : ℝ} (hx : 0 < x) :
    (x < exact s p (data A C) → s.stress p (cdata (data A C) x) 2 2 < 0) ∧
    (exact s p (data A C) < x → 0 < s.stress p (cdata (data A C) x) 2 2) := by
  obtain ⟨h1, h2⟩ := exact_spec hp ht hj
  have h3 := (balanced_iff s p A C hj h1).1 h2
  constructor
  · intro h
    have := G_mono hp ht hj hx h1 h
    rw [h3, ← G_eq s p A C hj hx] at this
    by_contra hc
    push Not at hc
    exact absurd this (not_lt.2 (mul_nonneg hx.le hc))
  · intro h
    have := G_mono hp ht hj h1 hx h
    rw [h3, ← G_eq s p A C hj hx] at this
    exact pos_of_mul_pos_of_pos_left' hx this

theorem energy_x (s : Solid) (p : Par) (A C : T2) {x : ℝ} (hj : 0 < det2 C / det2 A) (hx : 0 < x) :
    HasDerivAt (fun y => energy s p A C y) (1 / 2 * s.stress p (cdata (data A C) x) 2 2) x := by
  have hd : HasDerivAt (fun y : ℝ => det2 C / det2 A * y) (det2 C / det2 A) x := by
    simpa using (hasDerivAt_id' x).const_mul (det2 C / det2 A)
  have hJ : 0 < det2 C / det2 A * x := mul_pos hj hx
  have hI := (hasDerivAt_id' x).const_add (tr A C)
  have hlog := hd.log hJ.ne'
  have hx0 := hx.ne'
  have hj0 := hj.ne'
  cases s
  · have hR := hasDerivAt_rpow_const (-1 / 3) hd hJ
    have hh := (((hR.mul hI).sub_const 3).const_mul (p.mu / 2)).add
      (((hd.sub_const 1).sub hlog).const_mul (p.K / 4))
    refine deriv_conv hh (fun s => ?_) ?_
    · simp only [energy, volume, Pi.add_apply, Pi.sub_apply, Pi.mul_apply]
    · simp only [Solid.stress, sNHc, I1, tr_eq, cdata, withT_22]
      simp only [data, embed_22]
      generalize (det2 C / det2 A * x) ^ (-1 / 3 : ℝ) = R at *
      generalize det2 C / det2 A = j at *
      field_simp
      ring
  · have hR := hasDerivAt_rpow_const (-1 / 3) hd hJ
    have hR2 := hasDerivAt_rpow_const (-2 / 3) hd hJ
    have hI2 := ((hasDerivAt_id' x).mul_const (tr A C)).add_const (det2 C / det2 A)
    have hh := ((((hR.mul hI).sub_const 3).const_mul (p.c1 / 2)).add
      (((hR2.mul hI2).sub_const 3).const_mul (p.c2 / 2))).add
      (((hd.sub_const 1).sub hlog).const_mul (p.K / 4))
    refine deriv_conv hh (fun s => ?_) ?_
    · simp only [energy, volume, Pi.add_apply, Pi.sub_apply, Pi.mul_apply]
    · simp only [Solid.stress, sMRc, I2, dI2, delta_two, idelta_two, I1, tr_eq, cdata, withT_22]
      simp only [data, embed_22]
      generalize (det2 C / det2 A * x) ^ (-1 / 3 : ℝ) = R at *
      generalize (det2 C / det2 A * x) ^ (-2 / 3 : ℝ) = R2 at *
      generalize det2 C / det2 A = j at *
      field_simp
      ring
  · have hh := (((hI.sub_const 3).sub hlog).const_mul (p.mu / 2)).add
      (((hd.sub_const 1).sub hlog).const_mul (p.lam / 4))
    refine deriv_conv hh (fun s => ?_) ?_
    · simp only [energy, volume, Pi.add_apply, Pi.sub_apply]
    · simp only [Solid.stress, sNHe, cdata, data, withT_22, embed_22]
      generalize det2 C / det2 A = j at *
      field_simp
      ring

theorem energy_min (hp : Positive s p) (ht : 0 < tr A C) (hj : 0 < det2 C / det2 A) {x : ℝ} (hx : 0 < x) :
    energy s p A C (exact s p (data A C)) ≤ energy s p A C x := by
  obtain ⟨h1, -⟩ := exact_spec hp ht hj
  set r := exact s p (data A C) with hr
  rcases le_total x r with h | h
  · have : AntitoneOn (energy s p A C) (Set.Icc x r) := by
      refine antitoneOn_of_deriv_nonpos (convex_Icc x r)
        (fun y hy => (energy_x s p A C hj (hx.trans_le hy.1)).continuousAt.continuousWithinAt)
        (fun y hy => ?_) fun y hy => ?_
      · rw [interior_Icc] at hy
        exact (energy_x s p A C hj (hx.trans hy.1)).differentiableAt.differentiableWithinAt
      · rw [interior_Icc] at hy
        rw [(energy_x s p A C hj (hx.trans hy.1)).deriv]
        have := (stress_sign hp ht hj (hx.trans hy.1)).1 hy.2
        linarith
    exact this ⟨le_rfl, h⟩ ⟨h, le_rfl⟩ h
  · have : MonotoneOn (energy s p A C) (Set.Icc r x) := by
      refine monotoneOn_of_deriv_nonneg (convex_Icc r x)
        (fun y hy => (energy_x s p A C hj (h1.trans_le hy.1)).continuousAt.continuousWithinAt)
        (fun y hy => ?_) fun y hy => ?_
      · rw [interior_Icc] at hy
        exact (energy_x s p A C hj (h1.trans hy.1)).differentiableAt.differentiableWithinAt
      · rw [interior_Icc] at hy
        rw [(energy_x s p A C hj (h1.trans hy.1)).deriv]
        have := (stress_sign hp ht hj (h1.trans hy.1)).2 hy.1
        linarith
    exact this ⟨le_rfl, h⟩ ⟨h, le_rfl⟩ h

theorem density_eq (hp : Positive s p) (ht : 0 < tr A C) (hj : 0 < det2 C / det2 A) :
    density s p A C = energy s p A C (exact s p (data A C)) := by
  have h1 := (exact_spec hp ht hj).1
  have : Nonempty {x : ℝ // 0 < x} := ⟨⟨1, one_pos⟩⟩
  refine le_antisymm (ciInf_le ⟨energy s p A C (exact s p (data A C)), ?_⟩ (⟨_, h1⟩ : {x : ℝ // 0 < x}))
    (le_ciInf fun x => energy_min hp ht hj x.2)
  rintro _ ⟨x, rfl⟩
  exact energy_min hp ht hj x.2

theorem tangent3 (s : Solid) (p : Par) (hA : 0 < det2 A) (hs : A 0 1 = A 1 0) :
    Hyper.IsTangent A (s.stress p) (s.tangent p) := by
  cases s
  · exact C50_NH p A hA hs
  · exact C50_MR p A hA hs
  · exact C50_NHext p A hA

theorem stiff (hp : Positive s p) (hA : Metric A) (hC : Metric C) :
    0 < s.tangent p (cdata (data A C) (exact s p (data A C))) 2 2 2 2 := by
  have ht := tr_pos hA hC
  have hj := ratio_pos hA hC
  obtain ⟨h1, h2⟩ := exact_spec hp ht hj
  set r := exact s p (data A C) with hr
  have hcur : Curve (fun _ => C) 0 r := ⟨fun i j => hasDerivAt_const _ _, hC.1, rfl⟩
  have h := (tangent3 s p hA.2.2 hA.1 (fun _ => C) (fun y => y) 0 1 r hcur (hasDerivAt_id' r) hC.2.2 h1).2
  obtain ⟨g, hg, hd⟩ := G_slope hp ht hj h1
  have h3 := (hasDerivAt_id' r).mul h
  have h4 : HasDerivAt (G s p (tr A C) (det2 C / det2 A)) _ r := h3.congr_of_eventuallyEq (by
    filter_upwards [eventually_gt_nhds h1] with y hy
    exact (G_eq s p A C hj hy).symm)
  have h5 := h4.unique hd
  simp only [h2, rate, Pi.zero_apply, mul_zero, Finset.sum_const_zero, zero_add, mul_one] at h5
  have h6 : 0 < r * (1 / 2 * s.tangent p (cdata (data A C) r) 2 2 2 2) := by rw [h5]; exact hg
  have := pos_of_mul_pos_of_pos_left' h1 h6
  linarith

end

/-! ## The material -/

section
variable {s : Solid} {p : Par} {A : T2} {V : Type} [NormedAddCommGroup V] [NormedSpace ℝ V] {C : V → T2} {x : V}

theorem tr_smooth (A : T2) (h : ∀ i j, ContDiffAt ℝ 2 (fun y => C y i j) x) : ContDiffAt ℝ 2 (fun y => tr A (C y)) x :=
  trace_smooth A h

theorem ratio_smooth (A : T2) (h : ∀ i j, ContDiffAt ℝ 2 (fun y => C y i j) x) :
    ContDiffAt ℝ 2 (fun y => det2 (C y) / det2 A) x := (det_smooth h).div_const _

omit [NormedSpace ℝ V] in
theorem regular_nhds (hA : Metric A) (h : ∀ i j, ContinuousAt (fun y => C y i j) x) (hC : Metric (C x)) :
    ∀ᶠ y in 𝓝 x, 0 < tr A (C y) ∧ 0 < det2 (C y) / det2 A := by
  have h1 : ContinuousAt (fun y => tr A (C y)) x := by
    simp only [tr, Fin.sum_univ_two]
    exact (((h 0 0).mul_const _).add ((h 0 1).mul_const _)).add (((h 1 0).mul_const _).add ((h 1 1).mul_const _))
  have h2 : ContinuousAt (fun y => det2 (C y) / det2 A) x :=
    (((h 0 0).mul (h 1 1)).sub ((h 0 1).mul (h 1 0))).div_const _
  exact (h1.eventually_const_lt (tr_pos hA hC)).and (h2.eventually_const_lt (ratio_pos hA hC))

theorem exact_smooth (hp : Positive s p) (hA : Metric A) (h : ∀ i j, ContDiffAt ℝ 2 (fun y => C y i j) x)
    (hC : Metric (C x)) : ContDiffAt ℝ 2 (fun y => exact s p (data A (C y))) x := by
  have hR := R_smooth hp (tr_pos hA hC) (ratio_pos hA hC)
  have hc : ContDiffAt ℝ 2 (fun y => R s p (tr A (C y), det2 (C y) / det2 A)) x :=
    ContDiffAt.comp (f := fun y => (tr A (C y), det2 (C y) / det2 A)) x hR ((tr_smooth A h).prodMk (ratio_smooth A h))
  refine hc.congr_of_eventuallyEq ?_
  filter_upwards [regular_nhds hA (fun i j => (h i j).continuousAt) hC] with y hy
  exact exact_eq hp hy.1 hy.2

theorem stress_smooth (hp : Positive s p) (hA : Metric A) (h : ∀ i j, ContDiffAt ℝ 2 (fun y => C y i j) x)
    (hC : Metric (C x)) (i j : Fin 2) :
    ContDiffAt ℝ 2 (fun y => (material s p (exact s p)).stress (data A (C y)) (up i) (up j)) x := by
  have hξ := exact_smooth hp hA h hC
  have hr := ratio_smooth A h
  have ht := tr_smooth A h
  have hg := inv_smooth h hC.2.2.ne' i j
  have hw := hr.mul hξ
  have hpos : 0 < det2 (C x) / det2 A * exact s p (data A (C x)) :=
    mul_pos (ratio_pos hA hC) (exact_spec hp (tr_pos hA hC) (ratio_pos hA hC)).1
  have hrp : ∀ a : ℝ, ContDiffAt ℝ 2 (fun y => (det2 (C y) / det2 A * exact s p (data A (C y))) ^ a) x := fun a =>
    hw.rpow_const_of_ne hpos.ne'
  cases s
  · have e : (fun y => (material .neoHooke p (exact .neoHooke p)).stress (data A (C y)) (up i) (up j)) = fun y =>
        p.mu * (det2 (C y) / det2 A * exact .neoHooke p (data A (C y))) ^ (-1 / 3 : ℝ)
          * (inv2 A i j - 1 / 3 * (tr A (C y) + exact .neoHooke p (data A (C y))) * inv2 (C y) i j)
        + p.K * (1 / 2) * (det2 (C y) / det2 A * exact .neoHooke p (data A (C y)) - 1) * inv2 (C y) i j := by
      funext y
      simp only [material, Solid.stress, sNHc, I1, cdata, tr_eq, withT_22, withT_up]
      generalize exact Solid.neoHooke p (data A (C y)) = ξ
      simp only [data, embed_up]
    rw [e]
    exact ((contDiffAt_const.mul (hrp _)).mul (contDiffAt_const.sub ((contDiffAt_const.mul (ht.add hξ)).mul hg))).add
      ((contDiffAt_const.mul (hw.sub contDiffAt_const)).mul hg)
  · have e : (fun y => (material .mooneyRivlin p (exact .mooneyRivlin p)).stress (data A (C y)) (up i) (up j)) = fun y =>
        p.c1 * (det2 (C y) / det2 A * exact .mooneyRivlin p (data A (C y))) ^ (-1 / 3 : ℝ)
          * (inv2 A i j - 1 / 3 * (tr A (C y) + exact .mooneyRivlin p (data A (C y))) * inv2 (C y) i j)
        + p.c2 * (det2 (C y) / det2 A * exact .mooneyRivlin p (data A (C y))) ^ (-2 / 3 : ℝ)
          * (exact .mooneyRivlin p (data A (C y)) * inv2 A i j + det2 (C y) / det2 A * inv2 (C y) i j
            - 2 / 3 * (exact .mooneyRivlin p (data A (C y)) * tr A (C y) + det2 (C y) / det2 A) * inv2 (C y) i j)
        + p.K * (1 / 2) * (det2 (C y) / det2 A * exact .mooneyRivlin p (data A (C y)) - 1) * inv2 (C y) i j := by
      funext y
      simp only [material, Solid.stress, sMRc, I1, I2, dI2, dI1, delta_up, idelta_up, cdata, tr_eq, withT_22, withT_up]
      generalize exact Solid.mooneyRivlin p (data A (C y)) = ξ
      simp only [data, embed_up]
      ring
    rw [e]
    exact (((contDiffAt_const.mul (hrp _)).mul (contDiffAt_const.sub ((contDiffAt_const.mul (ht.add hξ)).mul hg))).add
      ((contDiffAt_const.mul (hrp _)).mul (((hξ.mul contDiffAt_const).add (hr.mul hg)).sub
        ((contDiffAt_const.mul ((hξ.mul ht).add hr)).mul hg)))).add
      ((contDiffAt_const.mul (hw.sub contDiffAt_const)).mul hg)
  · have e : (fun y => (material .extended p (exact .extended p)).stress (data A (C y)) (up i) (up j)) = fun y =>
        p.mu * inv2 A i j - p.mu * inv2 (C y) i j
        + p.lam / 2 * (det2 (C y) / det2 A * exact .extended p (data A (C y)) - 1) * inv2 (C y) i j := by
      funext y
      simp only [material, Solid.stress, sNHe, cdata, withT_up]
      generalize exact Solid.extended p (data A (C y)) = ξ
      simp only [data, embed_up]
    rw [e]
    exact (contDiffAt_const.sub (contDiffAt_const.mul hg)).add
      ((contDiffAt_const.mul (hw.sub contDiffAt_const)).mul hg)

theorem energy_smooth (hp : Positive s p) (hA : Metric A) (h : ∀ i j, ContDiffAt ℝ 2 (fun y => C y i j) x)
    (hC : Metric (C x)) : ContDiffAt ℝ 2 (fun y => density s p A (C y)) x := by
  have hξ := exact_smooth hp hA h hC
  have hr := ratio_smooth A h
  have ht := tr_smooth A h
  have hw := hr.mul hξ
  have hpos : 0 < det2 (C x) / det2 A * exact s p (data A (C x)) :=
    mul_pos (ratio_pos hA hC) (exact_spec hp (tr_pos hA hC) (ratio_pos hA hC)).1
  have hrp : ∀ a : ℝ, ContDiffAt ℝ 2 (fun y => (det2 (C y) / det2 A * exact s p (data A (C y))) ^ a) x := fun a =>
    hw.rpow_const_of_ne hpos.ne'
  have hlog : ContDiffAt ℝ 2 (fun y => Real.log (det2 (C y) / det2 A * exact s p (data A (C y)))) x :=
    hw.log hpos.ne'
  have hvol : ∀ K : ℝ, ContDiffAt ℝ 2 (fun y => volume K (det2 (C y) / det2 A * exact s p (data A (C y)))) x := fun K =>
    contDiffAt_const.mul ((hw.sub contDiffAt_const).sub hlog)
  have key : ContDiffAt ℝ 2 (fun y => energy s p A (C y) (exact s p (data A (C y)))) x := by
    cases s
    · exact (contDiffAt_const.mul (((hrp _).mul (ht.add hξ)).sub contDiffAt_const)).add (hvol _)
    · exact ((contDiffAt_const.mul (((hrp _).mul (ht.add hξ)).sub contDiffAt_const)).add
        (contDiffAt_const.mul (((hrp _).mul ((hξ.mul ht).add hr)).sub contDiffAt_const))).add (hvol _)
    · exact (contDiffAt_const.mul (((ht.add hξ).sub contDiffAt_const).sub hlog)).add (hvol _)
  refine key.congr_of_eventuallyEq ?_
  filter_upwards [regular_nhds hA (fun i j => (h i j).continuousAt) hC] with y hy
  exact density_eq hp hy.1 hy.2

end

theorem exact_deriv {s : Solid} {p : Par} {A : T2} (hp : Positive s p) (hA : Metric A) {C : ℝ → T2} {H : T2}
    (hc : Curve C H 0) (hC : Metric (C 0)) : ∃ h, HasDerivAt (fun τ => exact s p (data A (C τ))) h 0 := by
  have hR := ((R_smooth hp (tr_pos hA hC) (ratio_pos hA hC)).differentiableAt (by norm_num)).hasFDerivAt
  have ht : HasDerivAt (fun τ => tr A (C τ)) (∑ i, ∑ j, H i j * inv2 A i j) 0 :=
    HasDerivAt.fun_sum fun i _ => HasDerivAt.fun_sum fun j _ => (hc.deriv i j).mul_const _
  have hd := (hasDerivAt_det2 hc.deriv hC.2.2.ne').div_const (det2 A)
  have h := HasFDerivAt.comp_hasDerivAt (f := fun τ => (tr A (C τ), det2 (C τ) / det2 A)) 0 hR (ht.prodMk hd)
  refine ⟨_, h.congr_of_eventuallyEq ?_⟩
  filter_upwards [regular_nhds hA (fun i j => (hc.deriv i j).continuousAt) hC] with τ hτ
  exact exact_eq hp hτ.1 hτ.2

/-- The material with the exact stretch has the reduced energy. -/
theorem on_metrics {s : Solid} {p : Par} {A : T2} (hp : Positive s p) (hA : Metric A) :
    OnMetrics (material s p (exact s p)) (density s p) A where
  symm C hC := by
    refine C48_condensed _ ?_
    have h := PosDef.symm_c p hA hC (exact s p (data A C))
    cases s
    exacts [h.1, h.2.1, h.2.2]
  tangent C hC := by
    rintro C' H hc rfl i j
    obtain ⟨h, hx⟩ := exact_deriv hp hA hc hC
    refine C51_condensation (tangent3 s p hA.2.2 hA.1) hc hx hC.2.2
      (exact_spec hp (tr_pos hA hC) (ratio_pos hA hC)).1 ?_ (stiff hp hA hC).ne' i j
    filter_upwards [regular_nhds hA (fun i j => (hc.deriv i j).continuousAt) hC] with τ hτ
    exact (exact_spec hp hτ.1 hτ.2).2
  stress C hC := by
    rintro C' H hc rfl
    obtain ⟨h, hx⟩ := exact_deriv hp hA hc hC
    obtain ⟨h1, h2⟩ := exact_spec hp (tr_pos hA hC) (ratio_pos hA hC)
    have he := energy_deriv s p hA.2.2 hc hx hC.2.2 h1
    rw [h2, zero_mul, add_zero] at he
    refine he.congr_of_eventuallyEq ?_
    filter_upwards [regular_nhds hA (fun i j => (hc.deriv i j).continuousAt) hC] with τ hτ
    exact density_eq hp hτ.1 hτ.2
  sym C hC := by
    have h1 : (cdata (data A C) (exact s p (data A C))).cinv 0 1
        = (cdata (data A C) (exact s p (data A C))).cinv 1 0 := by
      simp [cdata, withThickness, data, embed, inv2, hC]
    have h2 : (data A C).Gori 0 1 = (data A C).Gori 1 0 := by simp [data, embed, inv2, hA.1]
    have h3 : (cdata (data A C) (exact s p (data A C))).D = data A C := rfl
    show s.stress p _ 0 1 = s.stress p _ 1 0
    cases s
    · simp only [Solid.stress, sNHc, h1, h2, h3]
    · simp only [Solid.stress, sMRc, dI2, dI1, h1, h2, h3]
      simp [idelta, delta]
    · simp only [Solid.stress, sNHe, h1, h2, h3]
  smooth C x h hC := ⟨fun i j => stress_smooth hp hA h hC i j, energy_smooth hp hA h hC⟩

/-! ## The undeformed state -/

theorem positive_of {s : Solid} {p : Par} (h : Constants s p) : Positive s p := by
  have hE := h.modulus
  have h1 : 0 < 1 + p.ν := by linarith [h.lower]
  have h2 : 0 < 1 - 2 * p.ν := by linarith [h.upper]
  have hmu : 0 < p.mu := by unfold Par.mu; positivity
  have hK : 0 < p.K := by
    unfold Par.K
    have : 0 < 3 - 6 * p.ν := by linarith
    positivity
  cases s
  · exact ⟨hmu, hK⟩
  · have hr := h.ratio rfl
    have hc2 : 0 < p.c2 := by unfold Par.c2; positivity
    exact ⟨by unfold Par.c1; positivity, hc2, hK⟩
  · refine ⟨hmu, ?_⟩
    have := h.sign rfl
    unfold Par.lam
    positivity

theorem exact_unique {s : Solid} {p : Par} {A C : T2} (hp : Positive s p) (hA : Metric A) (hC : Metric C) {x : ℝ} (hx : 0 < x)
    (h : s.stress p (cdata (data A C) x) 2 2 = 0) : exact s p (data A C) = x := by
  have ht := tr_pos hA hC
  have hj := ratio_pos hA hC
  rw [exact_eq hp ht hj]
  exact (R_unique hp ht hj hx ((balanced_iff s p A C hj hx).1 h)).symm

theorem stress_rest (s : Solid) (p : Par) {A : T2} (hA : Metric A) (i j : Fin 3) (hij : (i ≠ 2 ∧ j ≠ 2) ∨ (i = 2 ∧ j = 2)) :
    s.stress p (cdata (data A A) 1) i j = 0 := by
  have h := C46_compressible p A hA.2.2.ne' hA.1 i j hij
  cases s
  exacts [h.1, h.2.1, h.2.2]

theorem exact_rest {s : Solid} {p : Par} {A : T2} (hp : Positive s p) (hA : Metric A) : exact s p (data A A) = 1 :=
  exact_unique hp hA hA one_pos (stress_rest s p hA 2 2 (.inr ⟨rfl, rfl⟩))

theorem inv_metric {A : T2} (hA : Metric A) : Metric (inv2 A) := by
  obtain ⟨h1, h2, h3⟩ := hA
  have hd : 0 < det2 A := h3
  have h11 : 0 < A 1 1 := by
    rw [← h1] at h3
    nlinarith [mul_self_nonneg (A 0 1)]
  refine ⟨by simp [inv2, h1], ?_, ?_⟩
  · simp only [inv2, Matrix.cons_val_zero]; positivity
  · simp only [inv2, Matrix.cons_val_zero, Matrix.cons_val_one]
    have e : A 1 1 / det2 A * (A 0 0 / det2 A) - -A 0 1 / det2 A * (-A 1 0 / det2 A) = 1 / det2 A := by
      have : det2 A = A 0 0 * A 1 1 - A 0 1 * A 1 0 := rfl
      field_simp
      rw [this]; ring
    rw [e]; positivity

theorem rest_hooke {s : Solid} {p : Par} (h : Constants s p) {A : T2} (hA : Metric A) (i j k l : Fin 2) :
    condense (s.tangent p (cdata (data A A) 1)) (up i) (up j) (up k) (up l) = hooke p.E p.ν (inv2 A) i j k l := by
  have hd := hA.2.2.ne'
  have h1 : 1 + p.ν ≠ 0 := by linarith [h.lower]
  have h2 : 1 - 2 * p.ν ≠ 0 := by linarith [h.upper]
  have h3 : 1 - p.ν ≠ 0 := by linarith [h.upper]
  cases s
  · exact (C47_compressible ⟨p.E, p.ν, 1⟩ A hd hA.1 h.modulus.ne' h1 h2 h3 (by norm_num) i j k l).1
  · exact (C47_compressible p A hd hA.1 h.modulus.ne' h1 h2 h3 (by linarith [h.ratio rfl]) i j k l).2.1
  · exact (C47_compressible ⟨p.E, p.ν, 1⟩ A hd hA.1 h.modulus.ne' h1 h2 h3 (by norm_num) i j k l).2.2

theorem symm3 (s : Solid) (p : Par) {A C : T2} (hA : Metric A) (hC : Metric C) (x : ℝ) :
    ElasticSymm (s.tangent p (cdata (data A C) x)) := by
  have h := PosDef.symm_c p hA hC x
  cases s
  exacts [h.1, h.2.1, h.2.2]

theorem rest_positive {s : Solid} {p : Par} (h : Constants s p) {A : T2} (hA : Metric A) :
    PosMat (fillMatrix (condense (s.tangent p (cdata (data A A) 1)))) := by
  rw [PosDef.posMat_iff _ (C48_condensed _ (symm3 s p hA hA 1))]
  have e : PosDef.plane (condense (s.tangent p (cdata (data A A) 1))) = cSvK p (inv2 A) := by
    funext i j k l
    show condense _ (up i) (up j) (up k) (up l) = _
    rw [rest_hooke h hA, C47_SvK p _ (by linarith [h.lower]) (by linarith [h.upper]) (by linarith [h.upper])]
  rw [e]
  exact PosDef.C126_svk p h.modulus h.lower h.upper (inv_metric hA)

end Verif.PlaneSheet
