import Verif.Lemmas.SpectralProj
import Verif.Props.SpectralEnergy
import Mathlib.Analysis.Calculus.Deriv.Slope

/-! # Property C53 (tangent): the spectral tangent is the derivative of the spectral stress -/

set_option linter.unusedSimpArgs false

namespace Verif.Spectral

open Verif.Hyper Spec.Spectral Filter Topology

/-! ## Principal stresses -/

/-- **C53** Incompressible materials, any energy: along every curve of stretches with unit
product the principal stresses change with the coefficients `C_aacc`. -/
theorem C53_principal_incompressible (w : Pot) (hw : IsJacobian w.d1 w.d2)
    (hsym : ∀ l a b, w.d2 l a b = w.d2 l b a) (L : ℝ → Fin 3 → ℝ) (h : Fin 3 → ℝ) (t : ℝ)
    (hL0 : HasDerivAt (fun s => L s 0) (h 0) t) (hL1 : HasDerivAt (fun s => L s 1) (h 1) t)
    (hp0 : 0 < L t 0) (hp1 : 0 < L t 1) (hinc : ∀ s, L s 2 = 1 / (L s 0 * L s 1)) (a : Fin 3)
    (ha : a ≠ 2) :
    HasDerivAt (fun s => SaI w (L s) a)
      (CabI w (L t) a a 0 0 * (L t 0 * h 0) + CabI w (L t) a a 1 1 * (L t 1 * h 1)) t := by
  have n0 := hp0.ne'
  have n1 := hp1.ne'
  have hp2 : 0 < L t 2 := by rw [hinc]; positivity
  have n2 := hp2.ne'
  set h' : Fin 3 → ℝ := vec3 (h 0) (h 1) (-(L t 2) * (h 0 / L t 0 + h 1 / L t 1)) with hh
  have hL : ∀ c, HasDerivAt (fun s => L s c) (h' c) t := by
    intro c
    rcases fin3_cases c with rfl | rfl | rfl
    · simpa [hh] using hL0
    · simpa [hh] using hL1
    · refine deriv_conv ((hL0.mul hL1).inv (mul_ne_zero n0 n1)) (fun s => ?_) ?_
      · rw [hinc]; simp [one_div]
      · simp only [hh, vec3_two, hinc, Pi.mul_apply]; field_simp
  have hp : ∀ c, 0 < L t c := by
    intro c; rcases fin3_cases c with rfl | rfl | rfl <;> assumption
  have D := fun a => hw a L h' t hL hp
  have I := d_inv hL hp a
  have main := I.mul ((D a).sub (((hL 2).mul (D 2)).mul I))
  refine deriv_conv main (fun s => ?_) ?_
  · simp only [SaI, pr, dJ, Pi.mul_apply, Pi.sub_apply]
  · rw [CabI_diag, CabI_diag]
    simp only [Pi.mul_apply, Pi.sub_apply, dSaI, dpr, pr, dJ, d2J]
    rw [Fin.sum_univ_three, Fin.sum_univ_three]
    have e2 : h' 2 = -(L t 2) * (h 0 / L t 0 + h 1 / L t 1) := by simp [hh]
    have e0 : h' 0 = h 0 := by simp [hh]
    have e1 : h' 1 = h 1 := by simp [hh]
    rw [e0, e1, e2]
    rcases fin3_cases a with rfl | rfl | rfl
    · rw [if_neg (show (0 : Fin 3) ≠ 2 by decide), if_neg (show (1 : Fin 3) ≠ 2 by decide),
        if_pos rfl, if_pos rfl, if_neg (show (0 : Fin 3) ≠ 1 by decide),
        if_neg (show (0 : Fin 3) ≠ 1 by decide), e0, hsym (L t) 0 2]
      field_simp
      ring
    · rw [if_neg (show (1 : Fin 3) ≠ 2 by decide), if_neg (show (0 : Fin 3) ≠ 2 by decide),
        if_pos rfl, if_pos rfl, if_neg (show (1 : Fin 3) ≠ 0 by decide),
        if_neg (show (1 : Fin 3) ≠ 0 by decide), e1, hsym (L t) 1 2]
      field_simp
      ring
    · exact absurd rfl ha

/-- Rate of a compressible principal stress along a curve of stretches. -/
theorem SaC_rate (w : Pot) (hw : IsJacobian w.d1 w.d2) (L : ℝ → Fin 3 → ℝ) (h : Fin 3 → ℝ)
    (t : ℝ) (hL : ∀ c, HasDerivAt (fun s => L s c) (h c) t) (hp : ∀ c, 0 < L t c) (a : Fin 3) :
    HasDerivAt (fun s => SaC w (L s) a) (∑ c, CabC w (L t) a a c c * (L t c * h c)) t := by
  have n : ∀ c, L t c ≠ 0 := fun c => (hp c).ne'
  have n0 := n 0
  have n1 := n 1
  have n2 := n 2
  refine deriv_conv ((d_inv hL hp a).mul (hw a L h t hL hp)) (fun s => ?_) ?_
  · simp only [SaC, Pi.mul_apply]
  · simp only [CabC_diag, dSaC, Fin.sum_univ_three]
    rcases fin3_cases a with rfl | rfl | rfl
    · rw [if_pos rfl, if_neg (show (0 : Fin 3) ≠ 1 by decide),
        if_neg (show (0 : Fin 3) ≠ 2 by decide)]
      field_simp
      ring
    · rw [if_pos rfl, if_neg (show (1 : Fin 3) ≠ 0 by decide),
        if_neg (show (1 : Fin 3) ≠ 2 by decide)]
      field_simp
      ring
    · rw [if_pos rfl, if_neg (show (2 : Fin 3) ≠ 0 by decide),
        if_neg (show (2 : Fin 3) ≠ 1 by decide)]
      field_simp
      ring

theorem CabC_sym (w : Pot) (hsym : ∀ l a b, w.d2 l a b = w.d2 l b a) (l : Stretch) (a c : Fin 3) :
    CabC w l a a c c = CabC w l c c a a := by
  rw [CabC_diag, CabC_diag]
  simp only [dSaC]
  by_cases h : a = c
  · subst h; rfl
  · rw [if_neg h, if_neg (Ne.symm h), hsym]; ring

theorem CabI_sym (w : Pot) (hsym : ∀ l a b, w.d2 l a b = w.d2 l b a) (l : Stretch) (a c : Fin 3) :
    CabI w l a a c c = CabI w l c c a a := by
  rw [CabI_diag, CabI_diag]
  simp only [dSaI, d2J]
  by_cases h : a = c
  · subst h; rfl
  · rw [if_neg h, if_neg (Ne.symm h), if_neg h, if_neg (Ne.symm h), hsym]; ring

/-- **C53** Compressible materials, any energy: along every curve of stretches with zero
normal stress the in-plane principal stresses change with the condensed coefficients. -/
theorem C53_principal_condensed (w : Pot) (hw : IsJacobian w.d1 w.d2)
    (hsym : ∀ l a b, w.d2 l a b = w.d2 l b a) (L : ℝ → Fin 3 → ℝ) (h : Fin 3 → ℝ) (t : ℝ)
    (hL : ∀ c, HasDerivAt (fun s => L s c) (h c) t) (hp : ∀ c, 0 < L t c)
    (hplane : ∀ᶠ s in 𝓝 t, SaC w (L s) 2 = 0) (hstiff : CabC w (L t) 2 2 2 2 ≠ 0) (a : Fin 3) :
    HasDerivAt (fun s => SaC w (L s) a)
      (CabCond w (L t) a a 0 0 * (L t 0 * h 0) + CabCond w (L t) a a 1 1 * (L t 1 * h 1)) t := by
  have h2 := (SaC_rate w hw L h t hL hp 2).unique
    ((hasDerivAt_const t (0 : ℝ)).congr_of_eventuallyEq hplane)
  refine (SaC_rate w hw L h t hL hp a).congr_deriv ?_
  rw [CabCond_diag w _ a 0 (CabC_sym w hsym _ _ _), CabCond_diag w _ a 1 (CabC_sym w hsym _ _ _)]
  rw [Fin.sum_univ_three] at h2 ⊢
  field_simp
  linear_combination CabC w (L t) a a 2 2 * h2

/-! ## The whole tangent -/

/-- Exactness of the shear coefficient at the current stretches. -/
theorem shear_exact {S : Fin 3 → ℝ} {dS : Fin 3 → Fin 3 → ℝ} {l : Stretch}
    (hp0 : 0 < l 0) (hp1 : 0 < l 1) (hsep : l 0 = l 1 ∨ 1 / 10 ^ 14 ≤ |(l 0 - l 1) / l 0|)
    (heq : l 0 = l 1 → S 0 = S 1) :
    frac S dS l 0 1 * (l 1 ^ 2 - l 0 ^ 2) = S 1 - S 0 := by
  rcases hsep with h | h
  · rw [heq h, h]; ring
  · unfold frac
    rw [if_neg (not_lt.2 h)]
    have hne : l 0 ≠ l 1 := by
      intro e
      rw [e, sub_self, zero_div, abs_zero] at h
      norm_num at h
    have hd : l 1 ^ 2 - l 0 ^ 2 ≠ 0 := by
      intro e
      have h3 : (l 1 - l 0) * (l 1 + l 0) = 0 := by linear_combination e
      rcases mul_eq_zero.1 h3 with h4 | h4
      · exact hne (by linarith)
      · linarith
    field_simp

/-- Rate of a squared stretch. -/
theorem sq_rate {L : ℝ → Fin 3 → ℝ} {h : Fin 3 → ℝ} {t : ℝ} {c : Fin 3}
    (hL : HasDerivAt (fun s => L s c) (h c) t) :
    HasDerivAt (fun s => L s c ^ 2) (2 * (L t c * h c)) t := by
  refine deriv_conv (hL.mul hL) (fun s => ?_) (by ring)
  simp only [Pi.mul_apply]; ring

/-- **C53** Incompressible materials, any energy that treats the in-plane stretches alike:
the projected spectral tangent is twice the derivative of the projected spectral stress with
respect to the deformation tensor, along every family of deformations with a differentiable
principal frame. -/
theorem C53_tangent_incompressible (w : Pot) (hw : IsJacobian w.d1 w.d2)
    (hsym : ∀ l a b, w.d2 l a b = w.d2 l b a) (hiso : ∀ l, l 0 = l 1 → w.d1 l 0 = w.d1 l 1)
    {A : T2} (hA : det2 A ≠ 0) {C P : ℝ → T2} {L : ℝ → Fin 3 → ℝ} {H P' : T2} {h : Fin 3 → ℝ}
    {t : ℝ} (f : ∀ s, Frame A (C s) (P s) (fun a => L s (up a) ^ 2))
    (hC : ∀ i j, HasDerivAt (fun s => C s i j) (H i j) t) (hH : H 0 1 = H 1 0)
    (hP : ∀ i a, HasDerivAt (fun s => P s i a) (P' i a) t)
    (hL0 : HasDerivAt (fun s => L s 0) (h 0) t) (hL1 : HasDerivAt (fun s => L s 1) (h 1) t)
    (hp0 : 0 < L t 0) (hp1 : 0 < L t 1) (hinc : ∀ s, L s 2 = 1 / (L s 0 * L s 1))
    (hsep : L t 0 = L t 1 ∨ 1 / 10 ^ 14 ≤ |(L t 0 - L t 1) / L t 0|) (i j : Fin 2) :
    HasDerivAt (fun s => sProj (SaI w (L s)) (P s) i j)
      (1 / 2 * ∑ k, ∑ l, cProj (CabI w (L t)) (P t) i j k l * H k l) t := by
  refine proj_deriv (e' := fun a => 2 * (L t (up a) * h (up a))) hA f hC hP ?_ hH ?_ ?_ ?_ i j
  · intro a
    rcases fin2_cases a with rfl | rfl
    · exact sq_rate hL0
    · exact sq_rate hL1
  · refine (C53_principal_incompressible w hw hsym L h t hL0 hL1 hp0 hp1 hinc 0
      (by decide)).congr_deriv ?_
    simp only [up_zero, up_one]; ring
  · refine (C53_principal_incompressible w hw hsym L h t hL0 hL1 hp0 hp1 hinc 1
      (by decide)).congr_deriv ?_
    rw [CabI_sym w hsym _ 1 0]
    simp only [up_zero, up_one]; ring
  · rw [CabI_shear]
    simp only [up_zero, up_one]
    refine shear_exact hp0 hp1 hsep fun e => ?_
    simp only [SaI, dJ, hiso _ e, e]

/-- **C53** Compressible materials, any energy that treats the in-plane stretches alike: the
condensed and projected spectral tangent is twice the derivative of the projected in-plane
stress along every family of deformations with zero normal stress and a differentiable
principal frame. -/
theorem C53_tangent_condensed (w : Pot) (hw : IsJacobian w.d1 w.d2)
    (hsym : ∀ l a b, w.d2 l a b = w.d2 l b a) (hiso : ∀ l, l 0 = l 1 → w.d1 l 0 = w.d1 l 1)
    {A : T2} (hA : det2 A ≠ 0) {C P : ℝ → T2} {L : ℝ → Fin 3 → ℝ} {H P' : T2} {h : Fin 3 → ℝ}
    {t : ℝ} (f : ∀ s, Frame A (C s) (P s) (fun a => L s (up a) ^ 2))
    (hC : ∀ i j, HasDerivAt (fun s => C s i j) (H i j) t) (hH : H 0 1 = H 1 0)
    (hP : ∀ i a, HasDerivAt (fun s => P s i a) (P' i a) t)
    (hL : ∀ c, HasDerivAt (fun s => L s c) (h c) t) (hp : ∀ c, 0 < L t c)
    (hplane : ∀ᶠ s in 𝓝 t, SaC w (L s) 2 = 0) (hstiff : CabC w (L t) 2 2 2 2 ≠ 0)
    (hsep : L t 0 = L t 1 ∨ 1 / 10 ^ 14 ≤ |(L t 0 - L t 1) / L t 0|) (i j : Fin 2) :
    HasDerivAt (fun s => sProj (SaC w (L s)) (P s) i j)
      (1 / 2 * ∑ k, ∑ l, cProj (CabCond w (L t)) (P t) i j k l * H k l) t := by
  refine proj_deriv (e' := fun a => 2 * (L t (up a) * h (up a))) hA f hC hP ?_ hH ?_ ?_ ?_ i j
  · intro a
    exact sq_rate (hL (up a))
  · refine (C53_principal_condensed w hw hsym L h t hL hp hplane hstiff 0).congr_deriv ?_
    simp only [up_zero, up_one]; ring
  · refine (C53_principal_condensed w hw hsym L h t hL hp hplane hstiff 1).congr_deriv ?_
    rw [CabCond_diag w _ 1 0 (CabC_sym w hsym _ _ _), CabCond_diag w _ 0 1 (CabC_sym w hsym _ _ _),
      CabC_sym w hsym _ 1 0, CabC_sym w hsym _ 1 2, CabC_sym w hsym _ 2 0]
    simp only [up_zero, up_one]; ring
  · rw [CabCond_shear]
    simp only [up_zero, up_one]
    refine shear_exact (hp 0) (hp 1) hsep fun e => ?_
    simp only [SaC, hiso _ e, e]

/-! ## Coinciding stretches -/

/-- The difference quotient of two functions that agree at `x0`. -/
theorem quotient_limit {S0 S1 : ℝ → ℝ} {d0 d1 x0 : ℝ} (hx : 0 < x0) (h0 : HasDerivAt S0 d0 x0)
    (h1 : HasDerivAt S1 d1 x0) (heq : S0 x0 = S1 x0) :
    Tendsto (fun x => (S1 x - S0 x) / (x ^ 2 - x0 ^ 2)) (𝓝[≠] x0)
      (𝓝 (1 / (2 * x0) * (d1 - d0))) := by
  have hs := (hasDerivAt_iff_tendsto_slope.1 (h1.sub h0))
  have hc : Tendsto (fun x : ℝ => 1 / (x + x0)) (𝓝[≠] x0) (𝓝 (1 / (x0 + x0))) := by
    have : ContinuousAt (fun x : ℝ => 1 / (x + x0)) x0 := by
      refine ContinuousAt.div continuousAt_const (by fun_prop) (by positivity)
    exact this.tendsto.mono_left nhdsWithin_le_nhds
  have hm := hs.mul hc
  rw [show 1 / (2 * x0) * (d1 - d0) = (d1 - d0) * (1 / (x0 + x0)) by rw [two_mul]; ring]
  refine hm.congr' ?_
  filter_upwards [self_mem_nhdsWithin] with x hx'
  have hx' : x ≠ x0 := hx'
  simp only [slope, vsub_eq_sub, smul_eq_mul, Pi.sub_apply]
  rw [heq, sub_self, sub_zero, show x ^ 2 - x0 ^ 2 = (x - x0) * (x + x0) by ring]
  rw [one_div, ← div_eq_inv_mul, ← div_eq_mul_inv, div_div]

/-- **C53** Compressible: the value used for coinciding stretches is the limit of the
difference quotient used otherwise, for every energy that treats the in-plane stretches
alike. -/
theorem C53_limit_compressible (w : Pot) (hw : IsJacobian w.d1 w.d2)
    (hiso : ∀ l, l 0 = l 1 → w.d1 l 0 = w.d1 l 1) (x0 l2 : ℝ) (hx : 0 < x0) (hl2 : 0 < l2) :
    Tendsto (fun x => (SaC w (vec3 x0 x l2) 1 - SaC w (vec3 x0 x l2) 0) / (x ^ 2 - x0 ^ 2))
      (𝓝[≠] x0) (𝓝 (frac (SaC w (vec3 x0 x0 l2)) (dSaC w (vec3 x0 x0 l2)) (vec3 x0 x0 l2) 0 1)) := by
  have hL : ∀ c, HasDerivAt (fun s => (vec3 x0 s l2 : Fin 3 → ℝ) c) ((vec3 0 1 0 : Fin 3 → ℝ) c)
      x0 := by
    intro c
    rcases fin3_cases c with rfl | rfl | rfl
    · simpa using hasDerivAt_const x0 x0
    · simpa using hasDerivAt_id' x0
    · simpa using hasDerivAt_const x0 l2
  have hp : ∀ c, 0 < (vec3 x0 x0 l2 : Fin 3 → ℝ) c := by
    intro c
    rcases fin3_cases c with rfl | rfl | rfl <;> simpa
  have h0 := SaC_rate w hw _ _ x0 hL hp 0
  have h1 := SaC_rate w hw _ _ x0 hL hp 1
  have heq : SaC w (vec3 x0 x0 l2) 0 = SaC w (vec3 x0 x0 l2) 1 := by
    simp only [SaC, hiso (vec3 x0 x0 l2) (by simp), vec3_zero, vec3_one]
  have hq := quotient_limit hx h0 h1 heq
  convert hq using 2
  unfold frac
  rw [if_pos (by simp)]
  simp only [CabC_diag, Fin.sum_univ_three, vec3_zero, vec3_one, vec3_two]
  field_simp
  ring

/-- **C53** Incompressible: the same, with the thickness stretch following the constraint. -/
theorem C53_limit_incompressible (w : Pot) (hw : IsJacobian w.d1 w.d2)
    (hsym : ∀ l a b, w.d2 l a b = w.d2 l b a)
    (hiso : ∀ l, l 0 = l 1 → w.d1 l 0 = w.d1 l 1) (x0 : ℝ) (hx : 0 < x0) :
    Tendsto (fun x => (SaI w (vec3 x0 x (1 / (x0 * x))) 1 - SaI w (vec3 x0 x (1 / (x0 * x))) 0)
        / (x ^ 2 - x0 ^ 2)) (𝓝[≠] x0)
      (𝓝 (frac (SaI w (vec3 x0 x0 (1 / (x0 * x0)))) (dSaI w (vec3 x0 x0 (1 / (x0 * x0))))
        (vec3 x0 x0 (1 / (x0 * x0))) 0 1)) := by
  have hL0 : HasDerivAt (fun s => (vec3 x0 s (1 / (x0 * s)) : Fin 3 → ℝ) 0)
      ((vec3 0 1 0 : Fin 3 → ℝ) 0) x0 := by simpa using hasDerivAt_const x0 x0
  have hL1 : HasDerivAt (fun s => (vec3 x0 s (1 / (x0 * s)) : Fin 3 → ℝ) 1)
      ((vec3 0 1 0 : Fin 3 → ℝ) 1) x0 := by simpa using hasDerivAt_id' x0
  have h0 := C53_principal_incompressible w hw hsym _ _ x0 hL0 hL1 (by simpa) (by simpa)
    (by intro s; simp) 0 (by decide)
  have h1 := C53_principal_incompressible w hw hsym _ _ x0 hL0 hL1 (by simpa) (by simpa)
    (by intro s; simp) 1 (by decide)
  have heq : SaI w (vec3 x0 x0 (1 / (x0 * x0))) 0 = SaI w (vec3 x0 x0 (1 / (x0 * x0))) 1 := by
    simp only [SaI, dJ, hiso (vec3 x0 x0 (1 / (x0 * x0))) (by simp), vec3_zero, vec3_one]
  have hq := quotient_limit hx h0 h1 heq
  convert hq using 2
  unfold frac
  rw [if_pos (by simp)]
  simp only [CabI_diag, vec3_zero, vec3_one, vec3_two]
  field_simp
  ring

/-- **C53** All coded energies satisfy the hypotheses of the theorems above. -/
theorem C53_models (p : Par) (terms : List (ℝ × ℝ)) (h0 : ∀ x ∈ terms, x.2 ≠ 0) (w : Pot)
    (hm : w = potNH p ∨ w = potMR p ∨ w = potOG terms ∨ w = potNHc p ∨ w = potMRc p ∨
      w = potOGc p terms ∨ w = potNHe p) :
    IsJacobian w.d1 w.d2 ∧ (∀ l a b, w.d2 l a b = w.d2 l b a) ∧
      ∀ l, l 0 = l 1 → w.d1 l 0 = w.d1 l 1 := by
  have dc : ∀ a b, a ≠ b → delta a b = 0 := fun a b h => by simp [delta, h]
  have ic : ∀ a b, idelta a b = idelta b a := fun a b => by simp [idelta, eq_comm]
  rcases hm with rfl | rfl | rfl | rfl | rfl | rfl | rfl
  · refine ⟨(C53_energy_NH p).2, fun l a b => ?_, fun l h => by simp only [potNH, dI1, h]⟩
    simp only [potNH, d2I1, delta, eq_comm]
  · refine ⟨(C53_energy_MR p).2, fun l a b => ?_, fun l h => by simp only [potMR, dI1, dI2, h]⟩
    by_cases e : a = b
    · rw [e]
    · simp only [potMR, d2I1, d2I2, dc a b e, dc b a (Ne.symm e), ic b a]; ring
  · refine ⟨(C53_energy_OG terms h0).2, fun l a b => ?_, fun l h => by simp only [potOG, h]⟩
    by_cases e : a = b
    · rw [e]
    · simp only [potOG, dc a b e, dc b a (Ne.symm e), mul_zero]
  · refine ⟨(C53_energy_NHc p).2, fun l a b => ?_, fun l h => by
      simp only [potNHc, dI1, vol1, h]⟩
    by_cases e : a = b
    · rw [e]
    · simp only [potNHc, dI1, d2I1, vol2, dc a b e, dc b a (Ne.symm e)]; ring
  · refine ⟨(C53_energy_MRc p).2, fun l a b => ?_, fun l h => by
      simp only [potMRc, dI1, dI2, vol1, h]⟩
    by_cases e : a = b
    · rw [e]
    · simp only [potMRc, dI1, dI2, d2I1, d2I2, vol2, dc a b e, dc b a (Ne.symm e), ic b a]; ring
  · refine ⟨(C53_energy_OGc p terms h0).2, fun l a b => ?_, fun l h => by
      simp only [potOGc, vol1, h]⟩
    by_cases e : a = b
    · rw [e]
    · simp only [potOGc, vol2, dc a b e, dc b a (Ne.symm e)]
      congr 1
      · congr 1
        refine List.map_congr_left fun x _ => ?_
        ring
      · ring
  · refine ⟨(C53_energy_NHext p).2, fun l a b => ?_, fun l h => by simp only [potNHe, dI1, h]⟩
    by_cases e : a = b
    · rw [e]
    · simp only [potNHe, d2I1, dc a b e, dc b a (Ne.symm e)]; ring

/-- Non-vacuity: a frame of a diagonal family of deformations. -/
example (s : ℝ) : Frame ![![1, 0], ![0, 1]] ![![(2 + s) ^ 2, 0], ![0, 9]] ![![1, 0], ![0, 1]]
    (fun a => (vec3 (2 + s) 3 (1 / ((2 + s) * 3)) : Fin 3 → ℝ) (up a) ^ 2) := by
  refine ⟨fun i j => ?_, by simp, by simp; norm_num, by simp, by simp⟩
  rcases fin2_cases i with rfl | rfl <;> rcases fin2_cases j with rfl | rfl <;>
    simp [inv2, det2]

end Verif.Spectral
