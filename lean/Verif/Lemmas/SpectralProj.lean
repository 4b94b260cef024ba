import Verif.Lemmas.SpectralFrame
import Verif.Lemmas.SpectralDeriv

/-! # Helper lemmas: tangent coefficients and projection -/

set_option linter.unusedSimpArgs false

namespace Verif.Spectral

open Verif.Hyper Spec.Spectral

/-! ## Values of the coefficients -/

theorem CabI_diag (w : Pot) (l : Stretch) (a c : Fin 3) : CabI w l a a c c =
    1 / l c * dSaI w l a c
      + 1 / (l a ^ 2 * l c ^ 2) * (l 2 ^ 2 * w.d2 l 2 2 + 2 * w.d1 l 2 * l 2) := by
  simp [CabI]

theorem CabI_shear (w : Pot) (l : Stretch) :
    CabI w l 0 1 0 1 = frac (SaI w l) (dSaI w l) l 0 1 := by
  simp [CabI]

theorem CabC_diag (w : Pot) (l : Stretch) (a c : Fin 3) :
    CabC w l a a c c = 1 / l c * dSaC w l a c := by
  simp [CabC]

theorem CabC_shear (w : Pot) (l : Stretch) :
    CabC w l 0 1 0 1 = frac (SaC w l) (dSaC w l) l 0 1 := by
  simp [CabC]

theorem CabCond_diag (w : Pot) (l : Stretch) (a c : Fin 3)
    (hs : CabC w l a a 2 2 = CabC w l 2 2 a a) : CabCond w l a a c c =
    CabC w l a a c c - CabC w l a a 2 2 * CabC w l 2 2 c c / CabC w l 2 2 2 2 := by
  by_cases h : a = c
  · subst h; simp [CabCond, hs, sq]
  · simp [CabCond, h]

theorem CabCond_shear (w : Pot) (l : Stretch) :
    CabCond w l 0 1 0 1 = frac (SaC w l) (dSaC w l) l 0 1 := by
  have h : CabC w l 2 2 0 1 = 0 := by simp [CabC]
  have : CabCond w l 0 1 0 1 = CabC w l 0 1 0 1 - CabC w l 2 2 0 1 ^ 2 / CabC w l 2 2 2 2 := by
    simp [CabCond]
  rw [this, h, CabC_shear]
  simp

/-- The shear coefficient, when the stretches are equal or separated. -/
theorem frac_eq {S : Fin 3 → ℝ} {dS : Fin 3 → Fin 3 → ℝ} {l : Stretch} {X : ℝ}
    (hpos : ∀ a, 0 < l a) (hsep : l 0 = l 1 ∨ 1 / 10 ^ 14 ≤ |(l 0 - l 1) / l 0|)
    (h1 : X * (l 1 ^ 2 - l 0 ^ 2) = S 1 - S 0)
    (h2 : l 0 = l 1 → X = 1 / (2 * l 0) * (dS 1 1 - dS 0 1)) : frac S dS l 0 1 = X := by
  unfold frac
  rcases hsep with h | h
  · rw [if_pos, ← h2 h]
    rw [h, sub_self, zero_div, abs_zero]
    positivity
  · rw [if_neg (not_lt.2 h)]
    have hne : l 0 ≠ l 1 := by
      intro e
      rw [e, sub_self, zero_div, abs_zero] at h
      norm_num at h
    have hd : l 1 ^ 2 - l 0 ^ 2 ≠ 0 := by
      intro e
      have h3 : (l 1 - l 0) * (l 1 + l 0) = 0 := by linear_combination e
      rcases mul_eq_zero.1 h3 with h4 | h4
      · exact hne (by linarith)
      · have := hpos 0; have := hpos 1; linarith
    rw [div_eq_iff hd, h1]

/-! ## Derivative of a projected tensor -/

/-- The stress assembled from principal stresses that differentiate with the symmetric
coefficients `K`, in a differentiable principal frame, differentiates with the projected
coefficients.  `hshear` is the condition on the shear coefficient. -/
theorem proj_deriv {A : T2} {C P : ℝ → T2} {e : ℝ → Fin 2 → ℝ} {S : ℝ → Fin 3 → ℝ} {H P' : T2}
    {e' : Fin 2 → ℝ} {t : ℝ} {K : Fin 3 → Fin 3 → Fin 3 → Fin 3 → ℝ} (hA : det2 A ≠ 0)
    (f : ∀ s, Frame A (C s) (P s) (e s))
    (hC : ∀ i j, HasDerivAt (fun s => C s i j) (H i j) t)
    (hP : ∀ i a, HasDerivAt (fun s => P s i a) (P' i a) t)
    (he : ∀ a, HasDerivAt (fun s => e s a) (e' a) t)
    (hH : H 0 1 = H 1 0)
    (hS0 : HasDerivAt (fun s => S s 0) (K 0 0 0 0 * (e' 0 / 2) + K 0 0 1 1 * (e' 1 / 2)) t)
    (hS1 : HasDerivAt (fun s => S s 1) (K 0 0 1 1 * (e' 0 / 2) + K 1 1 1 1 * (e' 1 / 2)) t)
    (hshear : K 0 1 0 1 * (e t 1 - e t 0) = S t 1 - S t 0) (i j : Fin 2) :
    HasDerivAt (fun s => sProj (S s) (P s) i j)
      (1 / 2 * ∑ k, ∑ l, cProj K (P t) i j k l * H k l) t := by
  have hd2 := (f t).detP hA
  have hd : P t 0 0 * P t 1 1 - P t 0 1 * P t 1 0 ≠ 0 := by
    intro h
    rw [h] at hd2
    exact (one_div_ne_zero hA) (by rw [← hd2]; ring)
  -- the rates of the metric relations
  have hG : ∀ i j, P' i 0 * P t j 0 + P t i 0 * P' j 0 + (P' i 1 * P t j 1 + P t i 1 * P' j 1)
      = 0 := by
    intro i j
    have h1 := ((hP i 0).mul (hP j 0)).add ((hP i 1).mul (hP j 1))
    have h2 : HasDerivAt (fun s => P s i 0 * P s j 0 + P s i 1 * P s j 1) 0 t := by
      refine deriv_conv (hasDerivAt_const t (inv2 A i j)) (fun s => ?_) rfl
      rw [(f s).G]
    exact h1.unique h2
  have q : ∀ a b, HasDerivAt (fun s => P s 0 a * (C s 0 0 * P s 0 b + C s 0 1 * P s 1 b)
      + P s 1 a * (C s 1 0 * P s 0 b + C s 1 1 * P s 1 b))
      (P' 0 a * (C t 0 0 * P t 0 b + C t 0 1 * P t 1 b)
        + P t 0 a * (H 0 0 * P t 0 b + C t 0 0 * P' 0 b + (H 0 1 * P t 1 b + C t 0 1 * P' 1 b))
        + (P' 1 a * (C t 1 0 * P t 0 b + C t 1 1 * P t 1 b)
        + P t 1 a * (H 1 0 * P t 0 b + C t 1 0 * P' 0 b
          + (H 1 1 * P t 1 b + C t 1 1 * P' 1 b)))) t := by
    intro a b
    exact ((hP 0 a).mul (((hC 0 0).mul (hP 0 b)).add ((hC 0 1).mul (hP 1 b)))).add
      ((hP 1 a).mul (((hC 1 0).mul (hP 0 b)).add ((hC 1 1).mul (hP 1 b))))
  have q00 := (q 0 0).unique (deriv_conv (he 0) (fun s => (f s).d00) rfl)
  have q11 := (q 1 1).unique (deriv_conv (he 1) (fun s => (f s).d11) rfl)
  have q01 := (q 0 1).unique
    (deriv_conv (hasDerivAt_const t (0 : ℝ)) (fun s => (f s).d01) rfl)
  -- the rotation rate
  set d := P t 0 0 * P t 1 1 - P t 0 1 * P t 1 0 with hdd
  have g00 := hG 0 0
  have g01 := hG 0 1
  have g11 := hG 1 1
  obtain ⟨w, hw0, hw1⟩ : ∃ w, (∀ i, P' i 0 = w * P t i 1) ∧ ∀ i, P' i 1 = -w * P t i 0 := by
    -- W = P⁻¹ P'
    set W00 := (P t 1 1 * P' 0 0 - P t 0 1 * P' 1 0) / d with h00
    set W10 := (-(P t 1 0) * P' 0 0 + P t 0 0 * P' 1 0) / d with h10
    set W01 := (P t 1 1 * P' 0 1 - P t 0 1 * P' 1 1) / d with h01
    set W11 := (-(P t 1 0) * P' 0 1 + P t 0 0 * P' 1 1) / d with h11
    have e0 : ∀ i, P' i 0 = P t i 0 * W00 + P t i 1 * W10 := by
      intro i
      rcases fin2_cases i with rfl | rfl
      · rw [h00, h10]; field_simp; rw [hdd]; ring
      · rw [h00, h10]; field_simp; rw [hdd]; ring
    have e1 : ∀ i, P' i 1 = P t i 0 * W01 + P t i 1 * W11 := by
      intro i
      rcases fin2_cases i with rfl | rfl
      · rw [h01, h11]; field_simp; rw [hdd]; ring
      · rw [h01, h11]; field_simp; rw [hdd]; ring
    have gg : ∀ i j, 2 * W00 * (P t i 0 * P t j 0) + (W01 + W10) * (P t i 0 * P t j 1
        + P t i 1 * P t j 0) + 2 * W11 * (P t i 1 * P t j 1) = 0 := by
      intro i j
      have := hG i j
      rw [e0 i, e0 j, e1 i, e1 j] at this
      linear_combination this
    have r00 := gg 0 0
    have r01 := gg 0 1
    have r11 := gg 1 1
    have z00 : W00 = 0 := by
      have : 2 * d ^ 2 * W00 = 0 := by
        rw [hdd]
        linear_combination P t 1 1 ^ 2 * r00 - 2 * P t 1 1 * P t 0 1 * r01 + P t 0 1 ^ 2 * r11
      exact (mul_eq_zero.1 this).resolve_left (by positivity)
    have z11 : W11 = 0 := by
      have : 2 * d ^ 2 * W11 = 0 := by
        rw [hdd]
        linear_combination P t 1 0 ^ 2 * r00 - 2 * P t 1 0 * P t 0 0 * r01 + P t 0 0 ^ 2 * r11
      exact (mul_eq_zero.1 this).resolve_left (by positivity)
    have z01 : W01 + W10 = 0 := by
      have : d ^ 2 * (W01 + W10) = 0 := by
        rw [hdd]
        linear_combination -(P t 1 1 * P t 1 0) * r00
          + (P t 0 0 * P t 1 1 + P t 0 1 * P t 1 0) * r01 - P t 0 0 * P t 0 1 * r11
      exact (mul_eq_zero.1 this).resolve_left (by positivity)
    refine ⟨W10, fun i => ?_, fun i => ?_⟩
    · rw [e0 i, z00]; ring
    · rw [e1 i, z11]; linear_combination P t i 0 * z01
  have d00 := (f t).d00
  have d11 := (f t).d11
  have d01 := (f t).d01
  have d10 := (f t).d10
  rw [hw0 0, hw0 1] at q00
  rw [hw1 0, hw1 1] at q11
  rw [hw0 0, hw0 1, hw1 0, hw1 1] at q01
  -- rates of the eigenvalues and the rotation in terms of `H`
  have E0 : e' 0 = P t 0 0 * (H 0 0 * P t 0 0 + H 0 1 * P t 1 0)
      + P t 1 0 * (H 1 0 * P t 0 0 + H 1 1 * P t 1 0) := by
    linear_combination -q00 + w * d01 + w * d10
  have E1 : e' 1 = P t 0 1 * (H 0 0 * P t 0 1 + H 0 1 * P t 1 1)
      + P t 1 1 * (H 1 0 * P t 0 1 + H 1 1 * P t 1 1) := by
    linear_combination -q11 - w * d01 - w * d10
  have R : P t 0 0 * (H 0 0 * P t 0 1 + H 0 1 * P t 1 1)
      + P t 1 0 * (H 1 0 * P t 0 1 + H 1 1 * P t 1 1) = w * (e t 0 - e t 1) := by
    linear_combination q01 - w * d11 + w * d00
  have hder := (hS0.mul ((hP i 0).mul (hP j 0))).add (hS1.mul ((hP i 1).mul (hP j 1)))
  refine deriv_conv hder (fun s => ?_) ?_
  · simp only [sProj, Pi.add_apply, Pi.mul_apply]
  · simp only [Pi.mul_apply, cProj, Fin.sum_univ_two]
    rw [hw0 i, hw0 j, hw1 i, hw1 j, E0, E1, ← hH]
    rw [← hH] at R
    linear_combination (w * (P t i 0 * P t j 1 + P t i 1 * P t j 0)) * hshear
      - K 0 1 0 1 * (P t i 0 * P t j 1 + P t i 1 * P t j 0) * R

end Verif.Spectral
