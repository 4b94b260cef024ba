import Verif.Spec.SectionForces
import Verif.Lemmas.Principal
import Verif.Lemmas.Integrate

/-! # Helper lemmas: extremal property of principal values, sums over symmetric rules -/

namespace Verif.SectionForces

open Verif.Integrate Spec.Principal Spec.SectionForces

/-- Quadratic form of the metric. -/
def qf (G : T2) (a b : ℝ) : ℝ := G 0 0 * a ^ 2 + 2 * G 0 1 * a * b + G 1 1 * b ^ 2

/-- Quadratic form of a tensor with contravariant components. -/
def sf (S G : T2) (a b : ℝ) : ℝ :=
  S 0 0 * (G 0 0 * a + G 0 1 * b) ^ 2 +
    2 * S 0 1 * (G 0 0 * a + G 0 1 * b) * (G 0 1 * a + G 1 1 * b) +
    S 1 1 * (G 0 1 * a + G 1 1 * b) ^ 2

theorem qf_pos {G : T2} (hG : Metric G) {a b : ℝ} (h : a ≠ 0 ∨ b ≠ 0) : 0 < qf G a b := by
  have hd := hG.det
  rw [← hG.symm] at hd
  have h0 := hG.pos
  have key : G 0 0 * qf G a b
      = (G 0 0 * a + G 0 1 * b) ^ 2 + (G 0 0 * G 1 1 - G 0 1 * G 0 1) * b ^ 2 := by
    unfold qf; ring
  have hp : 0 < G 0 0 * qf G a b := by
    rw [key]
    rcases eq_or_ne b 0 with hb | hb
    · subst hb
      have ha : a ≠ 0 := by simpa using h
      have : 0 < (G 0 0 * a + G 0 1 * 0) ^ 2 := by
        have : G 0 0 * a + G 0 1 * 0 ≠ 0 := by simpa using ⟨h0.ne', ha⟩
        positivity
      simpa using this
    · have : 0 < (G 0 0 * G 1 1 - G 0 1 * G 0 1) * b ^ 2 := by positivity
      nlinarith [sq_nonneg (G 0 0 * a + G 0 1 * b)]
  exact pos_of_mul_pos_right hp h0.le

/-- A form with a zero that is not the origin has no positive determinant. -/
theorem det_nonpos {p q s a b : ℝ} (h : a ≠ 0 ∨ b ≠ 0)
    (hz : p * a ^ 2 + 2 * q * a * b + s * b ^ 2 = 0) : p * s - q * q ≤ 0 := by
  rcases eq_or_ne b 0 with hb | hb
  · subst hb
    have ha : a ≠ 0 := by simpa using h
    have : p = 0 := by
      have : p * a ^ 2 = 0 := by linarith
      simpa [ha] using this
    rw [this]; nlinarith [sq_nonneg q]
  · have e : (p * s - q * q) * b ^ 2 = -(p * a + q * b) ^ 2 := by
      linear_combination p * hz
    have hb2 : 0 < b ^ 2 := by positivity
    by_contra hn
    push Not at hn
    have := mul_pos hn hb2
    nlinarith [sq_nonneg (p * a + q * b)]

/-- Determinant of the form `S - ρ G` in terms of the principal values. -/
theorem det_shift {S G : T2} {x y : ℝ} (h : PrincipalValues S G x y) (hS : S 0 1 = S 1 0)
    (hG : G 0 1 = G 1 0) (ρ : ℝ) :
    (sf S G 1 0 - ρ * G 0 0) * (sf S G 0 1 - ρ * G 1 1) -
      ((S 0 0 * G 0 0 * G 0 1 + S 0 1 * (G 0 0 * G 1 1 + G 0 1 * G 0 1) + S 1 1 * G 0 1 * G 1 1)
        - ρ * G 0 1) *
      ((S 0 0 * G 0 0 * G 0 1 + S 0 1 * (G 0 0 * G 1 1 + G 0 1 * G 0 1) + S 1 1 * G 0 1 * G 1 1)
        - ρ * G 0 1)
      = (G 0 0 * G 1 1 - G 0 1 * G 0 1) * ((ρ - x) * (ρ - y)) := by
  rw [← h.roots ρ]
  simp only [mul2, sf]
  rw [← hS, ← hG]
  ring

/-- The principal values bound the form. -/
theorem form_bounds {S G : T2} {x y : ℝ} (h : PrincipalValues S G x y) (hS : S 0 1 = S 1 0)
    (hG : Metric G) (a b : ℝ) : x * qf G a b ≤ sf S G a b ∧ sf S G a b ≤ y * qf G a b := by
  by_cases hab : a ≠ 0 ∨ b ≠ 0
  · have hq := qf_pos hG hab
    have hd := hG.det
    rw [← hG.symm] at hd
    obtain ⟨ρ, hρ⟩ : ∃ ρ, sf S G a b = ρ * qf G a b :=
      ⟨sf S G a b / qf G a b, (div_mul_cancel₀ _ hq.ne').symm⟩
    have hn := det_nonpos (p := sf S G 1 0 - ρ * G 0 0) (s := sf S G 0 1 - ρ * G 1 1)
      (q := (S 0 0 * G 0 0 * G 0 1 + S 0 1 * (G 0 0 * G 1 1 + G 0 1 * G 0 1)
        + S 1 1 * G 0 1 * G 1 1) - ρ * G 0 1) hab (by
        unfold sf qf at *
        linear_combination hρ)
    rw [det_shift h hS hG.symm] at hn
    have hr : (ρ - x) * (ρ - y) ≤ 0 := by
      by_contra hc
      push Not at hc
      have := mul_pos hd hc
      linarith
    have hl := h.le
    have h1 : x ≤ ρ := by by_contra hc; push Not at hc; nlinarith
    have h2 : ρ ≤ y := by by_contra hc; push Not at hc; nlinarith
    rw [hρ]
    exact ⟨mul_le_mul_of_nonneg_right h1 hq.le, mul_le_mul_of_nonneg_right h2 hq.le⟩
  · push Not at hab
    obtain ⟨rfl, rfl⟩ := hab
    simp [qf, sf]

/-- A form without determinant has a zero that is not the origin. -/
theorem exists_zero {p q s : ℝ} (h : p * s - q * q = 0) :
    ∃ a b : ℝ, (a ≠ 0 ∨ b ≠ 0) ∧ p * a ^ 2 + 2 * q * a * b + s * b ^ 2 = 0 := by
  rcases eq_or_ne p 0 with hp | hp
  · exact ⟨1, 0, Or.inl one_ne_zero, by rw [hp]; ring⟩
  · exact ⟨-q, p, Or.inr hp, by linear_combination p * h⟩

/-- Each principal value is attained by the form. -/
theorem form_attained {S G : T2} {x y : ℝ} (h : PrincipalValues S G x y) (hS : S 0 1 = S 1 0)
    (hG : G 0 1 = G 1 0) {ρ : ℝ} (hρ : ρ = x ∨ ρ = y) :
    ∃ a b : ℝ, (a ≠ 0 ∨ b ≠ 0) ∧ sf S G a b = ρ * qf G a b := by
  have hz : (ρ - x) * (ρ - y) = 0 := by rcases hρ with rfl | rfl <;> simp
  have hd := det_shift h hS hG ρ
  rw [hz, mul_zero] at hd
  obtain ⟨a, b, hab, h0⟩ := exists_zero hd
  refine ⟨a, b, hab, ?_⟩
  unfold sf qf at *
  linear_combination h0

/-- Odd sums vanish on symmetric rules. -/
theorem sum_odd {r : Rule} (hr : Symmetric r) (f : ℝ → ℝ) (hf : ∀ ξ, f (-ξ) = -f ξ) :
    ∑ j, r.w j * f (r.ξ j) = 0 := by
  obtain ⟨σ, hσ⟩ := hr
  have h1 : ∑ j, r.w j * f (r.ξ j) = ∑ j, r.w (σ j) * f (r.ξ (σ j)) :=
    (Equiv.sum_comp σ fun j => r.w j * f (r.ξ j)).symm
  have h2 : ∑ j, r.w (σ j) * f (r.ξ (σ j)) = -∑ j, r.w j * f (r.ξ j) := by
    rw [← Finset.sum_neg_distrib]
    refine Finset.sum_congr rfl fun j _ => ?_
    rw [(hσ j).1, (hσ j).2, hf]; ring
  linarith

end Verif.SectionForces
