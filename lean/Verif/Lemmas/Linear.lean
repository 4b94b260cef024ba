import Verif.Model.Linear
import Verif.Spec.Geometry
import Verif.Lemmas.Geometry

/-! # Helper lemmas for the linear material -/

namespace Verif.Linear

theorem lam_two_mu (E ν : ℝ) (h1 : 1 + ν ≠ 0) (h2 : 1 - 2 * ν ≠ 0) :
    lam E ν + 2 * mu E ν = E * (1 - ν) / ((1 + ν) * (1 - 2 * ν)) := by
  have h2' : 2 * (1 + ν) ≠ 0 := mul_ne_zero two_ne_zero h1
  unfold lam mu
  rw [← mul_div_assoc, div_add_div _ _ (mul_ne_zero h1 h2) h2',
    div_eq_div_iff (mul_ne_zero (mul_ne_zero h1 h2) h2') (mul_ne_zero h1 h2)]
  ring

theorem Cconst_eq (E ν : ℝ) (h1 : 1 + ν ≠ 0) (h2 : 1 - 2 * ν ≠ 0) (h3 : 1 - ν ≠ 0) :
    Cconst E ν = 2 * mu E ν * (ν / (1 - ν)) := by
  by_cases hE : E = 0
  · subst hE; simp [Cconst, mu, lam]
  unfold Cconst
  rw [lam_two_mu E ν h1 h2]
  unfold lam mu
  field_simp

/-- The energy of a strain in terms of the two invariants of the mixed strain. -/
theorem energy_form (E ν : ℝ) (A e : T2) (hA : A 0 1 = A 1 0) (he : e 0 1 = e 1 0) :
    (∑ i, ∑ j, ∑ k, ∑ l, Cval E ν A i j k l * e i j * e k l) =
      Cconst E ν * (A 0 0 * e 0 0 + 2 * A 0 1 * e 0 1 + A 1 1 * e 1 1) ^ 2
      + 2 * mu E ν * ((A 0 0 * e 0 0 + A 0 1 * e 0 1) ^ 2
        + 2 * (A 0 0 * e 0 1 + A 0 1 * e 1 1) * (A 0 1 * e 0 0 + A 1 1 * e 0 1)
        + (A 0 1 * e 0 1 + A 1 1 * e 1 1) ^ 2) := by
  simp only [Fin.sum_univ_two, Cval, ← hA, ← he]; ring

/-- Positivity of the second invariant combination. -/
theorem invariants (a b c p q r k : ℝ) (ha : 0 < a) (hdet : 0 < a * c - b * b) (hk : -(1 / 2) < k)
    (hne : ¬ (p = 0 ∧ q = 0 ∧ r = 0)) :
    0 < k * (a * p + 2 * b * q + c * r) ^ 2 + ((a * p + b * q) ^ 2
        + 2 * (a * q + b * r) * (b * p + c * q) + (b * q + c * r) ^ 2) := by
  set t := a * p + 2 * b * q + c * r with ht
  set X := a * p - c * r with hX
  set w := a * q + b * r with hw
  have e1 : (a * p + b * q) ^ 2 + 2 * (a * q + b * r) * (b * p + c * q) + (b * q + c * r) ^ 2
      = t ^ 2 / 2 + ((X + 2 * (b / a) * w) ^ 2 + 4 * w ^ 2 * ((a * c - b * b) / a ^ 2)) / 2 := by
    rw [ht, hX, hw]; field_simp; ring
  rw [e1]
  have hD : 0 ≤ (X + 2 * (b / a) * w) ^ 2 + 4 * w ^ 2 * ((a * c - b * b) / a ^ 2) := by
    have : 0 ≤ (a * c - b * b) / a ^ 2 := by positivity
    positivity
  have hk2 : 0 < k + 1 / 2 := by linarith
  rcases eq_or_ne t 0 with h0 | h0
  · rcases eq_or_ne w 0 with w0 | w0
    · rcases eq_or_ne X 0 with x0 | x0
      · exfalso
        apply hne
        have hr : (a * c - b * b) * r = 0 := by
          have h1 : a * (a * p - c * r) = 0 := by rw [← hX, x0]; ring
          have h2 : a * (a * p + 2 * b * q + c * r) = 0 := by rw [← ht, h0]; ring
          have h3 : b * (a * q + b * r) = 0 := by rw [← hw, w0]; ring
          linarith
        have hr0 : r = 0 := by
          rcases mul_eq_zero.1 hr with h | h
          · exact absurd h hdet.ne'
          · exact h
        have hq0 : q = 0 := by
          have : a * q = 0 := by have := w0; rw [hw, hr0] at this; linarith
          rcases mul_eq_zero.1 this with h | h
          · exact absurd h ha.ne'
          · exact h
        have hp0 : p = 0 := by
          have : a * p = 0 := by have := x0; rw [hX, hr0] at this; linarith
          rcases mul_eq_zero.1 this with h | h
          · exact absurd h ha.ne'
          · exact h
        exact ⟨hp0, hq0, hr0⟩
      · rw [h0, w0]
        have : 0 < X ^ 2 := by positivity
        have e : k * 0 ^ 2 + (0 ^ 2 / 2 + ((X + 2 * (b / a) * 0) ^ 2
          + 4 * 0 ^ 2 * ((a * c - b * b) / a ^ 2)) / 2) = X ^ 2 / 2 := by ring
        rw [e]; positivity
    · have h1 : 0 < 4 * w ^ 2 * ((a * c - b * b) / a ^ 2) := by
        have : 0 < (a * c - b * b) / a ^ 2 := by positivity
        positivity
      have h2 : 0 ≤ (X + 2 * (b / a) * w) ^ 2 := by positivity
      rw [h0]; nlinarith
  · have : 0 < (k + 1 / 2) * t ^ 2 := by positivity
    nlinarith

end Verif.Linear
