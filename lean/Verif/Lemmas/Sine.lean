import Mathlib.Analysis.Fourier.AddCircle

/-! # Lemmas: a continuous function without sine coefficients vanishes -/

namespace Verif.Plate

open MeasureTheory

/-- Odd extension. -/
noncomputable def odd (f : ℝ → ℝ) (x : ℝ) : ℂ := if 0 ≤ x then (f x : ℂ) else -(f (-x) : ℂ)

theorem odd_continuous {f : ℝ → ℝ} (hf : Continuous f) (h0 : f 0 = 0) : Continuous (odd f) := by
  unfold odd
  refine Continuous.if_le (by fun_prop) (by fun_prop) continuous_const continuous_id ?_
  intro x hx
  rw [← hx]; simp [h0]

theorem odd_pos {f : ℝ → ℝ} {x : ℝ} (hx : 0 ≤ x) : odd f x = f x := if_pos hx

theorem odd_neg {f : ℝ → ℝ} (h0 : f 0 = 0) {x : ℝ} (hx : 0 ≤ x) : odd f (-x) = -(f x : ℂ) := by
  rcases hx.eq_or_lt with rfl | h
  · simp [odd, h0]
  · rw [odd, if_neg (by linarith), neg_neg]

theorem odd_integral {a θ : ℝ} (ha : 0 < a) {f : ℝ → ℝ} (hf : Continuous f) (h0 : f 0 = 0)
    (h : ∫ x in (0 : ℝ)..a, Real.sin (θ * x) * f x = 0) :
    ∫ x in (-a)..a, Complex.exp (-(Complex.I * (θ * x))) * odd f x = 0 := by
  have co := odd_continuous hf h0
  have c : Continuous fun x : ℝ => Complex.exp (-(Complex.I * (θ * x))) * odd f x := by fun_prop
  rw [← intervalIntegral.integral_add_adjacent_intervals (b := 0) (c.intervalIntegrable _ _)
    (c.intervalIntegrable _ _)]
  have e : ∫ x in (-a)..0, Complex.exp (-(Complex.I * (θ * x))) * odd f x
      = ∫ x in (0 : ℝ)..a, Complex.exp (-(Complex.I * (θ * (-x : ℝ)))) * odd f (-x) := by
    rw [intervalIntegral.integral_comp_neg (fun x : ℝ => Complex.exp (-(Complex.I * (θ * x))) * odd f x),
      neg_zero]
  rw [e, ← intervalIntegral.integral_add (Continuous.intervalIntegrable (by fun_prop) _ _)
    (c.intervalIntegrable _ _)]
  have k : ∫ x in (0 : ℝ)..a, (Complex.exp (-(Complex.I * (θ * (-x : ℝ)))) * odd f (-x)
      + Complex.exp (-(Complex.I * (θ * x))) * odd f x)
      = ∫ x in (0 : ℝ)..a, (-2 * Complex.I) * ((Real.sin (θ * x) * f x : ℝ) : ℂ) := by
    refine intervalIntegral.integral_congr fun x hx => ?_
    rw [Set.uIcc_of_le ha.le] at hx
    rw [odd_pos hx.1, odd_neg h0 hx.1]
    push_cast
    rw [Complex.sin]
    have e1 : -(Complex.I * (↑θ * -(x : ℂ))) = ↑θ * ↑x * Complex.I := by ring
    have e2 : -(Complex.I * (↑θ * (x : ℂ))) = -(↑θ * ↑x) * Complex.I := by ring
    rw [e1, e2]
    have i2 := Complex.I_mul_I
    linear_combination ((Complex.exp (-(↑θ * ↑x) * Complex.I) - Complex.exp (↑θ * ↑x * Complex.I)) * f x) * i2
  rw [k, intervalIntegral.integral_const_mul, intervalIntegral.integral_ofReal, h]
  simp

theorem sine_complete {a : ℝ} (ha : 0 < a) {f : ℝ → ℝ} (hf : Continuous f) (h0 : f 0 = 0) (h1 : f a = 0)
    (h : ∀ n : ℕ, ∫ x in (0 : ℝ)..a, Real.sin (n * Real.pi / a * x) * f x = 0) :
    ∀ x ∈ Set.Icc 0 a, f x = 0 := by
  have hT : 0 < 2 * a := by linarith
  have : Fact (0 < 2 * a) := ⟨hT⟩
  have hend : odd f (-a) = odd f (-a + 2 * a) := by
    rw [show -a + 2 * a = a by ring, odd_pos ha.le, odd_neg h0 ha.le, h1]; simp
  have hc : Continuous (AddCircle.liftIco (2 * a) (-a) (odd f)) :=
    AddCircle.liftIco_continuous hend (odd_continuous hf h0).continuousOn
  have hz : ∀ n : ℤ, ∫ x in (0 : ℝ)..a, Real.sin (n * Real.pi / a * x) * f x = 0 := by
    intro n
    obtain ⟨k, rfl | rfl⟩ := n.eq_nat_or_neg
    · exact_mod_cast h k
    · have e : ∀ x, Real.sin (((-(k : ℤ) : ℤ) : ℝ) * Real.pi / a * x) * f x
          = -(Real.sin (k * Real.pi / a * x) * f x) := by
        intro x
        push_cast
        rw [show -(k : ℝ) * Real.pi / a * x = -(k * Real.pi / a * x) by ring, Real.sin_neg]
        ring
      simp only [e]
      rw [intervalIntegral.integral_neg, h k, neg_zero]
  have coeff : ∀ n : ℤ, fourierCoeff (AddCircle.liftIco (2 * a) (-a) (odd f)) n = 0 := by
    intro n
    rw [fourierCoeff_liftIco_eq, fourierCoeffOn_eq_integral]
    have e : ∫ x in (-a)..(-a + 2 * a), fourier (-n) (x : AddCircle (-a + 2 * a - -a)) • odd f x
        = ∫ x in (-a)..a, Complex.exp (-(Complex.I * ((n * Real.pi / a : ℝ) * x))) * odd f x := by
      rw [show -a + 2 * a = a by ring]
      refine intervalIntegral.integral_congr fun x _ => ?_
      simp only [fourier_coe_apply, smul_eq_mul]
      congr 2
      have : (a : ℂ) ≠ 0 := by exact_mod_cast ha.ne'
      push_cast
      field_simp
      ring
    rw [e, odd_integral ha hf h0 (hz n), smul_zero]
  have key := hasSum_fourier_series_of_summable (f := (⟨_, hc⟩ : C(AddCircle (2 * a), ℂ))) (by
    have : fourierCoeff (⇑(⟨_, hc⟩ : C(AddCircle (2 * a), ℂ))) = fun _ => 0 := funext coeff
    rw [this]; exact summable_zero)
  have zero : (⟨_, hc⟩ : C(AddCircle (2 * a), ℂ)) = 0 := by
    refine key.unique ?_
    have : (fun i => fourierCoeff (⇑(⟨_, hc⟩ : C(AddCircle (2 * a), ℂ))) i • fourier (T := 2 * a) i)
        = fun _ => 0 := by
      funext i
      rw [show fourierCoeff (⇑(⟨_, hc⟩ : C(AddCircle (2 * a), ℂ))) i = 0 from coeff i, zero_smul]
    rw [this]; exact hasSum_zero
  intro x hx
  rcases hx.2.eq_or_lt with rfl | hlt
  · exact h1
  · have e : AddCircle.liftIco (2 * a) (-a) (odd f) (x : AddCircle (2 * a)) = 0 :=
      congrArg (fun g : C(AddCircle (2 * a), ℂ) => g x) zero
    rw [AddCircle.liftIco_coe_apply ⟨by linarith [hx.1], by linarith⟩, odd_pos hx.1] at e
    exact_mod_cast e

end Verif.Plate
