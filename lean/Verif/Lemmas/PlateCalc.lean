import Verif.Lemmas.BalloonCalc
import Verif.Spec.Plate
import Mathlib.MeasureTheory.Integral.IntervalIntegral.IntegrationByParts
import Mathlib.MeasureTheory.Integral.Prod
import Mathlib.Analysis.SpecialFunctions.Trigonometric.Deriv

/-! # Lemmas: integrals over a rectangle, integration by parts -/

namespace Verif.Plate

open V3 Fields MeasureTheory Spec.Balloon Spec.Plate Verif.Balloon

theorem rect_integrable {f : ℝ × ℝ → ℝ} (hf : Continuous f) (a b : ℝ) :
    IntegrableOn f (rect a b) :=
  hf.continuousOn.integrableOn_compact (isCompact_Icc.prod isCompact_Icc)

theorem rect_xy {f : ℝ × ℝ → ℝ} (hf : Continuous f) {a b : ℝ} (ha : 0 ≤ a) (hb : 0 ≤ b) :
    ∫ q in rect a b, f q = ∫ x in (0 : ℝ)..a, ∫ y in (0 : ℝ)..b, f (x, y) := by
  have h := rect_integrable hf a b
  unfold rect at h ⊢
  rw [Measure.volume_eq_prod] at h ⊢
  rw [setIntegral_prod f h, intervalIntegral.integral_of_le ha, integral_Icc_eq_integral_Ioc]
  congr 1
  funext x
  rw [intervalIntegral.integral_of_le hb, integral_Icc_eq_integral_Ioc]

theorem rect_yx {f : ℝ × ℝ → ℝ} (hf : Continuous f) {a b : ℝ} (ha : 0 ≤ a) (hb : 0 ≤ b) :
    ∫ q in rect a b, f q = ∫ y in (0 : ℝ)..b, ∫ x in (0 : ℝ)..a, f (x, y) := by
  have h := rect_integrable hf a b
  unfold rect at h ⊢
  rw [Measure.volume_eq_prod] at h ⊢
  rw [← setIntegral_prod_swap, setIntegral_prod, intervalIntegral.integral_of_le hb,
    integral_Icc_eq_integral_Ioc]
  · congr 1
    funext x
    rw [intervalIntegral.integral_of_le ha, integral_Icc_eq_integral_Ioc]
    rfl
  · have k := rect_integrable (hf.comp continuous_swap) b a
    unfold rect at k
    rw [Measure.volume_eq_prod] at k
    exact k

theorem pd_cont {n : ℕ} {f : ℝ × ℝ → ℝ} (hf : ContDiff ℝ (n + 1 : ℕ) f) (i : Fin 2) :
    ContDiff ℝ n (pd i f) := by
  have := pd_smooth (hf.contDiffOn (s := Set.univ)) isOpen_univ i
  exact contDiffOn_univ.1 this

theorem line_x {f : ℝ × ℝ → ℝ} (hf : Differentiable ℝ f) (x y : ℝ) :
    HasDerivAt (fun x => f (x, y)) (pd 0 f (x, y)) x := by
  have h : HasDerivAt (fun x : ℝ => ((x, y) : ℝ × ℝ)) (1, 0) x :=
    (hasDerivAt_id' x).prodMk (hasDerivAt_const x y)
  exact (hf (x, y)).hasFDerivAt.comp_hasDerivAt x h

theorem line_y {f : ℝ × ℝ → ℝ} (hf : Differentiable ℝ f) (x y : ℝ) :
    HasDerivAt (fun y => f (x, y)) (pd 1 f (x, y)) y := by
  have h : HasDerivAt (fun y : ℝ => ((x, y) : ℝ × ℝ)) (0, 1) y :=
    (hasDerivAt_const y x).prodMk (hasDerivAt_id' y)
  exact (hf (x, y)).hasFDerivAt.comp_hasDerivAt y h

theorem parts {a : ℝ} {g g' f f' : ℝ → ℝ} (hg : ∀ x, HasDerivAt g (g' x) x) (hf : ∀ x, HasDerivAt f (f' x) x)
    (hg' : Continuous g') (hf' : Continuous f') (h0 : g 0 * f 0 = 0) (h1 : g a * f a = 0) :
    ∫ x in (0 : ℝ)..a, g x * f' x = -∫ x in (0 : ℝ)..a, g' x * f x := by
  have := intervalIntegral.integral_mul_deriv_eq_deriv_mul (a := 0) (b := a) (fun x _ => hg x) (fun x _ => hf x)
    (hg'.intervalIntegrable _ _) (hf'.intervalIntegrable _ _)
  rw [this, h0, h1]; ring

section
variable {a b : ℝ} {f : ℝ × ℝ → ℝ} {g g' h h' : ℝ → ℝ}

/-- Integration by parts in the first parameter. -/
theorem parts_x (ha : 0 ≤ a) (hb : 0 ≤ b) (hf : ContDiff ℝ 1 f) (hg : ∀ x, HasDerivAt g (g' x) x)
    (hg' : Continuous g') (hh : Continuous h) (h0 : ∀ y, g 0 * f (0, y) = 0) (h1 : ∀ y, g a * f (a, y) = 0) :
    ∫ q in rect a b, g q.1 * h q.2 * pd 0 f q = -∫ q in rect a b, g' q.1 * h q.2 * f q := by
  have cg : Continuous g := continuous_iff_continuousAt.2 fun x => (hg x).continuousAt
  have cd : Continuous (pd 0 f) := (pd_cont (n := 0) hf 0).continuous
  have cf := hf.continuous
  rw [rect_yx (by fun_prop) ha hb, rect_yx (by fun_prop) ha hb, ← intervalIntegral.integral_neg]
  congr 1
  funext y
  have e1 : ∀ x, g x * h y * pd 0 f (x, y) = h y * (g x * pd 0 f (x, y)) := fun x => by ring
  have e2 : ∀ x, g' x * h y * f (x, y) = h y * (g' x * f (x, y)) := fun x => by ring
  simp only [e1, e2]
  rw [intervalIntegral.integral_const_mul, intervalIntegral.integral_const_mul,
    parts hg (fun x => line_x (hf.differentiable (by norm_num)) x y) hg' (by fun_prop) (h0 y) (h1 y)]
  ring

/-- Integration by parts in the second parameter. -/
theorem parts_y (ha : 0 ≤ a) (hb : 0 ≤ b) (hf : ContDiff ℝ 1 f) (hh : ∀ x, HasDerivAt h (h' x) x)
    (hh' : Continuous h') (hg : Continuous g) (h0 : ∀ x, h 0 * f (x, 0) = 0) (h1 : ∀ x, h b * f (x, b) = 0) :
    ∫ q in rect a b, g q.1 * h q.2 * pd 1 f q = -∫ q in rect a b, g q.1 * h' q.2 * f q := by
  have ch : Continuous h := continuous_iff_continuousAt.2 fun x => (hh x).continuousAt
  have cd : Continuous (pd 1 f) := (pd_cont (n := 0) hf 1).continuous
  have cf := hf.continuous
  rw [rect_xy (by fun_prop) ha hb, rect_xy (by fun_prop) ha hb, ← intervalIntegral.integral_neg]
  congr 1
  funext x
  have e1 : ∀ y, g x * h y * pd 1 f (x, y) = g x * (h y * pd 1 f (x, y)) := fun x => by ring
  have e2 : ∀ y, g x * h' y * f (x, y) = g x * (h' y * f (x, y)) := fun x => by ring
  simp only [e1, e2]
  rw [intervalIntegral.integral_const_mul, intervalIntegral.integral_const_mul,
    parts hh (fun y => line_y (hf.differentiable (by norm_num)) x y) hh' (by fun_prop) (h0 x) (h1 x)]
  ring

end

/-! ## Products with sines and cosines -/

section
variable {a b α β : ℝ} {f : ℝ × ℝ → ℝ}

theorem sin_deriv (α x : ℝ) : HasDerivAt (fun x => Real.sin (α * x)) (α * Real.cos (α * x)) x := by
  have := ((hasDerivAt_id' x).const_mul α).sin
  exact this.congr_deriv (by ring)

theorem cos_deriv (α x : ℝ) : HasDerivAt (fun x => α * Real.cos (α * x)) (-α ^ 2 * Real.sin (α * x)) x := by
  have := (((hasDerivAt_id' x).const_mul α).cos).const_mul α
  exact this.congr_deriv (by ring)

theorem twice_x (ha : 0 ≤ a) (hb : 0 ≤ b) (hs : Real.sin (α * a) = 0) (hf : ContDiff ℝ 2 f)
    (h0 : ∀ q, Edge a b q → f q = 0) {h : ℝ → ℝ} (hh : Continuous h) :
    ∫ q in rect a b, Real.sin (α * q.1) * h q.2 * pd 0 (pd 0 f) q
      = -α ^ 2 * ∫ q in rect a b, Real.sin (α * q.1) * h q.2 * f q := by
  rw [parts_x ha hb (pd_cont (n := 1) hf 0) (sin_deriv α) (by fun_prop) hh (by simp) (by simp [hs]),
    parts_x ha hb (hf.of_le (by norm_num)) (cos_deriv α) (by fun_prop) hh
      (fun y => by rw [h0 _ (Or.inl rfl), mul_zero]) (fun y => by rw [h0 _ (Or.inr (Or.inl rfl)), mul_zero]),
    neg_neg, ← integral_const_mul]
  congr 1
  funext q
  ring

theorem twice_y (ha : 0 ≤ a) (hb : 0 ≤ b) (hs : Real.sin (β * b) = 0) (hf : ContDiff ℝ 2 f)
    (h0 : ∀ q, Edge a b q → f q = 0) {g : ℝ → ℝ} (hg : Continuous g) :
    ∫ q in rect a b, g q.1 * Real.sin (β * q.2) * pd 1 (pd 1 f) q
      = -β ^ 2 * ∫ q in rect a b, g q.1 * Real.sin (β * q.2) * f q := by
  rw [parts_y ha hb (pd_cont (n := 1) hf 1) (sin_deriv β) (by fun_prop) hg (by simp) (by simp [hs]),
    parts_y ha hb (hf.of_le (by norm_num)) (cos_deriv β) (by fun_prop) hg
      (fun y => by rw [h0 _ (Or.inr (Or.inr (Or.inl rfl))), mul_zero])
      (fun y => by rw [h0 _ (Or.inr (Or.inr (Or.inr rfl))), mul_zero]),
    neg_neg, ← integral_const_mul]
  congr 1
  funext q
  ring

theorem mixed (ha : 0 ≤ a) (hb : 0 ≤ b) (hf : ContDiff ℝ 2 f) (h0 : ∀ q, Edge a b q → f q = 0) :
    ∫ q in rect a b, (α * Real.cos (α * q.1)) * (β * Real.cos (β * q.2)) * pd 1 (pd 0 f) q
      = α ^ 2 * β ^ 2 * ∫ q in rect a b, Real.sin (α * q.1) * Real.sin (β * q.2) * f q := by
  have d := hf.differentiable (by norm_num)
  have z : ∀ x, pd 0 f (x, 0) = 0 := fun x => by
    have h1 := line_x d x 0
    have h2 : (fun x => f (x, 0)) = fun _ => 0 := funext fun x => h0 _ (Or.inr (Or.inr (Or.inl rfl)))
    rw [h2] at h1
    exact h1.unique (hasDerivAt_const x 0)
  have z' : ∀ x, pd 0 f (x, b) = 0 := fun x => by
    have h1 := line_x d x b
    have h2 : (fun x => f (x, b)) = fun _ => 0 := funext fun x => h0 _ (Or.inr (Or.inr (Or.inr rfl)))
    rw [h2] at h1
    exact h1.unique (hasDerivAt_const x 0)
  rw [parts_y (g := fun x => α * Real.cos (α * x)) (h := fun y => β * Real.cos (β * y)) ha hb
      (pd_cont (n := 1) hf 0) (cos_deriv β) (by fun_prop) (by fun_prop) (fun x => by rw [z, mul_zero])
      (fun x => by rw [z', mul_zero]),
    parts_x (g := fun x => α * Real.cos (α * x)) (h := fun y => -β ^ 2 * Real.sin (β * y)) ha hb
      (hf.of_le (by norm_num)) (cos_deriv α) (by fun_prop) (by fun_prop)
      (fun y => by rw [h0 _ (Or.inl rfl), mul_zero]) (fun y => by rw [h0 _ (Or.inr (Or.inl rfl)), mul_zero]),
    neg_neg, ← integral_const_mul]
  congr 1
  funext q
  ring

end

end Verif.Plate
