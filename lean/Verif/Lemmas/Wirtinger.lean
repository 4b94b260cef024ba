import Verif.Lemmas.PlateCalc
import Mathlib.Analysis.Calculus.ParametricIntervalIntegral

/-! # Lemmas: inequalities for functions that vanish at the edges -/

namespace Verif.Plate

open V3 Fields MeasureTheory Spec.Balloon Spec.Plate Verif.Balloon

/-! ## One variable -/

section
variable {a : ℝ} {f f' f'' : ℝ → ℝ}

theorem wirtinger_lt {c : ℝ} (ha : 0 < a) (hc : 0 ≤ c) (h : c * a < Real.pi) (hf : ∀ x, HasDerivAt f (f' x) x)
    (hf' : Continuous f') (h0 : f 0 = 0) (h1 : f a = 0) :
    c ^ 2 * ∫ x in (0 : ℝ)..a, f x ^ 2 ≤ ∫ x in (0 : ℝ)..a, f' x ^ 2 := by
  have cf : Continuous f := continuous_iff_continuousAt.2 fun x => (hf x).continuousAt
  have pos : ∀ x ∈ Set.Icc 0 a, 0 < Real.cos (c * (x - a / 2)) := by
    intro x hx
    refine Real.cos_pos_of_mem_Ioo ⟨?_, ?_⟩ <;> nlinarith [hx.1, hx.2, Real.pi_pos]
  have dphi : ∀ x, HasDerivAt (fun x => c * (x - a / 2)) c x := fun x =>
    (((hasDerivAt_id' x).sub_const (a / 2)).const_mul c).congr_deriv (mul_one _)
  have key : ∀ x ∈ Set.uIcc 0 a, HasDerivAt
      (fun x => f x ^ 2 * (-c * Real.sin (c * (x - a / 2)) / Real.cos (c * (x - a / 2))))
      (f' x ^ 2 - c ^ 2 * f x ^ 2
        - (f' x - (-c * Real.sin (c * (x - a / 2)) / Real.cos (c * (x - a / 2))) * f x) ^ 2) x := by
    intro x hx
    rw [Set.uIcc_of_le ha.le] at hx
    have p := (pos x hx).ne'
    have d := ((hf x).fun_pow 2).fun_mul ((((dphi x).sin.const_mul (-c)).fun_div (dphi x).cos p))
    refine d.congr_deriv ?_
    have s := Real.sin_sq_add_cos_sq (c * (x - a / 2))
    generalize Real.sin (c * (x - a / 2)) = S at *
    generalize Real.cos (c * (x - a / 2)) = C at *
    have e : S ^ 2 = 1 - C ^ 2 := by linarith
    field_simp
    simp only [Nat.cast_ofNat, Nat.add_one_sub_one, pow_one]
    linear_combination (0 : ℝ) * e
  have cd : ContinuousOn (fun x => f' x ^ 2 - c ^ 2 * f x ^ 2
        - (f' x - (-c * Real.sin (c * (x - a / 2)) / Real.cos (c * (x - a / 2))) * f x) ^ 2) (Set.uIcc 0 a) := by
    rw [Set.uIcc_of_le ha.le]
    have c1 : ContinuousOn (fun x => -c * Real.sin (c * (x - a / 2)) / Real.cos (c * (x - a / 2)))
      (Set.Icc 0 a) := ContinuousOn.div (by fun_prop) (by fun_prop) fun x hx => (pos x hx).ne'
    fun_prop
  have := intervalIntegral.integral_eq_sub_of_hasDerivAt key cd.intervalIntegrable
  rw [h0, h1] at this
  have c2 : ContinuousOn (fun x => (f' x - (-c * Real.sin (c * (x - a / 2)) / Real.cos (c * (x - a / 2))) * f x) ^ 2)
      (Set.uIcc 0 a) := by
    rw [Set.uIcc_of_le ha.le]
    have c1 : ContinuousOn (fun x => -c * Real.sin (c * (x - a / 2)) / Real.cos (c * (x - a / 2)))
      (Set.Icc 0 a) := ContinuousOn.div (by fun_prop) (by fun_prop) fun x hx => (pos x hx).ne'
    fun_prop
  rw [intervalIntegral.integral_sub (Continuous.intervalIntegrable (by fun_prop) _ _) c2.intervalIntegrable,
    intervalIntegral.integral_sub (Continuous.intervalIntegrable (by fun_prop) _ _)
      (Continuous.intervalIntegrable (by fun_prop) _ _), intervalIntegral.integral_const_mul] at this
  have nn : 0 ≤ ∫ x in (0 : ℝ)..a,
      (f' x - (-c * Real.sin (c * (x - a / 2)) / Real.cos (c * (x - a / 2))) * f x) ^ 2 :=
    intervalIntegral.integral_nonneg ha.le fun x _ => sq_nonneg _
  simp only [ne_eq, OfNat.ofNat_ne_zero, not_false_eq_true, zero_pow, zero_mul, sub_zero] at this
  linarith

/-- Wirtinger's inequality. -/
theorem wirtinger (ha : 0 < a) (hf : ∀ x, HasDerivAt f (f' x) x) (hf' : Continuous f') (h0 : f 0 = 0)
    (h1 : f a = 0) : (Real.pi / a) ^ 2 * ∫ x in (0 : ℝ)..a, f x ^ 2 ≤ ∫ x in (0 : ℝ)..a, f' x ^ 2 := by
  have t : Filter.Tendsto (fun c : ℝ => c ^ 2 * ∫ x in (0 : ℝ)..a, f x ^ 2) (nhdsWithin (Real.pi / a) (Set.Iio (Real.pi / a)))
      (nhds ((Real.pi / a) ^ 2 * ∫ x in (0 : ℝ)..a, f x ^ 2)) :=
    (Continuous.tendsto (by fun_prop) _).mono_left nhdsWithin_le_nhds
  refine le_of_tendsto t ?_
  have hp : 0 < Real.pi / a := by have := Real.pi_pos; positivity
  filter_upwards [Ioo_mem_nhdsLT hp] with c hc
  exact wirtinger_lt ha hc.1.le ((lt_div_iff₀ ha).1 hc.2) hf hf' h0 h1

/-- The same for second derivatives. -/
theorem wirtinger2 (ha : 0 < a) (hf : ∀ x, HasDerivAt f (f' x) x) (hf' : ∀ x, HasDerivAt f' (f'' x) x)
    (hf'' : Continuous f'') (h0 : f 0 = 0) (h1 : f a = 0) :
    (Real.pi / a) ^ 4 * ∫ x in (0 : ℝ)..a, f x ^ 2 ≤ ∫ x in (0 : ℝ)..a, f'' x ^ 2 := by
  have cf : Continuous f := continuous_iff_continuousAt.2 fun x => (hf x).continuousAt
  have cf' : Continuous f' := continuous_iff_continuousAt.2 fun x => (hf' x).continuousAt
  have w := wirtinger ha hf cf' h0 h1
  set c := Real.pi / a
  have p := parts (a := a) hf hf' cf' hf'' (by rw [h0, zero_mul]) (by rw [h1, zero_mul])
  have nn : 0 ≤ ∫ x in (0 : ℝ)..a, (f'' x + c ^ 2 * f x) ^ 2 :=
    intervalIntegral.integral_nonneg ha.le fun x _ => sq_nonneg _
  have e : ∀ x, (f'' x + c ^ 2 * f x) ^ 2 = f'' x ^ 2 + (2 * c ^ 2 * (f x * f'' x) + c ^ 4 * f x ^ 2) :=
    fun x => by ring
  simp only [e] at nn
  rw [intervalIntegral.integral_add (Continuous.intervalIntegrable (by fun_prop) _ _)
      (Continuous.intervalIntegrable (by fun_prop) _ _),
    intervalIntegral.integral_add (Continuous.intervalIntegrable (by fun_prop) _ _)
      (Continuous.intervalIntegrable (by fun_prop) _ _), intervalIntegral.integral_const_mul,
    intervalIntegral.integral_const_mul, p] at nn
  have e2 : ∀ x, f' x * f' x = f' x ^ 2 := fun x => by ring
  simp only [e2] at nn
  nlinarith [mul_le_mul_of_nonneg_left w (sq_nonneg c)]

end

/-! ## Two variables -/

section
variable {a b : ℝ} {f g : ℝ × ℝ → ℝ}

theorem edge_x (hf : Differentiable ℝ f) (h0 : ∀ q, Edge a b q → f q = 0) :
    ∀ x, pd 0 f (x, 0) = 0 ∧ pd 0 f (x, b) = 0 := by
  intro x
  constructor
  · have h1 := line_x hf x 0
    have h2 : (fun x => f (x, 0)) = fun _ => 0 := funext fun x => h0 _ (Or.inr (Or.inr (Or.inl rfl)))
    rw [h2] at h1
    exact h1.unique (hasDerivAt_const x 0)
  · have h1 := line_x hf x b
    have h2 : (fun x => f (x, b)) = fun _ => 0 := funext fun x => h0 _ (Or.inr (Or.inr (Or.inr rfl)))
    rw [h2] at h1
    exact h1.unique (hasDerivAt_const x 0)

theorem edge_y (hf : Differentiable ℝ f) (h0 : ∀ q, Edge a b q → f q = 0) :
    ∀ y, pd 1 f (0, y) = 0 ∧ pd 1 f (a, y) = 0 := by
  intro y
  constructor
  · have h1 := line_y hf 0 y
    have h2 : (fun y => f (0, y)) = fun _ => 0 := funext fun y => h0 _ (Or.inl rfl)
    rw [h2] at h1
    exact h1.unique (hasDerivAt_const y 0)
  · have h1 := line_y hf a y
    have h2 : (fun y => f (a, y)) = fun _ => 0 := funext fun y => h0 _ (Or.inr (Or.inl rfl))
    rw [h2] at h1
    exact h1.unique (hasDerivAt_const y 0)

theorem mono_yx {F G : ℝ × ℝ → ℝ} (hF : Continuous F) (hG : Continuous G) (ha : 0 ≤ a) (hb : 0 ≤ b)
    (h : ∀ y, ∫ x in (0 : ℝ)..a, F (x, y) ≤ ∫ x in (0 : ℝ)..a, G (x, y)) :
    ∫ q in rect a b, F q ≤ ∫ q in rect a b, G q := by
  rw [rect_yx hF ha hb, rect_yx hG ha hb]
  refine intervalIntegral.integral_mono_on hb ?_ ?_ fun y _ => h y
  · exact (intervalIntegral.continuous_parametric_intervalIntegral_of_continuous' (by fun_prop) 0 a).intervalIntegrable _ _
  · exact (intervalIntegral.continuous_parametric_intervalIntegral_of_continuous' (by fun_prop) 0 a).intervalIntegrable _ _

theorem mono_xy {F G : ℝ × ℝ → ℝ} (hF : Continuous F) (hG : Continuous G) (ha : 0 ≤ a) (hb : 0 ≤ b)
    (h : ∀ x, ∫ y in (0 : ℝ)..b, F (x, y) ≤ ∫ y in (0 : ℝ)..b, G (x, y)) :
    ∫ q in rect a b, F q ≤ ∫ q in rect a b, G q := by
  rw [rect_xy hF ha hb, rect_xy hG ha hb]
  refine intervalIntegral.integral_mono_on ha ?_ ?_ fun x _ => h x
  · exact (intervalIntegral.continuous_parametric_intervalIntegral_of_continuous' (by fun_prop) 0 b).intervalIntegrable _ _
  · exact (intervalIntegral.continuous_parametric_intervalIntegral_of_continuous' (by fun_prop) 0 b).intervalIntegrable _ _

theorem bound_x (ha : 0 < a) (hb : 0 ≤ b) (hf : ContDiff ℝ 1 f) (h0 : ∀ y, f (0, y) = 0) (h1 : ∀ y, f (a, y) = 0) :
    (Real.pi / a) ^ 2 * ∫ q in rect a b, f q ^ 2 ≤ ∫ q in rect a b, pd 0 f q ^ 2 := by
  have c0 := hf.continuous
  have c1 : Continuous (pd 0 f) := (pd_cont (n := 0) hf 0).continuous
  rw [← integral_const_mul]
  refine mono_yx (by fun_prop) (by fun_prop) ha.le hb fun y => ?_
  rw [intervalIntegral.integral_const_mul]
  exact wirtinger ha (fun x => line_x (hf.differentiable (by norm_num)) x y) (by fun_prop) (h0 y) (h1 y)

theorem bound_y (ha : 0 ≤ a) (hb : 0 < b) (hf : ContDiff ℝ 1 f) (h0 : ∀ x, f (x, 0) = 0) (h1 : ∀ x, f (x, b) = 0) :
    (Real.pi / b) ^ 2 * ∫ q in rect a b, f q ^ 2 ≤ ∫ q in rect a b, pd 1 f q ^ 2 := by
  have c0 := hf.continuous
  have c1 : Continuous (pd 1 f) := (pd_cont (n := 0) hf 1).continuous
  rw [← integral_const_mul]
  refine mono_xy (by fun_prop) (by fun_prop) ha hb.le fun x => ?_
  rw [intervalIntegral.integral_const_mul]
  exact wirtinger hb (fun y => line_y (hf.differentiable (by norm_num)) x y) (by fun_prop) (h0 x) (h1 x)

theorem bound_xx (ha : 0 < a) (hb : 0 ≤ b) (hf : ContDiff ℝ 2 f) (h0 : ∀ y, f (0, y) = 0) (h1 : ∀ y, f (a, y) = 0) :
    (Real.pi / a) ^ 4 * ∫ q in rect a b, f q ^ 2 ≤ ∫ q in rect a b, pd 0 (pd 0 f) q ^ 2 := by
  have c0 := hf.continuous
  have k := pd_cont (n := 1) hf 0
  have c1 : Continuous (pd 0 (pd 0 f)) := (pd_cont (n := 0) k 0).continuous
  rw [← integral_const_mul]
  refine mono_yx (by fun_prop) (by fun_prop) ha.le hb fun y => ?_
  rw [intervalIntegral.integral_const_mul]
  exact wirtinger2 ha (fun x => line_x (hf.differentiable (by norm_num)) x y)
    (fun x => line_x (k.differentiable (by norm_num)) x y) (by fun_prop) (h0 y) (h1 y)

theorem bound_yy (ha : 0 ≤ a) (hb : 0 < b) (hf : ContDiff ℝ 2 f) (h0 : ∀ x, f (x, 0) = 0) (h1 : ∀ x, f (x, b) = 0) :
    (Real.pi / b) ^ 4 * ∫ q in rect a b, f q ^ 2 ≤ ∫ q in rect a b, pd 1 (pd 1 f) q ^ 2 := by
  have c0 := hf.continuous
  have k := pd_cont (n := 1) hf 1
  have c1 : Continuous (pd 1 (pd 1 f)) := (pd_cont (n := 0) k 1).continuous
  rw [← integral_const_mul]
  refine mono_xy (by fun_prop) (by fun_prop) ha hb.le fun x => ?_
  rw [intervalIntegral.integral_const_mul]
  exact wirtinger2 hb (fun y => line_y (hf.differentiable (by norm_num)) x y)
    (fun y => line_y (k.differentiable (by norm_num)) x y) (by fun_prop) (h0 x) (h1 x)

theorem bound_xy (ha : 0 < a) (hb : 0 < b) (hf : ContDiff ℝ 2 f) (h0 : ∀ q, Edge a b q → f q = 0) :
    (Real.pi / a) ^ 2 * (Real.pi / b) ^ 2 * ∫ q in rect a b, f q ^ 2
      ≤ ∫ q in rect a b, pd 1 (pd 0 f) q ^ 2 := by
  have k1 := bound_x (b := b) ha hb.le (hf.of_le (by norm_num)) (fun y => h0 _ (Or.inl rfl))
    (fun y => h0 _ (Or.inr (Or.inl rfl)))
  have e := edge_x (hf.differentiable (by norm_num)) h0
  have k2 := bound_y (a := a) ha.le hb (pd_cont (n := 1) hf 0) (fun x => (e x).1) (fun x => (e x).2)
  refine le_trans ?_ k2
  rw [mul_comm ((Real.pi / a) ^ 2), mul_assoc]
  exact mul_le_mul_of_nonneg_left k1 (sq_nonneg _)

/-! ### The product of the second derivatives -/

/-- Derivative of an integral of products of increments. -/
theorem increments {F F' G : ℝ × ℝ → ℝ} (hF : ∀ x y, HasDerivAt (fun y => F (x, y)) (F' (x, y)) y)
    (hF' : Continuous F') (hG : Continuous G) (y : ℝ) :
    HasDerivAt (fun z => ∫ x in (0 : ℝ)..a, (F (x, z) - F (x, y)) * G (x, z))
      (∫ x in (0 : ℝ)..a, F' (x, y) * G (x, y)) y := by
  have e : ∀ x z, F (x, z) - F (x, y) = (z - y) * ∫ t in (0 : ℝ)..1, F' (x, y + t * (z - y)) := by
    intro x z
    have d : ∀ t ∈ Set.uIcc (0 : ℝ) 1, HasDerivAt (fun t : ℝ => F (x, y + t * (z - y)))
        (F' (x, y + t * (z - y)) * (z - y)) t := by
      intro t _
      have h1 : HasDerivAt (fun t : ℝ => y + t * (z - y)) (z - y) t :=
        (((hasDerivAt_id' t).mul_const (z - y)).const_add y).congr_deriv (one_mul _)
      exact (hF x (y + t * (z - y))).comp t h1
    have := intervalIntegral.integral_eq_sub_of_hasDerivAt d (Continuous.intervalIntegrable (by fun_prop) _ _)
    rw [intervalIntegral.integral_mul_const] at this
    rw [mul_comm, this]
    simp
  have c1 : Continuous fun p : ℝ × ℝ => ∫ t in (0 : ℝ)..1, F' (p.1, y + t * (p.2 - y)) :=
    intervalIntegral.continuous_parametric_intervalIntegral_of_continuous' (by fun_prop) 0 1
  have c2 : Continuous fun z : ℝ => ∫ x in (0 : ℝ)..a, (∫ t in (0 : ℝ)..1, F' (x, y + t * (z - y))) * G (x, z) := by
    refine intervalIntegral.continuous_parametric_intervalIntegral_of_continuous' ?_ 0 a
    have : Continuous fun p : ℝ × ℝ => ∫ t in (0 : ℝ)..1, F' (p.2, y + t * (p.1 - y)) :=
      c1.comp continuous_swap
    show Continuous fun p : ℝ × ℝ => (∫ t in (0 : ℝ)..1, F' (p.2, y + t * (p.1 - y))) * G (p.2, p.1)
    fun_prop
  have e2 : (fun z => ∫ x in (0 : ℝ)..a, (F (x, z) - F (x, y)) * G (x, z))
      = fun z => (z - y) * ∫ x in (0 : ℝ)..a, (∫ t in (0 : ℝ)..1, F' (x, y + t * (z - y))) * G (x, z) := by
    funext z
    rw [← intervalIntegral.integral_const_mul]
    congr 1
    funext x
    rw [e]; ring
  rw [e2, hasDerivAt_iff_tendsto_slope]
  have t := (c2.tendsto y).mono_left (nhdsWithin_le_nhds (s := {y}ᶜ))
  have v : (∫ x in (0 : ℝ)..a, (∫ t in (0 : ℝ)..1, F' (x, y + t * (y - y))) * G (x, y))
      = ∫ x in (0 : ℝ)..a, F' (x, y) * G (x, y) := by simp
  rw [v] at t
  refine t.congr' ?_
  filter_upwards [self_mem_nhdsWithin] with z hz
  have : z - y ≠ 0 := sub_ne_zero.2 hz
  simp only [slope, vsub_eq_sub, smul_eq_mul, sub_self, zero_mul, sub_zero]
  rw [inv_mul_cancel_left₀ this]

/-- For functions that vanish at the edges the Gaussian curvature integrates to zero. -/
theorem gauss (ha : 0 ≤ a) (hb : 0 ≤ b) (hf : ContDiff ℝ 2 f) (hg : ContDiff ℝ 2 g)
    (f0 : ∀ q, Edge a b q → f q = 0) (g0 : ∀ q, Edge a b q → g q = 0) :
    ∫ q in rect a b, pd 0 (pd 0 f) q * pd 1 (pd 1 g) q
      = ∫ q in rect a b, pd 1 (pd 0 f) q * pd 1 (pd 0 g) q := by
  have kf := pd_cont (n := 1) hf 0
  have kg := pd_cont (n := 1) hg 0
  have kg1 := pd_cont (n := 1) hg 1
  have f00 : Continuous (pd 0 (pd 0 f)) := (pd_cont (n := 0) kf 0).continuous
  have f01 : Continuous (pd 1 (pd 0 f)) := (pd_cont (n := 0) kf 1).continuous
  have g11 : Continuous (pd 1 (pd 1 g)) := (pd_cont (n := 0) kg1 1).continuous
  have g01 : Continuous (pd 1 (pd 0 g)) := (pd_cont (n := 0) kg 1).continuous
  have cf := kf.continuous
  have cg1 := kg1.continuous
  have comm : ∀ q, pd 0 (pd 1 g) q = pd 1 (pd 0 g) q := fun q =>
    pd_comm (hg.contDiffOn (s := Set.univ)) isOpen_univ (Set.mem_univ q)
  have gy := edge_y (hg.differentiable (by norm_num)) g0
  have fx := edge_x (hf.differentiable (by norm_num)) f0
  have key : ∀ y, HasDerivAt (fun z => ∫ x in (0 : ℝ)..a, pd 0 f (x, z) * pd 1 (pd 0 g) (x, z))
      ((∫ x in (0 : ℝ)..a, pd 1 (pd 0 f) (x, y) * pd 1 (pd 0 g) (x, y))
        - ∫ x in (0 : ℝ)..a, pd 1 (pd 1 g) (x, y) * pd 0 (pd 0 f) (x, y)) y := by
    intro y
    have d1 := increments (a := a) (F := pd 0 f) (F' := pd 1 (pd 0 f)) (G := pd 1 (pd 0 g))
      (fun x y => line_y (kf.differentiable (by norm_num)) x y) f01 g01 y
    have d2 := increments (a := a) (F := pd 1 g) (F' := pd 1 (pd 1 g)) (G := fun p => pd 0 (pd 0 f) (p.1, y))
      (fun x y => line_y (kg1.differentiable (by norm_num)) x y) g11 (by fun_prop) y
    have d := (d1.sub d2).add_const (∫ x in (0 : ℝ)..a, pd 0 f (x, y) * pd 1 (pd 0 g) (x, y))
    refine d.congr_of_eventuallyEq (Filter.Eventually.of_forall fun z => ?_)
    have p1 := parts (a := a) (g := fun x => pd 1 g (x, z)) (f := fun x => pd 0 f (x, y))
      (fun x => line_x (kg1.differentiable (by norm_num)) x z)
      (fun x => line_x (kf.differentiable (by norm_num)) x y)
      (by simp only [comm]; fun_prop) (by fun_prop) (by rw [(gy z).1, zero_mul]) (by rw [(gy z).2, zero_mul])
    have p2 := parts (a := a) (g := fun x => pd 1 g (x, y)) (f := fun x => pd 0 f (x, y))
      (fun x => line_x (kg1.differentiable (by norm_num)) x y)
      (fun x => line_x (kf.differentiable (by norm_num)) x y)
      (by simp only [comm]; fun_prop) (by fun_prop) (by rw [(gy y).1, zero_mul]) (by rw [(gy y).2, zero_mul])
    simp only [comm] at p1 p2
    show _ = (∫ x in (0 : ℝ)..a, (pd 0 f (x, z) - pd 0 f (x, y)) * pd 1 (pd 0 g) (x, z))
      - (∫ x in (0 : ℝ)..a, (pd 1 g (x, z) - pd 1 g (x, y)) * pd 0 (pd 0 f) (x, y)) + _
    simp only [sub_mul]
    rw [intervalIntegral.integral_sub (Continuous.intervalIntegrable (by fun_prop) _ _)
      (Continuous.intervalIntegrable (by fun_prop) _ _),
      intervalIntegral.integral_sub (Continuous.intervalIntegrable (by fun_prop) _ _)
      (Continuous.intervalIntegrable (by fun_prop) _ _), p1, p2]
    have s1 : ∀ z, ∫ x in (0 : ℝ)..a, pd 1 (pd 0 g) (x, z) * pd 0 f (x, y)
        = ∫ x in (0 : ℝ)..a, pd 0 f (x, y) * pd 1 (pd 0 g) (x, z) := by
      intro z; congr 1; funext x; ring
    rw [s1, s1]
    ring
  have c1 : Continuous fun y => ∫ x in (0 : ℝ)..a, pd 1 (pd 0 f) (x, y) * pd 1 (pd 0 g) (x, y) :=
    intervalIntegral.continuous_parametric_intervalIntegral_of_continuous' (by fun_prop) 0 a
  have c2 : Continuous fun y => ∫ x in (0 : ℝ)..a, pd 1 (pd 1 g) (x, y) * pd 0 (pd 0 f) (x, y) :=
    intervalIntegral.continuous_parametric_intervalIntegral_of_continuous' (by fun_prop) 0 a
  have t := intervalIntegral.integral_eq_sub_of_hasDerivAt (a := 0) (b := b) (fun y _ => key y)
    ((c1.sub c2).intervalIntegrable _ _)
  simp only [(fx _).1, (fx _).2, zero_mul, intervalIntegral.integral_zero, sub_zero] at t
  rw [intervalIntegral.integral_sub (c1.intervalIntegrable _ _) (c2.intervalIntegrable _ _)] at t
  rw [rect_yx (by fun_prop) ha hb, rect_yx (by fun_prop) ha hb]
  have s : ∀ y, ∫ x in (0 : ℝ)..a, pd 1 (pd 1 g) (x, y) * pd 0 (pd 0 f) (x, y)
      = ∫ x in (0 : ℝ)..a, pd 0 (pd 0 f) (x, y) * pd 1 (pd 1 g) (x, y) := by
    intro y; congr 1; funext x; ring
  simp only [s] at t
  linarith

end

end Verif.Plate
