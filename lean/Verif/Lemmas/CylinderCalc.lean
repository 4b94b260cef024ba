import Verif.Lemmas.CylinderPoint

/-! # Lemmas: integration by parts on a cylinder -/

namespace Verif.Cylinder

open V3 Geometry Fields MeasureTheory Spec.Balloon Spec.Plate Spec.Cylinder Verif.Balloon Verif.Plate

section
variable {a b ω : ℝ} {g g' g'' : ℝ → ℝ}

theorem turn_x (ha : 0 ≤ a) (hb : 0 ≤ b) {f : ℝ × ℝ → ℝ} (hf : ContDiff ℝ 1 f) (hg : ∀ x, HasDerivAt g (g' x) x)
    (hg' : Continuous g') (h : ∀ y, g a * f (a, y) = g 0 * f (0, y)) :
    ∫ q in rect a b, g q.1 * pd 0 f q = -∫ q in rect a b, g' q.1 * f q := by
  have cg : Continuous g := continuous_iff_continuousAt.2 fun x => (hg x).continuousAt
  have cd : Continuous (pd 0 f) := (pd_cont (n := 0) hf 0).continuous
  have cf := hf.continuous
  rw [rect_yx (by fun_prop) ha hb, rect_yx (by fun_prop) ha hb, ← intervalIntegral.integral_neg]
  congr 1
  funext y
  have := intervalIntegral.integral_mul_deriv_eq_deriv_mul (a := 0) (b := a) (fun x _ => hg x)
    (fun x _ => line_x (hf.differentiable (by norm_num)) x y) (hg'.intervalIntegrable _ _)
    (Continuous.intervalIntegrable (by fun_prop) _ _)
  rw [this, h]; ring

theorem turn_y (ha : 0 ≤ a) (hb : 0 ≤ b) {f : ℝ × ℝ → ℝ} (hf : ContDiff ℝ 1 f) (hg : Continuous g)
    (h : ∀ x, f (x, b) = f (x, 0)) : ∫ q in rect a b, g q.1 * pd 1 f q = 0 := by
  have cd : Continuous (pd 1 f) := (pd_cont (n := 0) hf 1).continuous
  rw [rect_xy (by fun_prop) ha hb]
  have : ∀ x, ∫ y in (0 : ℝ)..b, g x * pd 1 f (x, y) = 0 := by
    intro x
    rw [intervalIntegral.integral_const_mul,
      intervalIntegral.integral_eq_sub_of_hasDerivAt (f := fun y => f (x, y))
        (fun y _ => line_y (hf.differentiable (by norm_num)) x y) (Continuous.intervalIntegrable (by fun_prop) _ _),
      h, sub_self, mul_zero]
  simp [this]

variable {v : ℝ × ℝ → V3}

theorem outward_smooth (n : ℕ) (ω : ℝ) : SmoothOn n (outward ω) Set.univ := by
  refine ⟨?_, contDiffOn_const, ?_⟩
  · show ContDiffOn ℝ n (fun q : ℝ × ℝ => Real.sin (ω * q.1)) Set.univ
    fun_prop
  · show ContDiffOn ℝ n (fun q : ℝ × ℝ => Real.cos (ω * q.1)) Set.univ
    fun_prop

theorem around_smooth (n : ℕ) (ω : ℝ) : SmoothOn n (around ω) Set.univ := by
  refine ⟨?_, contDiffOn_const, ?_⟩
  · show ContDiffOn ℝ n (fun q : ℝ × ℝ => Real.cos (ω * q.1)) Set.univ
    fun_prop
  · show ContDiffOn ℝ n (fun q : ℝ × ℝ => -Real.sin (ω * q.1)) Set.univ
    fun_prop

theorem one_smul' (x : V3) : (1 : ℝ) • x = x := by ext <;> simp

theorem vpd0_o : vpd 0 (outward ω) = fun q => ω • around ω q := by
  have := vpd0_outward (ω := ω) 1
  simp only [one_smul'] at this
  simpa using this

theorem vpd0_a : vpd 0 (around ω) = fun q => (-ω) • outward ω q := by
  have := vpd0_around (ω := ω) 1
  simp only [one_smul'] at this
  simpa using this

theorem vpd1_o : vpd 1 (outward ω) = fun _ => 0 := by
  have := vpd1_outward (ω := ω) 1
  simp only [one_smul'] at this
  simpa using this

theorem vpd1_a : vpd 1 (around ω) = fun _ => 0 := by
  have := vpd1_around (ω := ω) 1
  simp only [one_smul'] at this
  simpa using this

theorem dot_smul' (k : ℝ) (x y : V3) : dot x (k • y) = k * dot x y := by simp [dot]; ring

theorem dot_zero' (x : V3) : dot x 0 = 0 := by simp [dot]

/-- Derivatives of the components. -/
theorem pd_P {w : ℝ × ℝ → V3} (hw : SmoothOn 1 w Set.univ) :
    pd 0 (fun q => dot (w q) (outward ω q)) = fun q => dot (vpd 0 w q) (outward ω q) + ω * dot (w q) (around ω q) := by
  funext q
  rw [pd_dot (hw.diffAt (by norm_num) isOpen_univ trivial)
    ((outward_smooth 1 ω).diffAt (by norm_num) isOpen_univ trivial), vpd0_o, dot_smul']

theorem pd_T {w : ℝ × ℝ → V3} (hw : SmoothOn 1 w Set.univ) :
    pd 0 (fun q => dot (w q) (around ω q)) = fun q => dot (vpd 0 w q) (around ω q) - ω * dot (w q) (outward ω q) := by
  funext q
  rw [pd_dot (hw.diffAt (by norm_num) isOpen_univ trivial)
    ((around_smooth 1 ω).diffAt (by norm_num) isOpen_univ trivial), vpd0_a, dot_smul']
  ring

theorem pd_1 {w : ℝ × ℝ → V3} (hw : SmoothOn 1 w Set.univ) :
    pd 1 (fun q => dot (w q) (outward ω q)) = fun q => dot (vpd 1 w q) (outward ω q) := by
  funext q
  rw [pd_dot (hw.diffAt (by norm_num) isOpen_univ trivial)
    ((outward_smooth 1 ω).diffAt (by norm_num) isOpen_univ trivial), vpd1_o, dot_zero', add_zero]

theorem dot_C {n : ℕ} {w z : ℝ × ℝ → V3} (hw : SmoothOn n w Set.univ) (hz : SmoothOn n z Set.univ) :
    ContDiff ℝ n fun q => dot (w q) (z q) := contDiffOn_univ.1 (hw.dot hz)

end

end Verif.Cylinder
