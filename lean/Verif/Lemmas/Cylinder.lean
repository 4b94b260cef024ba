import Verif.Lemmas.CylinderCalc
import Verif.Lemmas.Buckling
import Verif.Model.Cylinder

/-! # Lemmas: forces and moments of cylinders -/

namespace Verif.Cylinder

open V3 Geometry Fields MeasureTheory Verif.Variation Verif.Balance Spec.Balloon Spec.Plate Spec.Cylinder
open Verif.Balloon Verif.Plate
open Verif.Integrate (Rule)

section
variable {a b ω : ℝ} {g g' g'' : ℝ → ℝ} {v : ℝ × ℝ → V3}

theorem smooth0 (hv : SmoothOn 2 v Set.univ) (i : Fin 2) : SmoothOn 1 (vpd i v) Set.univ := hv.vpd isOpen_univ i

theorem smooth1 (hv : SmoothOn 2 v Set.univ) : SmoothOn 1 v Set.univ := hv.mono (by norm_num) le_rfl

theorem smooth00 (hv : SmoothOn 2 v Set.univ) (i j : Fin 2) : SmoothOn 0 (vpd j (vpd i v)) Set.univ :=
  (smooth0 hv i).vpd isOpen_univ j

theorem cdot {n : ℕ} {w z : ℝ × ℝ → V3} (hw : SmoothOn n w Set.univ) (hz : SmoothOn n z Set.univ) :
    Continuous fun q => dot (w q) (z q) := (dot_C hw hz).continuous

theorem int_add {f h : ℝ × ℝ → ℝ} (hf : Continuous f) (hh : Continuous h) :
    ∫ q in rect a b, (f q + h q) = (∫ q in rect a b, f q) + ∫ q in rect a b, h q :=
  integral_add (rect_integrable hf a b) (rect_integrable hh a b)

theorem int_sub {f h : ℝ × ℝ → ℝ} (hf : Continuous f) (hh : Continuous h) :
    ∫ q in rect a b, (f q - h q) = (∫ q in rect a b, f q) - ∫ q in rect a b, h q :=
  integral_sub (rect_integrable hf a b) (rect_integrable hh a b)

/-- The strain around the axis. -/
theorem parts_hoop (ha : 0 ≤ a) (hb : 0 ≤ b) (hv : SmoothOn 2 v Set.univ) (hg : ∀ x, HasDerivAt g (g' x) x)
    (hg' : Continuous g') (h : ∀ y, g a * dot (v (a, y)) (around ω (a, y)) = g 0 * dot (v (0, y)) (around ω (0, y))) :
    ∫ q in rect a b, g q.1 * dot (vpd 0 v q) (around ω q)
      = -(∫ q in rect a b, g' q.1 * dot (v q) (around ω q)) + ω * ∫ q in rect a b, g q.1 * dot (v q) (outward ω q) := by
  have cg : Continuous g := continuous_iff_continuousAt.2 fun x => (hg x).continuousAt
  have s1 := smooth1 hv
  have cP := cdot s1 (outward_smooth 1 ω)
  have cT := cdot s1 (around_smooth 1 ω)
  have ct := cdot (smooth0 hv 0) (around_smooth 1 ω)
  have := turn_x ha hb (dot_C s1 (around_smooth 1 ω)) hg hg' h
  rw [pd_T s1] at this
  rw [← this, ← integral_const_mul, ← int_add (by fun_prop) (by fun_prop)]
  refine integral_congr_ae (.of_forall fun q => ?_)
  simp only
  ring

/-- The change of curvature around the axis, for equal rotations of the ends. -/
theorem parts_turn (ha : 0 ≤ a) (hb : 0 ≤ b) (hv : SmoothOn 2 v Set.univ) (he : Ends ω a v) :
    ∫ q in rect a b, dot (vpd 0 (vpd 0 v) q) (outward ω q) = -(ω * ∫ q in rect a b, dot (vpd 0 v q) (around ω q)) := by
  have s1 := smooth0 hv 0
  have ct := cdot s1 (around_smooth 1 ω)
  have cd := cdot (smooth00 hv 0 0) (outward_smooth 0 ω)
  have := turn_x (g := fun _ => 1) (g' := fun _ => 0) ha hb (dot_C s1 (outward_smooth 1 ω)) (fun x => hasDerivAt_const x 1)
    continuous_const (fun y => by simpa using he y)
  rw [pd_P s1] at this
  simp only [one_mul, zero_mul, integral_zero, neg_zero] at this
  rw [int_add (by fun_prop) (by fun_prop), integral_const_mul] at this
  linarith

/-- The same with a weight. -/
theorem parts_curv (ha : 0 ≤ a) (hb : 0 ≤ b) (hv : Closed ω a b v) (hg : ∀ x, HasDerivAt g (g' x) x)
    (hg' : ∀ x, HasDerivAt g' (g'' x) x) (hg'' : Continuous g'') (h : g a = g 0) (h0 : g' 0 = 0) (h1 : g' a = 0) :
    ∫ q in rect a b, g q.1 * dot (vpd 0 (vpd 0 v) q) (outward ω q)
      = (∫ q in rect a b, (g'' q.1 - ω ^ 2 * g q.1) * dot (v q) (outward ω q))
        + 2 * ω * ∫ q in rect a b, g' q.1 * dot (v q) (around ω q) := by
  have cg : Continuous g := continuous_iff_continuousAt.2 fun x => (hg x).continuousAt
  have cg' : Continuous g' := continuous_iff_continuousAt.2 fun x => (hg' x).continuousAt
  have s0 := smooth1 hv.smooth
  have s1 := smooth0 hv.smooth 0
  have ct := cdot s1 (around_smooth 1 ω)
  have cW := cdot s1 (outward_smooth 1 ω)
  have cP := cdot s0 (outward_smooth 1 ω)
  have cT := cdot s0 (around_smooth 1 ω)
  have cd := cdot (smooth00 hv.smooth 0 0) (outward_smooth 0 ω)
  have e1 := turn_x ha hb (dot_C s1 (outward_smooth 1 ω)) hg cg' (fun y => by rw [h, hv.ends y])
  have e2 := turn_x ha hb (dot_C s0 (outward_smooth 1 ω)) hg' hg'' (fun y => by rw [h0, h1]; ring)
  have e3 := parts_hoop ha hb hv.smooth hg cg' (fun y => by rw [h, hv.gap y])
  rw [pd_P s1] at e1
  rw [pd_P s0] at e2
  have x1 : ∫ q in rect a b, g q.1 * (dot (vpd 0 (vpd 0 v) q) (outward ω q) + ω * dot (vpd 0 v q) (around ω q))
      = (∫ q in rect a b, g q.1 * dot (vpd 0 (vpd 0 v) q) (outward ω q))
        + ω * ∫ q in rect a b, g q.1 * dot (vpd 0 v q) (around ω q) := by
    rw [← integral_const_mul, ← int_add (by fun_prop) (by fun_prop)]
    exact integral_congr_ae (.of_forall fun q => by simp only; ring)
  have x2 : ∫ q in rect a b, g' q.1 * (dot (vpd 0 v q) (outward ω q) + ω * dot (v q) (around ω q))
      = (∫ q in rect a b, g' q.1 * dot (vpd 0 v q) (outward ω q))
        + ω * ∫ q in rect a b, g' q.1 * dot (v q) (around ω q) := by
    rw [← integral_const_mul, ← int_add (by fun_prop) (by fun_prop)]
    exact integral_congr_ae (.of_forall fun q => by simp only; ring)
  have x3 : ∫ q in rect a b, (g'' q.1 - ω ^ 2 * g q.1) * dot (v q) (outward ω q)
      = (∫ q in rect a b, g'' q.1 * dot (v q) (outward ω q))
        - ω ^ 2 * ∫ q in rect a b, g q.1 * dot (v q) (outward ω q) := by
    rw [← integral_const_mul, ← int_sub (by fun_prop) (by fun_prop)]
    exact integral_congr_ae (.of_forall fun q => by simp only; ring)
  rw [x1] at e1
  rw [x2] at e2
  rw [x3]
  linear_combination e1 - e2 - ω * e3

theorem parts_axis (ha : 0 ≤ a) (hb : 0 ≤ b) (hv : SmoothOn 2 v Set.univ) (hs : Sides ω b v) (hg : Continuous g) :
    ∫ q in rect a b, g q.1 * (vpd 1 v q).y = 0 :=
  turn_y (f := fun q => (v q).y) ha hb (contDiffOn_univ.1 (smooth1 hv).2.1) hg fun x => (hs x).1

theorem parts_side (ha : 0 ≤ a) (hb : 0 ≤ b) (hv : SmoothOn 2 v Set.univ) (hs : Sides ω b v) (hg : Continuous g) :
    ∫ q in rect a b, g q.1 * dot (vpd 1 (vpd 1 v) q) (outward ω q) = 0 := by
  have := turn_y (f := fun q => dot (vpd 1 v q) (outward ω q)) ha hb
    (dot_C (smooth0 hv 1) (outward_smooth 1 ω)) hg fun x => (hs x).2
  rwa [pd_1 (smooth0 hv 1)] at this

/-- Work of forces `n` and moments `m` with a weight that depends on the angle. -/
noncomputable def work (ω : ℝ) (g : ℝ → ℝ) (n1 n2 m1 m2 : ℝ) (v : ℝ × ℝ → V3) (q : ℝ × ℝ) : ℝ :=
  g q.1 * (n1 * dot (vpd 0 v q) (around ω q) + n2 * (vpd 1 v q).y
    - m1 * dot (vpd 0 (vpd 0 v) q) (outward ω q) - m2 * dot (vpd 1 (vpd 1 v) q) (outward ω q))

theorem work_split (hg : Continuous g) (hv : SmoothOn 2 v Set.univ) (n1 n2 m1 m2 : ℝ) :
    ∫ q in rect a b, work ω g n1 n2 m1 m2 v q
      = n1 * (∫ q in rect a b, g q.1 * dot (vpd 0 v q) (around ω q))
        + n2 * (∫ q in rect a b, g q.1 * (vpd 1 v q).y)
        - m1 * (∫ q in rect a b, g q.1 * dot (vpd 0 (vpd 0 v) q) (outward ω q))
        - m2 * ∫ q in rect a b, g q.1 * dot (vpd 1 (vpd 1 v) q) (outward ω q) := by
  have c1 := cdot (smooth0 hv 0) (around_smooth 1 ω)
  have c2 : Continuous fun q => (vpd 1 v q).y := (contDiffOn_univ.1 (smooth0 hv 1).2.1).continuous
  have c3 := cdot (smooth00 hv 0 0) (outward_smooth 0 ω)
  have c4 := cdot (smooth00 hv 1 1) (outward_smooth 0 ω)
  rw [← integral_const_mul, ← integral_const_mul, ← integral_const_mul, ← integral_const_mul,
    ← int_add (by fun_prop) (by fun_prop), ← int_sub (by fun_prop) (by fun_prop),
    ← int_sub (by fun_prop) (by fun_prop)]
  exact integral_congr_ae (.of_forall fun q => by simp only [work]; ring)

theorem work_turned (ha : 0 ≤ a) (hb : 0 ≤ b) (hv : Turned ω a b v) (n1 n2 m1 m2 : ℝ) :
    ∫ q in rect a b, work ω (fun _ => 1) n1 n2 m1 m2 v q
      = (n1 + m1 * ω) * ∫ q in rect a b, dot (vpd 0 v q) (around ω q) := by
  rw [work_split continuous_const hv.smooth]
  have e2 := parts_axis (g := fun _ => 1) ha hb hv.smooth hv.sides continuous_const
  have e4 := parts_side (g := fun _ => 1) ha hb hv.smooth hv.sides continuous_const
  have e3 := parts_turn ha hb hv.smooth hv.ends
  rw [e2, e4]
  simp only [one_mul, e3]
  ring

theorem work_closed (ha : 0 ≤ a) (hb : 0 ≤ b) (hv : Closed ω a b v) (hg : ∀ x, HasDerivAt g (g' x) x)
    (hg' : ∀ x, HasDerivAt g' (g'' x) x) (hg'' : Continuous g'') (h : g a = g 0) (h0 : g' 0 = 0) (h1 : g' a = 0)
    (n1 n2 m1 m2 : ℝ) :
    ∫ q in rect a b, work ω g n1 n2 m1 m2 v q
      = n1 * ω * (∫ q in rect a b, g q.1 * dot (v q) (outward ω q))
        - m1 * (∫ q in rect a b, (g'' q.1 - ω ^ 2 * g q.1) * dot (v q) (outward ω q))
        - (n1 + 2 * m1 * ω) * ∫ q in rect a b, g' q.1 * dot (v q) (around ω q) := by
  have cg : Continuous g := continuous_iff_continuousAt.2 fun x => (hg x).continuousAt
  have cg' : Continuous g' := continuous_iff_continuousAt.2 fun x => (hg' x).continuousAt
  rw [work_split cg hv.smooth, parts_axis ha hb hv.smooth hv.sides cg, parts_side ha hb hv.smooth hv.sides cg,
    parts_curv ha hb hv hg hg' hg'' h h0 h1,
    parts_hoop ha hb hv.smooth hg cg' (fun y => by rw [h, hv.gap y])]
  ring

/-- Displacement away from the axis. -/
theorem outward_closed : Closed ω a b (outward ω) where
  smooth := outward_smooth 2 ω
  sides := fun x => ⟨rfl, by rw [vpd1_o]; simp [dot]⟩
  ends := fun y => by simp only [vpd0_o, dot_smul_left, dot_comm (around _ _), oa, mul_zero]
  gap := fun y => by rw [oa, oa]

theorem rect_const (c : ℝ) (ha : 0 ≤ a) (hb : 0 ≤ b) : ∫ _ in rect a b, c = a * b * c := by
  rw [rect_xy continuous_const ha hb]; simp; ring

end

end Verif.Cylinder
