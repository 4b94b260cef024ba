import Verif.Model.Cylinder
import Verif.Spec.Cylinder
import Verif.Lemmas.Buckling
import Verif.Lemmas.BalloonPoint

/-! # Lemmas: circular cylinders at a point -/

namespace Verif.Cylinder

open V3 Geometry Fields MeasureTheory Verif.Variation Verif.Balance Spec.Balloon Spec.Plate Spec.Cylinder
open Verif.Balloon Verif.Plate
open Verif.Integrate (Rule)

section
variable {ρ ω ly c : ℝ}

/-- Derivatives of an arc. -/
noncomputable def arcS (ρ ω ly : ℝ) (q : ℝ × ℝ) : Surf :=
  ⟨fun i => if i = 0 then (ρ * ω) • around ω q else ⟨0, ly, 0⟩, -(ρ * ω ^ 2) • outward ω q, 0, 0⟩

theorem dsin (ω : ℝ) (q : ℝ × ℝ) : HasDerivAt (fun x => Real.sin (ω * x)) (ω * Real.cos (ω * q.1)) q.1 := by
  have := ((hasDerivAt_id' q.1).const_mul ω).sin
  exact this.congr_deriv (by ring)

theorem dcos (ω : ℝ) (q : ℝ × ℝ) : HasDerivAt (fun x => Real.cos (ω * x)) (-ω * Real.sin (ω * q.1)) q.1 := by
  have := ((hasDerivAt_id' q.1).const_mul ω).cos
  exact this.congr_deriv (by ring)

theorem pd1_fst {g : ℝ → ℝ} (hg : Differentiable ℝ fun q : ℝ × ℝ => g q.1) (q : ℝ × ℝ) :
    pd 1 (fun q => g q.1) q = 0 := pd_y hg (hasDerivAt_const q.2 (g q.1))

theorem vpd0_outward (k : ℝ) : vpd 0 (fun q => k • outward ω q) = fun q => (k * ω) • around ω q := by
  funext q
  ext
  · refine (pd_x (f := fun q => k * Real.sin (ω * q.1)) (by fun_prop) ((dsin ω q).const_mul k)).trans ?_
    simp [around]; ring
  · refine (pd_const 0 (k * 0) q).trans ?_
    simp [around]
  · refine (pd_x (f := fun q => k * Real.cos (ω * q.1)) (by fun_prop) ((dcos ω q).const_mul k)).trans ?_
    simp [around]; ring

theorem vpd0_around (k : ℝ) : vpd 0 (fun q => k • around ω q) = fun q => (-(k * ω)) • outward ω q := by
  funext q
  ext
  · refine (pd_x (f := fun q => k * Real.cos (ω * q.1)) (by fun_prop) ((dcos ω q).const_mul k)).trans ?_
    simp [outward]; ring
  · refine (pd_const 0 (k * 0) q).trans ?_
    simp [outward]
  · refine (pd_x (f := fun q => k * -Real.sin (ω * q.1)) (by fun_prop) ((dsin ω q).neg.const_mul k)).trans ?_
    simp [outward]; ring

theorem vpd1_outward (k : ℝ) : vpd 1 (fun q => k • outward ω q) = fun _ => 0 := by
  funext q
  ext
  · exact pd1_fst (g := fun x => k * Real.sin (ω * x)) (by fun_prop) q
  · exact pd_const 1 (k * 0) q
  · exact pd1_fst (g := fun x => k * Real.cos (ω * x)) (by fun_prop) q

theorem vpd1_around (k : ℝ) : vpd 1 (fun q => k • around ω q) = fun _ => 0 := by
  funext q
  ext
  · exact pd1_fst (g := fun x => k * Real.cos (ω * x)) (by fun_prop) q
  · exact pd_const 1 (k * 0) q
  · exact pd1_fst (g := fun x => k * -Real.sin (ω * x)) (by fun_prop) q

theorem vpd0_arc : vpd 0 (arc ρ ω ly c) = fun q => (ρ * ω) • around ω q := by
  funext q
  ext
  · refine (pd_x (f := fun q => ρ * Real.sin (ω * q.1)) (by fun_prop) ((dsin ω q).const_mul ρ)).trans ?_
    simp [around]; ring
  · refine (pd_x (f := fun q => ly * q.2) (by fun_prop) (hasDerivAt_const q.1 (ly * q.2))).trans ?_
    simp [around]
  · refine (pd_x (f := fun q => ρ * Real.cos (ω * q.1) + c) (by fun_prop)
      (((dcos ω q).const_mul ρ).add_const c)).trans ?_
    simp [around]; ring

theorem vpd1_arc : vpd 1 (arc ρ ω ly c) = fun _ => ⟨0, ly, 0⟩ := by
  funext q
  ext
  · exact pd1_fst (g := fun x => ρ * Real.sin (ω * x)) (by fun_prop) q
  · refine (pd_y (f := fun q => ly * q.2) (by fun_prop) ((hasDerivAt_id' _).const_mul ly)).trans ?_
    simp
  · exact pd1_fst (g := fun x => ρ * Real.cos (ω * x) + c) (by fun_prop) q

theorem jet_arc (q : ℝ × ℝ) : jet (arc ρ ω ly c) q = arcS ρ ω ly q := by
  unfold jet arcS
  simp only [vpd0_arc, vpd1_arc, vpd_const, vpd0_around, vpd1_around]
  congr 1
  · funext i
    rcases fin2_cases i with rfl | rfl
    · rw [vpd0_arc]; simp
    · rw [vpd1_arc]; simp
  · congr 1
    ring

theorem oo (ω : ℝ) (q : ℝ × ℝ) : dot (outward ω q) (outward ω q) = 1 := by
  simp only [outward, dot]; nlinarith [Real.sin_sq_add_cos_sq (ω * q.1)]

theorem aa (ω : ℝ) (q : ℝ × ℝ) : dot (around ω q) (around ω q) = 1 := by
  simp only [around, dot]; nlinarith [Real.sin_sq_add_cos_sq (ω * q.1)]

theorem oa (ω : ℝ) (q : ℝ × ℝ) : dot (outward ω q) (around ω q) = 0 := by
  simp only [around, outward, dot]; ring

theorem arc_cross (q : ℝ × ℝ) : cross ((arcS ρ ω ly q).a 0) ((arcS ρ ω ly q).a 1) = (ρ * ω * ly) • outward ω q := by
  ext <;> simp [arcS, cross, around, outward] <;> ring

theorem arc_measure (h : 0 < ρ * ω * ly) (q : ℝ × ℝ) : Variation.measure (arcS ρ ω ly q) = ρ * ω * ly := by
  rw [Variation.measure, arc_cross, V3.norm]
  have : dot ((ρ * ω * ly) • outward ω q) ((ρ * ω * ly) • outward ω q) = (ρ * ω * ly) ^ 2 := by
    have := oo ω q
    simp only [dot, smul_x, smul_y, smul_z] at this ⊢
    linear_combination (ρ * ω * ly) ^ 2 * this
  rw [this, Real.sqrt_sq h.le]

theorem arc_normal (h : 0 < ρ * ω * ly) (q : ℝ × ℝ) : normal (arcS ρ ω ly q) = outward ω q := by
  have m := arc_measure h q
  rw [Variation.measure] at m
  unfold normal normalized
  rw [m, arc_cross]
  generalize ρ * ω * ly = k at *
  ext <;> simp <;> field_simp

theorem arc_cross_ne (h : 0 < ρ * ω * ly) (q : ℝ × ℝ) :
    cross ((arcS ρ ω ly q).a 0) ((arcS ρ ω ly q).a 1) ≠ 0 := by
  intro e
  have := arc_measure h q
  rw [Variation.measure, e] at this
  rw [show V3.norm 0 = 0 by simp [V3.norm, dot]] at this
  exact h.ne this

theorem arc_Em (v : ℝ × ℝ → V3) (q : ℝ × ℝ) : EmDer (arcS ρ ω ly q) (jet v q)
    = vec3 (ρ * ω * dot (vpd 0 v q) (around ω q)) (ly * (vpd 1 v q).y)
        (ρ * ω * dot (vpd 1 v q) (around ω q) + ly * (vpd 0 v q).y) := by
  funext k
  rcases fin3_cases k with rfl | rfl | rfl <;> simp [EmDer, arcS, jet, dot] <;> ring

theorem arc_Ef (h : 0 < ρ * ω * ly) (v : ℝ × ℝ → V3) (q : ℝ × ℝ) : EfDer (arcS ρ ω ly q) (jet v q)
    = vec3 (-(dot (vpd 0 (vpd 0 v) q) (outward ω q))) (-(dot (vpd 1 (vpd 1 v) q) (outward ω q)))
        (-(2 * dot (vpd 1 (vpd 0 v) q) (outward ω q))) := by
  have n := arc_normal h q
  have v0 := var1_dot_n (arcS ρ ω ly q) (jet v q) (arc_cross_ne h q)
  rw [n] at v0
  have d1 : (arcS ρ ω ly q).d11 = -(ρ * ω ^ 2) • outward ω q := rfl
  have d2 : (arcS ρ ω ly q).d22 = 0 := rfl
  have d3 : (arcS ρ ω ly q).d12 = 0 := rfl
  have z : ∀ w : V3, dot 0 w = 0 := fun w => by simp [dot]
  have k1 : dot (-(ρ * ω ^ 2) • outward ω q) (var1 (arcS ρ ω ly q) (jet v q)) = 0 := by
    have : ∀ (k : ℝ) (x y : V3), dot (k • x) y = k * dot x y := fun k x y => by simp [dot]; ring
    rw [this, v0, mul_zero]
  funext k
  rcases fin3_cases k with rfl | rfl | rfl <;>
    simp only [EfDer, n, deriv2dot, dbl3, d1, d2, d3, k1, z, vec3_zero, vec3_one, vec3_two, add_zero] <;> rfl

theorem arc_Acov (q : ℝ × ℝ) : Acov (arcS ρ ω ly q) = ![![(ρ * ω) ^ 2, 0], ![0, ly ^ 2]] := by
  have := aa ω q
  funext i j
  rcases fin2_cases i with rfl | rfl <;> rcases fin2_cases j with rfl | rfl
  · simp [Acov, arcS]
    simp only [dot, smul_x, smul_y, smul_z] at this ⊢
    linear_combination (ρ * ω) ^ 2 * this
  · simp [Acov, arcS, dot, around]
  · simp [Acov, arcS, dot, around]
  · simp [Acov, arcS, dot]; ring

theorem arc_Bcov (h : 0 < ρ * ω * ly) (q : ℝ × ℝ) :
    Bcov (arcS ρ ω ly q) = ![![-(ρ * ω ^ 2), 0], ![0, 0]] := by
  have n := arc_normal h q
  have := oo ω q
  have d1 : (arcS ρ ω ly q).d11 = -(ρ * ω ^ 2) • outward ω q := rfl
  have d2 : (arcS ρ ω ly q).d22 = 0 := rfl
  have d3 : (arcS ρ ω ly q).d12 = 0 := rfl
  have k : dot (-(ρ * ω ^ 2) • outward ω q) (outward ω q) = -(ρ * ω ^ 2) := by
    simp only [dot, smul_x, smul_y, smul_z] at this ⊢
    linear_combination -(ρ * ω ^ 2) * this
  funext i j
  rcases fin2_cases i with rfl | rfl <;> rcases fin2_cases j with rfl | rfl <;>
    simp [Bcov, d1, d2, d3, n, k] <;> simp [dot]

end

end Verif.Cylinder
