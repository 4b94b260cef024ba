import Verif.Lemmas.DPoints

/-!
# C121: the derivative of the tangent at several points

Property theorems.
-/

namespace Verif.DPoints

open Spec.DPoints

variable {P Z α : Type}

/-- C121 (partial): with the closed form (incompressible neo-Hookean) every point and height gets
its value, for any number of points and heights.  Missing: the other materials. -/
theorem C121_closed_partial (f : P → Z → α) (zs : P → List Z) (us : List P) :
    dmatrix false f zs us = .ok (expected f zs us) := by
  have := points_closed f zs us [] []
  simp only [List.length_nil, List.nil_append] at this
  simp [dmatrix, computePoints, this, Outcome.map]

/-- C121 (partial): with the numerical derivative one point with any number of heights gets its
values.  Missing: two points or more. -/
theorem C121_single_partial (f : P → Z → α) (zs : P → List Z) (u : P) :
    dmatrix true f zs [u] = .ok (expected f zs [u]) := by
  obtain ⟨c', h, _⟩ := heights_zero f u (zs u) [] []
  simp [dmatrix, points, computePoints, h, Outcome.bind, Outcome.map, expected]

/-- C121: violated with the numerical derivative.  Whatever the points and the material, as soon as
there are two points with heights, the second turn reads a column that does not exist. -/
theorem C121_numerical_violated (f : P → Z → α) (zs : P → List Z) (u v : P) (us : List P)
    (hu : zs u ≠ []) (hv : zs v ≠ []) : dmatrix true f zs (u :: v :: us) = .ub := by
  obtain ⟨c', h, h2, _⟩ := heights_zero f u (zs u) (v :: us) []
  have hc := h2 hu
  subst hc
  have hub := heights_ub f 1 v (zs v) hv [u] (by simp) (zs u |>.map (f u))
  simp only [dmatrix, points, computePoints, h, Outcome.bind, List.nil_append]
  rw [hub]
  rfl

/-- Two points with two heights each. -/
example : dmatrix false (fun (p z : Nat) => 10 * p + z) (fun _ => [1, 2]) [3, 4]
    = .ok [31, 32, 41, 42] ∧
    dmatrix true (fun (p z : Nat) => 10 * p + z) (fun _ => [1, 2]) [3] = .ok [31, 32] ∧
    dmatrix true (fun (p z : Nat) => 10 * p + z) (fun _ => [1, 2]) [3, 4] = .ub :=
  ⟨C121_closed_partial _ _ _, C121_single_partial _ _ _,
    C121_numerical_violated _ _ _ _ _ (by simp) (by simp)⟩

end Verif.DPoints
