import Verif.Spec.Plate
import Mathlib.Analysis.Calculus.Deriv.Basic

/-!
# Specification: the patch test

A flat sheet with an arbitrary parametrisation, an affine deformation, and the tractions at its boundary,
independent of the model.
-/

namespace Verif.Spec.PatchTest

open V3 Fields Spec.Balloon Spec.Plate

/-- Regular parametrisation of a part of the plane `z = 0` by a rectangle. -/
structure Sheet (a b : ℝ) (X : ℝ × ℝ → V3) : Prop where
  smooth : SmoothOn 2 X Set.univ
  plane : ∀ q, (X q).z = 0
  regular : ∀ q ∈ rect a b,
    (vpd 0 X q).x * (vpd 1 X q).y - (vpd 0 X q).y * (vpd 1 X q).x ≠ 0

/-- Affine deformation of the sheet: the edges of the unit square become `f 0` and `f 1`. -/
def affine (f : Fin 2 → V3) (c : V3) (X : ℝ × ℝ → V3) (q : ℝ × ℝ) : V3 :=
  c + ((X q).x • f 0 + (X q).y • f 1)

/-- Unit outer normal, in the plane of the sheet, at the point `q` of a side where parameter `i` is constant
and `e` times this parameter grows outwards. -/
structure Outer (X : ℝ × ℝ → V3) (i : Fin 2) (e : ℝ) (q : ℝ × ℝ) (n : V3) : Prop where
  plane : n.z = 0
  unit : dot n n = 1
  perp : dot n (vpd (1 - i) X q) = 0
  out : 0 < e * dot n (vpd i X q)

/-- Traction on the line with normal `n` in the undeformed sheet, for the tractions `T 0`, `T 1` on the lines
with normals along `x` and `y`. -/
def traction (T : Fin 2 → V3) (n : V3) : V3 := n.x • T 0 + n.y • T 1

/-- `g i e` is the traction on the side where parameter `i` is maximal (`e`) or minimal. -/
structure Loaded (a b : ℝ) (X : ℝ × ℝ → V3) (T : Fin 2 → V3) (g : Fin 2 → Bool → ℝ × ℝ → V3) : Prop where
  east : ∀ y ∈ Set.Icc 0 b, ∀ n, Outer X 0 1 (a, y) n → g 0 true (a, y) = traction T n
  west : ∀ y ∈ Set.Icc 0 b, ∀ n, Outer X 0 (-1) (0, y) n → g 0 false (0, y) = traction T n
  north : ∀ x ∈ Set.Icc 0 a, ∀ n, Outer X 1 1 (x, b) n → g 1 true (x, b) = traction T n
  south : ∀ x ∈ Set.Icc 0 a, ∀ n, Outer X 1 (-1) (x, 0) n → g 1 false (x, 0) = traction T n

/-- `T` is the derivative of the energy `W` per unit undeformed area with respect to the deformation. -/
def IsPiola (W : (Fin 2 → V3) → ℝ) (f T : Fin 2 → V3) : Prop :=
  ∀ (k : Fin 2) (d : V3), HasDerivAt (fun τ : ℝ => W fun i => if i = k then f i + τ • d else f i) (dot (T k) d) 0

/-- Energy per unit area of a linear material in plane stress: Young's modulus `E`, Poisson's ratio `ν`,
thickness `t`, Green strains of the deformation. -/
noncomputable def energyLinear (E ν t : ℝ) (f : Fin 2 → V3) : ℝ :=
  let e1 := (dot (f 0) (f 0) - 1) / 2;
  let e2 := (dot (f 1) (f 1) - 1) / 2;
  let e3 := dot (f 0) (f 1) / 2;
  t * E / (2 * (1 - ν ^ 2)) * (e1 ^ 2 + e2 ^ 2 + 2 * ν * e1 * e2 + 2 * (1 - ν) * e3 ^ 2)

/-- First invariant of the deformation in the plane. -/
def inv1 (f : Fin 2 → V3) : ℝ := dot (f 0) (f 0) + dot (f 1) (f 1)

/-- Square of the change of area. -/
def area2 (f : Fin 2 → V3) : ℝ := dot (f 0) (f 0) * dot (f 1) (f 1) - dot (f 0) (f 1) ^ 2

/-- Incompressible neo-Hookean sheet. -/
noncomputable def energyNeo (μ t : ℝ) (f : Fin 2 → V3) : ℝ := t * (μ / 2 * (inv1 f + 1 / area2 f - 3))

/-- Incompressible Mooney–Rivlin sheet. -/
noncomputable def energyMooney (c1 c2 t : ℝ) (f : Fin 2 → V3) : ℝ :=
  t * (c1 / 2 * (inv1 f + 1 / area2 f - 3) + c2 / 2 * (inv1 f / area2 f + area2 f - 3))

end Verif.Spec.PatchTest
