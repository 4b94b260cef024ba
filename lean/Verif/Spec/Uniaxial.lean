import Verif.Spec.PatchTest
import Mathlib.Algebra.BigOperators.Group.Finset.Basic

/-!
# Specification: the boundary value problem of the uniaxial tension test

Unit square, no displacement along `x` on the left side, prescribed displacement along `x` on the right side,
no displacement along `y` on the lower side (`unittests/gsThinShellAssembler_test.cpp` l.521-530), independent of
the model.
-/

namespace Verif.Spec.Uniaxial

open V3 Fields Spec.Balloon Spec.Plate Spec.PatchTest

/-- Regular parametrisation of the unit square that maps every side of the parameter square to the side of the
same name. -/
structure Square (X : ℝ × ℝ → V3) : Prop where
  sheet : Sheet 1 1 X
  west : ∀ s ∈ Set.Icc (0 : ℝ) 1, (X (0, s)).x = 0
  east : ∀ s ∈ Set.Icc (0 : ℝ) 1, (X (1, s)).x = 1
  south : ∀ s ∈ Set.Icc (0 : ℝ) 1, (X (s, 0)).y = 0
  north : ∀ s ∈ Set.Icc (0 : ℝ) 1, (X (s, 1)).y = 1

/-- The sides of the square are stretched by `x` and `y`. -/
def stretch (x y : ℝ) (i : Fin 2) : V3 := if i = 0 then ⟨x, 0, 0⟩ else ⟨0, y, 0⟩

/-- Test functions that respect the supports. -/
structure Test (v : ℝ × ℝ → V3) : Prop where
  smooth : SmoothOn 2 v Set.univ
  plane : ∀ q, (v q).z = 0
  west : ∀ s ∈ Set.Icc (0 : ℝ) 1, (v (0, s)).x = 0
  east : ∀ s ∈ Set.Icc (0 : ℝ) 1, (v (1, s)).x = 0
  south : ∀ s ∈ Set.Icc (0 : ℝ) 1, (v (s, 0)).y = 0

/-- The functions `l` of the basis `φ` are those of the right side: they add up to one there and vanish on the
left side. -/
structure East (φ : ℕ → ℝ × ℝ → ℝ) (l : List ℕ) : Prop where
  smooth : ∀ i, ContDiff ℝ 2 (φ i)
  one : ∀ s ∈ Set.Icc (0 : ℝ) 1, ∑ i ∈ l.toFinset, φ i (1, s) = 1
  far : ∀ i ∈ l, ∀ s ∈ Set.Icc (0 : ℝ) 1, φ i (0, s) = 0

/-- The function `φ` in component `c`. -/
def field (φ : ℝ × ℝ → ℝ) (c : ℕ) (q : ℝ × ℝ) : V3 := if c = 0 then ⟨φ q, 0, 0⟩ else ⟨0, φ q, 0⟩

/-- Stress of the test from the boundary force: thickness `t`, lateral stretch `y`, stretch `z` through the
thickness (`unittests/gsThinShellAssembler_test.cpp` l.651-653). -/
noncomputable def stress (t y z : ℝ) (F : ℕ → ℝ) : ℝ := -(F 0 + F 1) / (t * y * z)

end Verif.Spec.Uniaxial
