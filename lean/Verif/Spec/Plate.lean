import Verif.Spec.Balloon
import Mathlib.Analysis.SpecialFunctions.Trigonometric.Basic

/-!
# Specification: the rectangular plate

Flat plate, supports, Navier's modes and frequencies, independent of the model.
-/

namespace Verif.Spec.Plate

open V3 Spec.Balloon

/-- Parameters of the plate. -/
def rect (a b : ℝ) : Set (ℝ × ℝ) := Set.Icc 0 a ×ˢ Set.Icc 0 b

/-- The flat plate, parametrised by its coordinates. -/
def plate (q : ℝ × ℝ) : V3 := ⟨q.1, q.2, 0⟩

/-- On the boundary of the rectangle. -/
def Edge (a b : ℝ) (q : ℝ × ℝ) : Prop := q.1 = 0 ∨ q.1 = a ∨ q.2 = 0 ∨ q.2 = b

/-- Simply supported: smooth, no deflection at the edges (in-plane displacements are free). -/
def Supported (a b : ℝ) (v : ℝ × ℝ → V3) : Prop :=
  SmoothOn 2 v Set.univ ∧ ∀ q, Edge a b q → (v q).z = 0

/-- Pinned: smooth, no displacement at the edges. -/
def Pinned (a b : ℝ) (v : ℝ × ℝ → V3) : Prop := SmoothOn 2 v Set.univ ∧ ∀ q, Edge a b q → v q = 0

/-- Navier's mode with `m` and `n` half waves. -/
noncomputable def mode (a b : ℝ) (m n : ℕ) (q : ℝ × ℝ) : V3 :=
  ⟨0, 0, Real.sin (m * Real.pi / a * q.1) * Real.sin (n * Real.pi / b * q.2)⟩

/-- Frequency of the unit tests (`unittests/gsThinShellAssembler_test.cpp` l.901-906). -/
noncomputable def omega (E ν ρ t : ℝ) (m n : ℕ) : ℝ :=
  let D := E * t ^ 3 / (12 * (1 - ν ^ 2));
  ((m / 1) ^ 2 + (n / 1) ^ 2) * Real.pi ^ 2 * √(D / (ρ * t))

/-- Stiffness of an orthotropic plate in a Navier mode. -/
noncomputable def navier (D : T3) (a b : ℝ) (m n : ℕ) : ℝ :=
  let α := m * Real.pi / a;
  let β := n * Real.pi / b;
  D 0 0 * α ^ 4 + (D 0 1 + D 1 0 + 4 * D 2 2) * α ^ 2 * β ^ 2 + D 1 1 * β ^ 4

end Verif.Spec.Plate
