import Verif.Model.Solve
import Mathlib.Analysis.Calculus.FDeriv.Basic

/-! # Specification: Newton's method -/

namespace Verif.Spec.Solve

open Verif.Solve

variable {V : Type} [NormedAddCommGroup V] [NormedSpace ℝ V]

/-- Everywhere in `D` both functions succeed, with values `R` and `K`. -/
structure Assembles (s : Sys V) (R : V → V) (K : V → V →L[ℝ] V) (D : Set V) : Prop where
  residual : ∀ x ∈ D, s.residual x = some (R x)
  jacobian : ∀ x ∈ D, s.jacobian x = some (K x)

/-- The matrices are minus the derivatives of the residual up to an error `ε`, and change with constant `L`. -/
structure Tangent (R : V → V) (R' K : V → V →L[ℝ] V) (D : Set V) (L ε : ℝ) : Prop where
  deriv : ∀ x ∈ D, HasFDerivAt R (R' x) x
  close : ∀ x ∈ D, ∀ y ∈ D, ‖R' y + K x‖ ≤ L * ‖y - x‖ + ε

/-- The solver solves. -/
def Exact (solve : (V →L[ℝ] V) → V → V) (m : V →L[ℝ] V) : Prop := ∀ r, m (solve m r) = r

/-- The linear maps met have inverses of norm at most `β`. -/
def Inverse (solve : (V →L[ℝ] V) → V → V) (m : V →L[ℝ] V) (β : ℝ) : Prop :=
  ∀ r, m (solve m r) = r ∧ ∀ x, ‖x‖ ≤ β * ‖m x‖

end Verif.Spec.Solve
