import Mathlib.Analysis.SpecialFunctions.Integrals.Basic
import Verif.Model.Integrate

/-! # Specification: moments of a quantity through the thickness -/

namespace Verif.Integrate

open MeasureTheory

/-- `m`-th moment of `F` (a function of the true height) over a thickness `t`. -/
noncomputable def moment (t : ℝ) (m : Nat) (F : ℝ → ℝ) : ℝ :=
  ∫ z in (-(t / 2))..(t / 2), z ^ m * F z

/-- The rule integrates all monomials up to degree `d` exactly on `[-1/2, 1/2]`. -/
def Rule.Exact (r : Rule) (d : Nat) : Prop :=
  ∀ k ≤ d, (∑ j, r.w j * r.ξ j ^ k) = ∫ x in (-(1 / 2 : ℝ))..(1 / 2), x ^ k

end Verif.Integrate
