import Mathlib.Analysis.InnerProductSpace.Basic

/-!
# Specification: critical load factors

The stiffness `K0` of the unloaded structure plus `s` times its change `G` under a load.
-/

namespace Verif.Spec.BucklingProgram

open RealInnerProductSpace

variable {V : Type} [NormedAddCommGroup V] [InnerProductSpace ℝ V]

/-- At `s` times the load some displacement meets no resistance. -/
def Critical (K0 G : V →L[ℝ] V) (s : ℝ) : Prop := ∃ v, v ≠ 0 ∧ K0 v + s • G v = 0

/-- At `s` times the load the structure resists every displacement. -/
def Stable (K0 G : V →L[ℝ] V) (s : ℝ) : Prop := ∀ v, v ≠ 0 → 0 < ⟪K0 v + s • G v, v⟫

/-- Positive definite. -/
def Stiff (K : V →L[ℝ] V) : Prop := ∀ v, v ≠ 0 → 0 < ⟪K v, v⟫

end Verif.Spec.BucklingProgram
