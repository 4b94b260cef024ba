import Verif.Model.Tensor

/-! # Specification: change of the unit of length -/

namespace Verif.Spec.Shortcut

/-- The covariant metric of a geometry all of whose lengths are multiplied by `L`. -/
def scaled (L : ℝ) (A : T2) : T2 := fun i j => L ^ 2 * A i j

/-- A stress law, given by contravariant components for the undeformed metric and the deformed
metric, does not depend on the unit of length at the pair `A`, `C` and the factor `L`: base vectors
become `L` times as long, so that the components of the same stress tensor are divided by `L²`. -/
def UnitFree (S : T2 → T2 → Fin 2 → Fin 2 → ℝ) (L : ℝ) (A C : T2) : Prop :=
  ∀ i j, S (scaled L A) (scaled L C) i j = S A C i j / L ^ 2

end Verif.Spec.Shortcut
