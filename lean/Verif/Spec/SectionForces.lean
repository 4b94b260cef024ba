import Verif.Spec.Integrate
import Verif.Spec.Principal

/-! # Specification: symmetric rules and forms of in-plane tensors -/

namespace Verif.Spec.SectionForces

open Verif.Integrate

/-- A rule whose points come in pairs `ξ`, `-ξ` of equal weight (as those of Gauss). -/
def Symmetric (r : Rule) : Prop :=
  ∃ σ : Equiv.Perm (Fin r.n), ∀ j, r.ξ (σ j) = -r.ξ j ∧ r.w (σ j) = r.w j

/-- A positive definite metric. -/
structure Metric (G : T2) : Prop where
  symm : G 0 1 = G 1 0
  pos : 0 < G 0 0
  det : 0 < G 0 0 * G 1 1 - G 0 1 * G 1 0

end Verif.Spec.SectionForces
