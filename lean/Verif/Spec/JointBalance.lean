import Verif.Model.JointBalance
import Verif.Spec.Balance
import Verif.Spec.Geometry

/-! # Specification notions: rigid motions of joined patches, matching sides -/

namespace Verif.JointBalance

open V3 Verif.Geometry Verif.Variation Verif.WeakForms Verif.Balance

variable {ι ι' κ : Type}

/-- A rigid motion of the deformed patch: every control point is rotated and shifted. -/
def Patch.moved (A : Patch ι κ) (R : Rotation) (b : V3) : Patch ι κ :=
  { A with P := fun i => R.act (A.P i) + b }

/-- The patch at rest: no control point has been displaced. -/
def Patch.atRest (A : Patch ι κ) : Patch ι κ := { A with P := A.P0 }

/-- Place of the undeformed edge at a point. -/
def Patch.place0 (A : Patch ι κ) (q : κ) : V3 := position A.I A.P0 (A.φ q)

/-- Place of the deformed edge at a point. -/
def Patch.place (A : Patch ι κ) (q : κ) : V3 := position A.I A.P (A.φ q)

/-- The undeformed patches meet at the quadrature points. -/
def Meet (D : Penalty κ) (A : Patch ι κ) (B : Patch ι' κ) : Prop := ∀ q ∈ D.Q, A.place0 q = B.place0 q

/-- The basis functions of a patch sum to one at the quadrature points. -/
def Unity (D : Penalty κ) (A : Patch ι κ) : Prop := ∀ q ∈ D.Q, PartitionOfUnity A.I (A.φ q)

/-- The deformed patch is regular at the quadrature points and the edge has an orientation. -/
def Regular (D : Penalty κ) (A : Patch ι κ) : Prop :=
  ∀ q ∈ D.Q, Indep ((surface A.I A.P (A.φ q)).a 0) ((surface A.I A.P (A.φ q)).a 1) ∧ (A.σ q = 1 ∨ A.σ q = -1)

/-- The undeformed patch is regular at the quadrature points and the edge has an orientation. -/
def Regular0 (D : Penalty κ) (A : Patch ι κ) : Prop :=
  ∀ q ∈ D.Q, Indep ((surface A.I A.P0 (A.φ q)).a 0) ((surface A.I A.P0 (A.φ q)).a 1) ∧ (A.σ q = 1 ∨ A.σ q = -1)

/-- Velocity of an infinitesimal rigid motion at a place. -/
def velocity (b ω x : V3) : V3 := b + cross ω x

end Verif.JointBalance
