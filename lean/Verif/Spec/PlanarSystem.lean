import Verif.Model.PlanarSystem
import Verif.Spec.ShellSystem
import Verif.Spec.ShellTangent

/-!
# Specification: a sheet with a stored energy

Independent of the model's stresses: the potential of a sheet with an energy density and dead loads,
tension, displacements without strain.
-/

namespace Verif.Spec.PlanarSystem

open Verif.Geometry Verif.PlanarSystem Verif.Planar

/-- Metric of a Jacobian. -/
def gram (K : Jac) : T2 := fun i j => ∑ d, K i d * K j d

variable {J κ : Type} [Fintype J]

/-- Stored energy, thickness times density of the metrics, minus the work of the loads. -/
noncomputable def potential (P : Problem J κ) (ψ : κ → T2 → T2 → ℝ) (x : EuclideanSpace ℝ J) : ℝ :=
  (∑ q ∈ P.Q, P.t q * ψ q (gram (P.ori q)) (gram (deformed P x q)) * P.μ q) - ∑ j, P.F j * x j

/-- The deformed sheet is not degenerate at the quadrature points. -/
def Admissible (P : Problem J κ) : Set (EuclideanSpace ℝ J) :=
  {x | ∀ q ∈ P.Q, deformed P x q 0 0 * deformed P x q 1 1 - deformed P x q 0 1 * deformed P x q 1 0 ≠ 0}

/-- The undeformed sheet is a sheet. -/
def Body (P : Problem J κ) : Prop :=
  ∀ q ∈ P.Q, P.ori q 0 0 * P.ori q 1 1 - P.ori q 0 1 * P.ori q 1 0 ≠ 0 ∧ 0 < P.t q ∧ 0 < P.μ q

/-- To first order the displacement `v` changes no lengths in the state with Jacobians `K`. -/
def NoStrain (P : Problem J κ) (K : κ → Jac) (v : J → ℝ) : Prop :=
  ∀ q ∈ P.Q, ∀ i j, ∑ d, (K q i d * (∑ k, v k * P.field q k j d) + K q j d * (∑ k, v k * P.field q k i d)) = 0

/-- No displacement other than zero is without strain. -/
def Held (P : Problem J κ) (K : κ → Jac) : Prop := ∀ v, NoStrain P K v → v = 0

/-- The tensor `(n0, n1, n2)` has no negative principal value. -/
def Tension (n : Voigt) : Prop := 0 ≤ n 0 ∧ 0 ≤ n 1 ∧ n 2 ^ 2 ≤ n 0 * n 1

/-- The energy densities of the two solids. -/
noncomputable def density : Solid → Hyper.Par → T2 → T2 → ℝ
  | .neoHooke => fun p => ShellTangent.energyNH p.mu
  | .mooneyRivlin => fun p => ShellTangent.energyMR p.c1 p.c2

/-- Positive constants. -/
def Positive : Solid → Hyper.Par → Prop
  | .neoHooke => fun p => 0 < p.mu
  | .mooneyRivlin => fun p => 0 < p.c1 ∧ 0 < p.c2

/-- Positive constants, and for a Mooney–Rivlin sheet a state in which the material does not soften in
all-round tension. -/
def Stiff : Solid → Hyper.Par → T2 → T2 → Prop
  | .neoHooke => fun p _ _ => 0 < p.mu
  | .mooneyRivlin => fun p A C => 0 < p.c1 ∧ 0 < p.c2 ∧
      (p.c1 + p.c2 * (det2 C / det2 A) ^ 2) ^ 2
        < 4 * (p.c1 ^ 2 + p.c1 * p.c2 * (∑ i, ∑ j, inv2 A i j * C i j) + p.c2 ^ 2 * (det2 C / det2 A))

end Verif.Spec.PlanarSystem
