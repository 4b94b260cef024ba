import Verif.Model.LoadedShell
import Verif.Spec.ShellSystem
import Mathlib.Analysis.Calculus.Gradient.Basic

/-!
# Specification: a shell with pressure on an elastic foundation

Independent of the expressions of the assembler: the force of the pressure is `p n` per undeformed area with
the unit normal of the deformed surface, the foundation pulls back with `-k u`.
-/

namespace Verif.Spec.LoadedShell

open V3 Verif.Geometry Verif.Variation Verif.ShellSystem Verif.LoadedShell

variable {J κ : Type} [Fintype J]

/-- Force of a foundation of stiffness `k` per undeformed area. -/
def pull (k u : V3) : V3 := ⟨-(k.x * u.x), -(k.y * u.y), -(k.z * u.z)⟩

/-- Balance of forces: the work of dead loads, pressure and foundation on the field of an unknown, plus the
one of the internal forces. -/
noncomputable def balance (P : Problem J κ) (B : Loads J κ) (law : Law κ) (x : EuclideanSpace ℝ J) :
    EuclideanSpace ℝ J :=
  WithLp.toLp 2 fun j => ShellSystem.residual P law x j
    + ∑ q ∈ P.Q, dot (B.val q j) (B.p q • unitNormal ((deformed P x q).a 0) ((deformed P x q).a 1)
      + pull (B.k q) (B.pre q + Balance.vsum Finset.univ fun j => x j • B.val q j)) * P.μ q

/-- Stiffness of the foundation. -/
noncomputable def springs (P : Problem J κ) (B : Loads J κ) (j j' : J) : ℝ :=
  -∑ q ∈ P.Q, dot (B.val q j) (pull (B.k q) (B.val q j')) * P.μ q

/-- The same loads with the opposite foundation. -/
def opposite (B : Loads J κ) : Loads J κ := { B with k := fun q => -B.k q }

/-- No foundation. -/
def NoFoundation (P : Problem J κ) (B : Loads J κ) : Prop := ∀ q ∈ P.Q, B.k q = 0

/-- The residual is the gradient of some function near `x`. -/
def Conservative (R : EuclideanSpace ℝ J → EuclideanSpace ℝ J) (x : EuclideanSpace ℝ J) : Prop :=
  ∃ Φ : EuclideanSpace ℝ J → ℝ, ∀ᶠ y in nhds x, HasGradientAt Φ (-R y) y

end Verif.Spec.LoadedShell
