import Verif.Model.HeldShell
import Verif.Spec.JoinedShell

/-!
# Specification: a shell held by springs

The potential of a shell whose sides are pulled to prescribed places by springs and kept from turning by torsion
springs.  A side turns by the component of its normal along the undeformed outer normal.
-/

namespace Verif.Spec.HeldShell

open V3 Verif.Geometry Verif.ShellSystem Verif.HeldShell Spec.JoinedShell

variable {J κ ι : Type} [Fintype J]

/-- Squared distance of a point of the side from its prescribed place. -/
def off (H : Holds J ι) (x : EuclideanSpace ℝ J) (q : ι) : ℝ :=
  ∑ i, (H.u0 q i + ∑ j, x j * H.u q j i - H.g q i) ^ 2

/-- Tilt of a surface at a point of a clamped side. -/
noncomputable def tilt {J ι : Type} (H : Holds J ι) (q : ι) (s : Surf) : ℝ :=
  dot (nrm s) (outer H.S q (H.S.ori q)) - dot (nrm (H.S.ori q)) (outer H.S q (H.S.ori q))

/-- Potential of the held shell: energy of the shell, springs, torsion springs, minus work of the loads. -/
noncomputable def potential (P : Problem J κ) (H : Holds J ι) (E ν t : κ → ℝ) (x : EuclideanSpace ℝ J) : ℝ :=
  Spec.ShellSystem.potential P E ν t x
    + ∑ q ∈ H.Q0, H.w0 q * (H.a0 q / 2 * off H x q * H.μ0 q)
    + ∑ q ∈ H.Q1, H.w1 q * (H.a1 q / 2 * tilt H q (H.S.surf x q) ^ 2 * H.μ1 q)

/-- Work of the stretched springs on the field of an unknown. -/
def pull (H : Holds J ι) (x : EuclideanSpace ℝ J) (j : J) : ℝ :=
  ∑ q ∈ H.Q0, H.w0 q * (H.a0 q * (∑ i, (H.u0 q i + ∑ j, x j * H.u q j i - H.g q i) * H.u q j i) * H.μ0 q)

/-- The same with springs that push instead of pull. -/
def opposite {J ι : Type} (H : Holds J ι) : Holds J ι := { H with a0 := fun q => -H.a0 q }

/-- The same with springs of `τ` times the stiffness. -/
def stiffer {J ι : Type} (H : Holds J ι) (τ : ℝ) : Holds J ι := { H with a0 := fun q => τ * H.a0 q }

/-- The same without the torsion springs: the clamped sides are hinges. -/
def hinged {J ι : Type} (H : Holds J ι) : Holds J ι := { H with a1 := fun _ => 0 }

/-- Regular states: independent tangents at the points of the shell and of the clamped sides. -/
def Admissible (P : Problem J κ) (H : Holds J ι) : Set (EuclideanSpace ℝ J) :=
  {x | x ∈ Spec.ShellSystem.Admissible P ∧ ∀ q ∈ H.Q1, Indep ((H.S.surf x q).a 0) ((H.S.surf x q).a 1)}

/-- The shell is undeformed when all unknowns vanish. -/
structure AtRest {J ι : Type} (P : Problem J κ) (H : Holds J ι) : Prop where
  shell : P.pre = P.ori
  side : H.S.pre = H.S.ori
  place : ∀ q ∈ H.Q0, H.u0 q = 0

end Verif.Spec.HeldShell
