import Verif.Model.JoinedShell
import Verif.Spec.ShellSystem
import Verif.Spec.WeakForms

/-!
# Specification: patches joined by springs

The potential of shell patches held together along interfaces by elastic springs: the springs resist the
gap between the patches and every change of the angles between them.  Angles are those between the
normals, and between the outer normal of one side and the normal of the other (both in the tangent and
normal vectors of `Spec/Variation`).
-/

namespace Verif.Spec.JoinedShell

open V3 Verif.Geometry Verif.Variation Verif.ShellSystem Verif.JoinedShell Verif.WeakForms

variable {J κ ι : Type} [Fintype J]

/-- Outer normal of an edge with tangent `σ a_c`. -/
noncomputable def outer {J ι : Type} (S : Edge J ι) (q : ι) (s : Surf) : V3 :=
  cross (unitVec (S.σ q • s.a (S.c q))) (unitNormal (s.a 0) (s.a 1))

/-- Unit normal of a surface. -/
noncomputable def nrm (s : Surf) : V3 := unitNormal (s.a 0) (s.a 1)

/-- Squared gap between the two sides. -/
def gap (G : Joins J ι) (x : EuclideanSpace ℝ J) (q : ι) : ℝ :=
  ∑ i, ((G.gL q i + ∑ j, x j * G.uL q j i) - (G.gR q i + ∑ j, x j * G.uR q j i)) ^ 2

/-- Squared changes of the angles: the one between the normals counts twice. -/
noncomputable def twist {J ι : Type} (G : Joins J ι) (q : ι) (sL sR : Surf) : ℝ :=
  2 * (dot (nrm sL) (nrm sR) - dot (nrm (G.L.ori q)) (nrm (G.R.ori q))) ^ 2
    + (dot (outer G.L q sL) (nrm sR) - dot (outer G.L q (G.L.ori q)) (nrm (G.R.ori q))) ^ 2
    + (dot (outer G.R q sR) (nrm sL) - dot (outer G.R q (G.R.ori q)) (nrm (G.L.ori q))) ^ 2

/-- Potential of the joined shell: energy of the patches, springs, minus work of the loads. -/
noncomputable def potential (P : Problem J κ) (G : Joins J ι) (E ν t : κ → ℝ) (x : EuclideanSpace ℝ J) : ℝ :=
  Spec.ShellSystem.potential P E ν t x
    + ∑ q ∈ G.Q0, G.w0 q * (G.a0 q / 2 * gap G x q * G.μ0 q)
    + ∑ q ∈ G.Q1, G.w1 q * (G.a1 q / 2 * twist G q (G.L.surf x q) (G.R.surf x q) * G.μ1 q)

/-- Regular states: independent tangents at the points of the patches and on both sides of the interfaces. -/
def Admissible (P : Problem J κ) (G : Joins J ι) : Set (EuclideanSpace ℝ J) :=
  {x | x ∈ Spec.ShellSystem.Admissible P ∧ ∀ q ∈ G.Q1,
    Indep ((G.L.surf x q).a 0) ((G.L.surf x q).a 1) ∧ Indep ((G.R.surf x q).a 0) ((G.R.surf x q).a 1)}

/-- The signs of the tangents are signs. -/
def Signs {J ι : Type} (G : Joins J ι) : Prop :=
  ∀ q ∈ G.Q1, (G.L.σ q = 1 ∨ G.L.σ q = -1) ∧ (G.R.σ q = 1 ∨ G.R.σ q = -1)

/-- The angles between outer normals and normals are those of the undeformed shell. -/
def Unfolded {J ι : Type} (G : Joins J ι) (q : ι) (sL sR : Surf) : Prop :=
  dot (outer G.L q sL) (nrm sR) = dot (outer G.L q (G.L.ori q)) (nrm (G.R.ori q)) ∧
    dot (outer G.R q sR) (nrm sL) = dot (outer G.R q (G.R.ori q)) (nrm (G.L.ori q))

end Verif.Spec.JoinedShell
