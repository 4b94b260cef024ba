import Verif.Model.HyperShell
import Verif.Spec.ShellSystem
import Verif.Spec.ShellTangent

/-!
# Specification: what the third fundamental form adds

Independent of the assembled tangent: the states in which neither body is degenerate, the rate of the third
fundamental form, the forces that it causes through the metric at a height.
-/

namespace Verif.Spec.HyperShell

open V3 Verif.Geometry Verif.Variation Verif.Integrate Verif.ShellSystem Spec.ShellTangent

variable {J κ : Type} [Fintype J]

/-- The tangents of the deformed surface are independent, and at the heights of the rule neither body is
degenerate. -/
def States (P : Problem J κ) (r : Rule) (t : κ → ℝ) : Set (EuclideanSpace ℝ J) :=
  {x | ∀ q ∈ P.Q, Indep ((deformed P x q).a 0) ((deformed P x q).a 1) ∧
    Regular r (t q) (P.ori q) (deformed P x q)}

/-- Rate of the third fundamental form of `s` moved along `v`. -/
noncomputable def thirdRate (s v : Surf) : T2 := fun i j =>
  deriv (fun τ => dot (ncov (shift s v τ) i) (ncov (shift s v τ) j)) 0

/-- Work on the strains of the field `u` of the stresses that the rate of the third fundamental form of a
motion along `v` causes through `z²` in the metric at height `z`; `L` is the material. -/
noncomputable def thirdWork (L : ShellTangent.Law) (r : Rule) (t : ℝ) (s u v : Surf) : ℝ :=
  ∑ k, ∑ l, (EmDer s u k * ShellTangent.modulus L r t 2 s k l
    + EfDer s u k * ShellTangent.modulus L r t 3 s k l) * half (thirdRate s v) l

/-- The same, integrated over the shell, for two unknowns. -/
noncomputable def third (P : Problem J κ) (L : κ → ShellTangent.Law) (r : Rule) (t : κ → ℝ) (x : EuclideanSpace ℝ J)
    (j j' : J) : ℝ :=
  ∑ q ∈ P.Q, thirdWork (L q) r (t q) (deformed P x q) (P.field q j) (P.field q j') * P.μ q

end Verif.Spec.HyperShell
