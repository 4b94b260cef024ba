import Verif.Model.ShellSystem
import Verif.Model.TFTSection

/-!
# The system of a membrane with wrinkles

Models the residual that the version of `assembleVector` without bending assembles
(`src/gsThinShellAssembler.hpp` l.2066-2131) for a membrane in space whose material is the tension-field
wrapper around the linear material (`src/gsMaterialMatrixTFT.hpp` l.155-196).

Simplifications: as in `Model/ShellSystem` and `Model/TFTSection`; constant thickness at a point.
The principal stresses and strains at a height and the wrinkling angle found there are numbers (their
computation is in `Model/Principal`, `Model/TFTSearch`).
-/

namespace Verif.Wrinkled

open Verif.Geometry Verif.Variation Verif.Integrate Verif.ShellSystem

variable {J κ : Type} [Fintype J]

/-- The residual (`src/gsThinShellAssembler.hpp` l.2106-2110) with the membrane forces `N` at the quadrature
points. -/
noncomputable def residual (P : Problem J κ) (N : κ → Voigt) (x : EuclideanSpace ℝ J) : EuclideanSpace ℝ J :=
  WithLp.toLp 2 fun j =>
    (∑ q ∈ P.Q, internalForceMembrane (deformed P x q) (P.field q j) (N q) * P.μ q) + P.F j

/-- What the classification and the search find at a height: principal stresses, principal strains, angle. -/
structure Found where
  s0 : ℝ → ℝ
  s1 : ℝ → ℝ
  e0 : ℝ → ℝ
  e1 : ℝ → ℝ
  θ : ℝ → ℝ

/-- Stress of the wrapper at a height (`src/gsMaterialMatrixTFT.hpp` l.155-196): classification with the option
`opt`, then the stress by class; `slack` is the option `SlackMultiplier`. -/
noncomputable def stressAt (opt : Int) (slack E ν : ℝ) (ori s : Surf) (f : Found) (z : ℝ) : Outcome Voigt :=
  (TFT.tensionField opt (f.s0 z) (f.s1 z) (f.e0 z) (f.e1 z)).bind fun tf =>
    TFTSection.tftStress (TFTSection.linStress E ν ori s) (fun _ => Linear.matrix E ν (Acon ori)) slack
      (fun _ => tf) f.θ .vectorN z

/-- The membrane force (`src/gsMaterialMatrixIntegrate.hpp` l.181-223, 333-364), one component. -/
noncomputable def force (r : Rule) (opt : Int) (slack E ν t : ℝ) (ori s : Surf) (f : Found) (k : Fin 3) : Outcome ℝ :=
  TFTSection.section2 r .vectorN t fun z => (stressAt opt slack E ν ori s f z).map fun S => S k

end Verif.Wrinkled
