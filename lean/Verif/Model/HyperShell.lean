import Verif.Model.ShellSystem
import Verif.Model.ShellTangent
import Verif.Model.PlanarSystem

/-!
# The nonlinear system of a shell of hyperelastic material

The section quantities of an incompressible hyperelastic material as a function of the deformed surface,
in the form in which `assembleVector`, `assembleMatrix` and `assemble` of the shell use them
(`Model/ShellSystem`).

Simplifications: those of `Model/ShellSystem` and `Model/ShellTangent` (exact arithmetic, the zero-stress
shortcut is left out, the rule through the thickness is a parameter).
-/

namespace Verif.HyperShell

open Verif.Geometry Verif.Integrate Verif.Balance
open Verif.ShellSystem (Problem Law)
open Verif.PlanarSystem (Solid)

/-- Stress and tangent at a height: `_getMetric(k, z*T)` gives the undeformed metric there, then `_Sij`,
`_Cijkl` (`src/gsMaterialMatrixNonlinear.hpp` l.891-905, 1260-1273). -/
noncomputable def material (S : Solid) (p : Hyper.Par) (ori : Surf) : ShellTangent.Law where
  stress z G := (S.law p).stress (Hyper.data (Gblock ori z) G)
  tangent z G := (S.law p).tangent (Hyper.data (Gblock ori z) G)

/-- Matrices `A`, `B`, `C`, `D` and vectors `N`, `M` of a thickness `t`
(`src/gsMaterialMatrixIntegrate.hpp` l.169-257, 311-323). -/
noncomputable def hyperLaw (r : Rule) (S : Solid) (p : Hyper.Par) (t : ℝ) (ori s : Surf) : Section where
  A := ShellTangent.modulus (material S p ori) r t 0 s
  B := ShellTangent.modulus (material S p ori) r t 1 s
  C := ShellTangent.modulus (material S p ori) r t 1 s
  D := ShellTangent.modulus (material S p ori) r t 2 s
  N := ShellTangent.resultant (material S p ori) r t 0 s
  M := ShellTangent.resultant (material S p ori) r t 1 s

/-- The material of a shell. -/
noncomputable def solids {J κ : Type} (P : Problem J κ) (r : Rule) (S : κ → Solid) (p : κ → Hyper.Par) (t : κ → ℝ) :
    Law κ := fun q => hyperLaw r (S q) (p q) (t q) (P.ori q)

end Verif.HyperShell
