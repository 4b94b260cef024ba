import Verif.Model.ShellSystem
import Verif.Model.ShellTangent
import Verif.Model.PlaneSheet

/-!
# The nonlinear system of a shell of compressible hyperelastic material

The section quantities of a compressible material as a function of the deformed surface, in the form in
which `assembleVector`, `assembleMatrix` and `assemble` of the shell use them (`Model/ShellSystem`): at every
height the metrics of both bodies are formed, the thickness stretch at this height is put into the
three-dimensional stress and tangent, and the tangent is condensed.

Simplifications: those of `Model/ShellSystem`, `Model/ShellTangent` and `Model/PlaneSheet`; the thickness
stretches are a parameter, a function of the metrics at the height.
-/

namespace Verif.PlaneShell

open Verif.Geometry Verif.Integrate Verif.Balance
open Verif.ShellSystem (Problem Law)

/-- Stress and tangent at a height of a material given by its values at metrics: `_getMetric(k, z*T)`, then
`_Sij`, `_Cijkl` (`src/gsMaterialMatrixNonlinear.hpp` l.800-819, 2076-2107). -/
noncomputable def heights (M : Planar.Material) (ori : Surf) : ShellTangent.Law where
  stress z G := M.stress (Hyper.data (Gblock ori z) G)
  tangent z G := M.tangent (Hyper.data (Gblock ori z) G)

/-- Matrices `A`, `B`, `C`, `D` and vectors `N`, `M` of a thickness `t`
(`src/gsMaterialMatrixIntegrate.hpp` l.169-257, 311-323). -/
noncomputable def integrated (r : Rule) (M : Planar.Material) (t : ℝ) (ori s : Surf) : Section where
  A := ShellTangent.modulus (heights M ori) r t 0 s
  B := ShellTangent.modulus (heights M ori) r t 1 s
  C := ShellTangent.modulus (heights M ori) r t 1 s
  D := ShellTangent.modulus (heights M ori) r t 2 s
  N := ShellTangent.resultant (heights M ori) r t 0 s
  M := ShellTangent.resultant (heights M ori) r t 1 s

/-- The material of a shell. -/
noncomputable def shells {J κ : Type} (P : Problem J κ) (r : Rule) (M : κ → Planar.Material) (t : κ → ℝ) : Law κ :=
  fun q => integrated r (M q) (t q) (P.ori q)

end Verif.PlaneShell
