import Verif.Model.TFT
import Verif.Model.Integrate
import Verif.Model.Geometry

/-!
# Section quantities of the tension-field material

Models how stresses and stiffnesses of the tension-field wrapper are evaluated at the two heights
`±1/2` and integrated through the thickness.

Simplifications: one point; the tension-field value and the wrinkling angle at each height are
parameters (their computation is in `Model/TFT` and `Model/RootFind`); constant thickness `t`.
-/

namespace Verif.TFTSection

open Verif.Geometry Verif.Integrate
open Verif.Linear (Output StrainKind strainKind)

/-- The strain selected by `_E` (`src/gsMaterialMatrixLinear.hpp` l.593-626). -/
noncomputable def linStrain (ori defo : Surf) (z : ℝ) : StrainKind → T2
  | .membrane => membraneStrain ori defo
  | .bending => bendingStrain ori defo
  | .full => strainAt ori defo z

/-- `eval3D_stress` of the linear material with output kind `o` at the height `z`
(`src/gsMaterialMatrixLinear.hpp` l.460-493). -/
noncomputable def linStress (E ν : ℝ) (ori defo : Surf) (o : Output) (z : ℝ) : Outcome Voigt :=
  (strainKind o).map fun k => Linear.stress E ν (Acon ori) (linStrain ori defo z k)

/-- `eval3D_stress` and `eval3D_vector` of the wrapper: whatever the kind asked for, the stress of
the wrapped material is asked for with the kind `VectorN`
(`src/gsMaterialMatrixTFT.hpp` l.55-58, 155-196). -/
noncomputable def tftStress (inner : Output → ℝ → Outcome Voigt) (C : ℝ → T3) (slack : ℝ)
    (tf : ℝ → Int) (θ : ℝ → ℝ) (_o : Output) (z : ℝ) : Outcome Voigt :=
  (inner .vectorN z).bind fun S => TFT.evalStress (tf z) slack (θ z) (C z) S

/-- `eval3D_matrix` of the wrapper, variant for linear materials
(`src/gsMaterialMatrixTFT.hpp` l.366-407). -/
noncomputable def tftMatrix (C : ℝ → T3) (S : ℝ → Voigt) (slack : ℝ) (tf : ℝ → Int) (θ : ℝ → ℝ)
    (z : ℝ) : Outcome T3 :=
  if tf z = 1 then .ok (C z)
  else if tf z = -1 then .ok (fun i j => C z i j * slack)
  else if tf z = 0 then .ok (TFT.computeCLin (θ z) (C z) (S z))
  else .throws

/-- The integrating evaluator for a wrapper (`MatIntegration::Linear`,
`src/gsMaterialMatrixTFT.h` l.113-121; `src/gsMaterialMatrixIntegrate.hpp` l.181-223, 333-364): values
at the heights `1/2` and `-1/2`, one component. -/
noncomputable def section2 (r : Rule) (o : Output) (t : ℝ) (f : ℝ → Outcome ℝ) : Outcome ℝ :=
  (f (1 / 2 * t)).bind fun a => (f (-(1 / 2) * t)).bind fun b =>
    evalInto .linear r o t fun ξ => if ξ = 1 / 2 then a else b

/-- The integrating evaluator for the linear material itself (`MatIntegration::Constant`,
`src/gsMaterialMatrixLinear.h` l.169-172; `src/gsMaterialMatrixIntegrate.hpp` l.367-390): the value at
the height 0. -/
noncomputable def section0 (r : Rule) (o : Output) (t : ℝ) (f : ℝ → Outcome ℝ) : Outcome ℝ :=
  (f 0).bind fun a => evalInto .constant r o t fun _ => a

end Verif.TFTSection
