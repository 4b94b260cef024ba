import Verif.Model.System
import Verif.Model.PatchTest

/-!
# Moduli of the linear problem for the non-linear material class

The linear problem asks the material for `MatrixA` … `MatrixD` on the undeformed geometry
(`src/gsThinShellAssembler.hpp` l.1557-1564).  `gsMaterialMatrixNonlinear` is integrated numerically
(`src/gsMaterialMatrixNonlinear.h` l.127).
-/

namespace Verif.SameSheet

open Geometry Verif.Hyper
open Verif.Integrate (Rule)
open Verif.Balance (Section)

/-- Moduli of a hyperelastic material on the undeformed shell `s`: undeformed and deformed metric coincide at
every height (`src/gsMaterialMatrixNonlinear.hpp` l.1035-1075, 2062-2110, `src/gsMaterialMatrixIntegrate.hpp`
l.311-323). -/
noncomputable def hyperModuli (M : Planar.Material) (r : Rule) (t : ℝ) (s : Surf) : Section :=
  System.moduli .notIntegrated r t fun _ ξ => fillMatrix ((M.law s).tangent (ξ * t) (Gblock s (ξ * t)))

/-- Moduli of the Saint Venant–Kirchhoff branch of the non-linear class: the tangent reads `m_Acon_ori` at every
height (`src/gsMaterialMatrixNonlinear.hpp` l.1289-1305). -/
noncomputable def svkModuli (p : Par) (r : Rule) (t : ℝ) (s : Surf) : Section :=
  System.moduli .notIntegrated r t fun _ _ =>
    mk3 (cSvK p (Acon s) 0 0 0 0) (cSvK p (Acon s) 0 0 1 1) (cSvK p (Acon s) 0 0 0 1)
      (cSvK p (Acon s) 0 0 1 1) (cSvK p (Acon s) 1 1 1 1) (cSvK p (Acon s) 1 1 0 1)
      (cSvK p (Acon s) 0 0 0 1) (cSvK p (Acon s) 1 1 0 1) (cSvK p (Acon s) 0 1 0 1)

end Verif.SameSheet
