import Verif.Model.PlanarSystem
import Verif.Model.Newton

/-!
# Compressible materials in a planar sheet

The three analytical compressible materials of `src/gsMaterialMatrixNonlinear.hpp` as materials of
`Model/PlanarSystem`: at every point the thickness stretch is put into the three-dimensional stress and
tangent, and the tangent is condensed.

Simplifications: as in `Model/PlanarSystem` and `Model/Newton`.
-/

namespace Verif.PlaneSheet

open Verif.Hyper Verif.Planar

/-- The compressible materials with the analytical implementation. -/
inductive Solid where
  | neoHooke
  | mooneyRivlin
  | extended

/-- Three-dimensional stress `_Sij` (`src/gsMaterialMatrixNonlinear.hpp` l.1761-1817). -/
noncomputable def Solid.stress : Solid → Par → CData → Fin 3 → Fin 3 → ℝ
  | .neoHooke => sNHc
  | .mooneyRivlin => sMRc
  | .extended => sNHe

/-- Three-dimensional tangent `_Cijkl3D` (`src/gsMaterialMatrixNonlinear.hpp` l.1481-1560). -/
noncomputable def Solid.tangent : Solid → Par → CData → Fin 3 → Fin 3 → Fin 3 → Fin 3 → ℝ
  | .neoHooke => cNHc
  | .mooneyRivlin => cMRc
  | .extended => cNHe

/-- Stress and tangent with the thickness stretches `ξ`: `_eval3D_Compressible_stress`
(`src/gsMaterialMatrixNonlinear.hpp` l.807-819), `_eval3D_Compressible_matrix` (l.2085-2107) with the
condensation of `_Cijkl` (l.1454-1458). -/
noncomputable def material (s : Solid) (p : Par) (ξ : Data → ℝ) : Material :=
  ⟨fun D => s.stress p (cdata D (ξ D)), fun D => condense (s.tangent p (cdata D (ξ D)))⟩

/-- The thickness stretch found by `_eval3D_Compressible_C33` (`src/gsMaterialMatrixNonlinear.hpp`
l.1886-1931). -/
noncomputable def computed (s : Solid) (p : Par) (D : Data) : Outcome ℝ := Newton.c33Of (s.stress p) (s.tangent p) D

end Verif.PlaneSheet
