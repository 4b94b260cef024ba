import Verif.Model.Spectral
import Verif.Model.Linear

/-!
# The deformation tensor output

Models `eval3D_deformation`, the thickness entry it uses, and the two versions of
`eval3D_pstretch`.

Simplifications: one point and height; `A` and `C` are the in-plane blocks of the reference and
the deformed metric; exact real arithmetic.
-/

namespace Verif.Deform

open Verif.Hyper Verif.Spectral

/-- `eval3D_deformation`: the block of the deformed metric and `1./m_J0_sq`
(`src/gsMaterialMatrixBaseDim.hpp` l.189-192).  Used by every material: it is virtual but not
overridden. -/
noncomputable def deformation (A C : T2) : T3 :=
  withThickness (data A C).gcov (1 / (data A C).J0)

/-- `eval3D_pstretch` of the base class, used by the linear and the incompressible materials: the
stretches of the deformation tensor (`src/gsMaterialMatrixBaseDim.hpp` l.199-218). -/
noncomputable def pstretch (solver : T3 → Eig) (A C : T2) (g : Cols) : Stretch :=
  stretches solver C (deformation A C 2 2) g

/-- `eval3D_pstretch` of the compressible materials with the thickness entry `c33` of the
plane-stress iteration (`src/gsMaterialMatrixNonlinear.hpp` l.577-605). -/
noncomputable def pstretchComp (solver : T3 → Eig) (C : T2) (c33 : ℝ) (g : Cols) : Stretch :=
  stretches solver C c33 g

/-- `eval3D_detF` of the linear material, by which `eval3D_CauchyStress` divides
(`src/gsMaterialMatrixLinear.hpp` l.497-510, 524-526): `sqrt(m_J0_sq*1.0)`. -/
noncomputable def linearDetF (A C : T2) : ℝ := Real.sqrt ((data A C).J0 * 1)

end Verif.Deform
