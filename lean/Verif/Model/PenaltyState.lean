import Verif.Model.Penalty
import Verif.Model.HyperShell
import Verif.Model.WeakForms

/-!
# Penalty factors of a hyperelastic shell in a deformed state

In the nonlinear assembly of the weak conditions the moduli are those of the deformed geometry:
`gsMaterialMatrixIntegrate<T,MaterialOutput::MatrixA> m_mmA(m_materialMatrices,&m_patches,&deformed)`
(`src/gsThinShellAssembler.hpp` l.721-722, 772-773, 818, 849, 1034-1035, 1168-1169, 1241, 1279), whereas the
transformation to Cartesian axes is that of the undeformed geometry (l.1039-1043).

Simplifications: those of `Model/Penalty` and `Model/HyperShell`; the modulus at an interface is taken on one
side.
-/

namespace Verif.PenaltyState

open Verif.Geometry Verif.Integrate Verif.WeakForms
open Verif.PlanarSystem (Solid)

/-- `alpha_d` (order `m = 0`, matrix `A`) and `alpha_r` (`m = 2`, matrix `D`) with option `c` and element size
`h` for the undeformed surface `ori` and the deformed surface `s` (l.1045-1048). -/
noncomputable def factor (c h : ℝ) (r : Rule) (S : Solid) (p : Hyper.Par) (t : ℝ) (m : ℕ) (ori s : Surf) : ℝ :=
  Penalty.alpha c h ori (ShellTangent.modulus (HyperShell.material S p ori) r t m s)

/-- Vector of the weak C0 coupling with the factor of the state (l.1199-1203). -/
noncomputable def c0Force (c h μ : ℝ) (r : Rule) (S : Solid) (p : Hyper.Par) (t : ℝ) (ori s : Surf)
    (uL uR vL vR : Vd 3) : ℝ := c0Vec3 (factor c h r S p t 0 ori s) μ uL uR vL vR

/-- Matrix of the weak C0 coupling with the factor of the state (l.1065-1073): the factor is not
differentiated. -/
noncomputable def c0Tangent (c h μ : ℝ) (r : Rule) (S : Solid) (p : Hyper.Par) (t : ℝ) (ori s : Surf)
    (vL vR wL wR : Vd 3) : ℝ := c0Mat (factor c h r S p t 0 ori s) μ vL vR wL wR

end Verif.PenaltyState
