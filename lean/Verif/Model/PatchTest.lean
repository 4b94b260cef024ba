import Verif.Model.Cylinder
import Verif.Model.Planar
import Verif.Model.Newton
import Verif.Model.Shortcut
import Mathlib.MeasureTheory.Integral.IntervalIntegral.Basic

/-!
# Boundary tractions, residuals of planar problems

Simplifications as in `Model/Plate`: exact integrals over the parameters instead of Gauss quadrature,
arbitrary functions instead of splines, one patch.  The measure of a side is the length of its tangent vector
(G+Smo core).
-/

namespace Verif.PatchTest

open V3 Verif.Geometry Verif.Fields Verif.Hyper MeasureTheory
open Verif.Integrate (Rule)

/-- `m_space * g_N * meas(m_ori)` on the four sides of the patch over `[0,a]×[0,b]`; `g i e` is the function of
the side where parameter `i` is maximal (`e = true`) or minimal (`src/gsThinShellAssembler.hpp` l.345-369). -/
noncomputable def neumannForm (a b : ℝ) (X : ℝ × ℝ → V3) (g : Fin 2 → Bool → ℝ × ℝ → V3) (v : ℝ × ℝ → V3) : ℝ :=
  (∫ y in (0 : ℝ)..b, dot (v (a, y)) (g 0 true (a, y)) * V3.norm (vpd 1 X (a, y)))
    + (∫ y in (0 : ℝ)..b, dot (v (0, y)) (g 0 false (0, y)) * V3.norm (vpd 1 X (0, y)))
    + (∫ x in (0 : ℝ)..a, dot (v (x, b)) (g 1 true (x, b)) * V3.norm (vpd 0 X (x, b)))
    + ∫ x in (0 : ℝ)..a, dot (v (x, 0)) (g 1 false (x, 0)) * V3.norm (vpd 0 X (x, 0))

/-- Jacobian of a planar geometry; the third component of the field is not used. -/
noncomputable def pjac (X : ℝ × ℝ → V3) (q : ℝ × ℝ) : Planar.Jac := fun i j =>
  if j = 0 then (vpd i X q).x else (vpd i X q).y

/-- `meas(m_ori)` of a planar geometry (G+Smo core: absolute value of the determinant). -/
def pmeas (J : Planar.Jac) : ℝ := |J 0 0 * J 1 1 - J 0 1 * J 1 0|

/-- Residual of a planar problem without body loads for the resultants `N`
(`src/gsThinShellAssembler.hpp` l.2066-2110). -/
noncomputable def planarResidual (X x : ℝ × ℝ → V3) (N : Planar.Jac → Planar.Jac → Voigt) (D : Set (ℝ × ℝ))
    (v : ℝ × ℝ → V3) : ℝ :=
  ∫ q in D, Planar.internalForce (pjac x q) (pjac v q) (N (pjac X q) (pjac x q)) * pmeas (pjac X q)

/-- `VectorN` of the linear material in a planar problem: constant through the thickness
(`src/gsMaterialMatrixIntegrate.hpp` l.169-257, `src/gsMaterialMatrixLinear.hpp` l.470-490). -/
noncomputable def planarLinear (r : Rule) (t E ν : ℝ) (J K : Planar.Jac) : Voigt :=
  Plate.constResultant r t .vectorN (Planar.linStress E ν J K)

/-- Compressible material with stress `s` and tangent `c` at the thickness stretch found by the iteration, and
zero if the iteration fails (the code throws; `src/gsMaterialMatrixNonlinear.hpp` l.777-822, 2062-2110). -/
noncomputable def compressible (s : CData → Fin 3 → Fin 3 → ℝ) (c : CData → Fin 3 → Fin 3 → Fin 3 → Fin 3 → ℝ) :
    Planar.Material where
  stress D := match Newton.c33Of s c D with
    | .ok x => s (cdata D x)
    | _ => fun _ _ => 0
  tangent D := match Newton.c33Of s c D with
    | .ok x => condense (c (cdata D x))
    | _ => fun _ _ _ _ => 0

/-- The incompressible neo-Hookean material. -/
noncomputable def neo (p : Par) : Planar.Material := ⟨sNH p, cNH p⟩

/-- The incompressible Mooney–Rivlin material. -/
noncomputable def mooney (p : Par) : Planar.Material := ⟨sMR p, cMR p⟩

open Classical in
/-- A material with the zero-stress shortcut in front of the formula
(`src/gsMaterialMatrixNonlinear.hpp` l.797-820, 893-905). -/
noncomputable def shortcut (M : Planar.Material) : Planar.Material where
  stress D i j := if Shortcut.allClose D.Gori D.gcon (1 / 10 ^ 12) then 0 else M.stress D i j
  tangent := M.tangent

end Verif.PatchTest
