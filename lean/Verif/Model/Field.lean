import Verif.Model.Geometry
import Mathlib.Analysis.Calculus.FDeriv.Defs

/-!
# Vector fields of the parameters

Stand-ins for G+Smo's geometries and basis functions: arbitrary functions of the two parameters instead of
splines, with exact derivatives.
-/

namespace Verif.Fields

/-- Partial derivative in the direction of parameter `i`. -/
noncomputable def pd (i : Fin 2) (f : ℝ × ℝ → ℝ) (q : ℝ × ℝ) : ℝ :=
  fderiv ℝ f q (if i = 0 then (1, 0) else (0, 1))

/-- Partial derivative of a vector field, by components. -/
noncomputable def vpd (i : Fin 2) (X : ℝ × ℝ → V3) (q : ℝ × ℝ) : V3 :=
  ⟨pd i (fun q => (X q).x) q, pd i (fun q => (X q).y) q, pd i (fun q => (X q).z) q⟩

/-- First and second derivatives at a point, as `map.jacobian(k)` and `map.deriv2(k)` provide them
(`src/gsMaterialMatrixBaseDim.hpp` l.449, 455); the mixed derivative is taken once. -/
noncomputable def jet (X : ℝ × ℝ → V3) (q : ℝ × ℝ) : Geometry.Surf :=
  ⟨fun i => vpd i X q, vpd 0 (vpd 0 X) q, vpd 1 (vpd 1 X) q, vpd 1 (vpd 0 X) q⟩

end Verif.Fields
