import Verif.Model.Buckling

/-!
# Residual of a deformed surface

`assembleVector(deformed)` and the pressure of the linear problem as linear forms.  Simplifications as in
`Model/Plate`: exact integrals over the parameters instead of Gauss quadrature, arbitrary functions instead
of splines, no boundary and interface terms.
-/

namespace Verif.Plate

open V3 Verif.Geometry Verif.Balance Verif.Fields MeasureTheory

/-- Residual for the undeformed surface `X`, the deformed surface `x`, the sections `S` and the pressure `p`
(`src/gsThinShellAssembler.hpp` l.2038-2042, 456-458). -/
noncomputable def residualForm (X x : ℝ × ℝ → V3) (S : Surf → Surf → Section) (p : ℝ) (D : Set (ℝ × ℝ))
    (v : ℝ × ℝ → V3) : ℝ :=
  ∫ q in D, let s := S (jet X q) (jet x q);
    Variation.internalForce (jet x q) (jet v q) s.N s.M * Variation.measure (jet X q)
      + WeakForms.pressVec p (Variation.measure (jet X q)) (jet x q) (v q)

/-- Load of a pressure in the linear problem (`src/gsThinShellAssembler.hpp` l.400-402). -/
noncomputable def pressForm (X : ℝ × ℝ → V3) (p : ℝ) (D : Set (ℝ × ℝ)) (v : ℝ × ℝ → V3) : ℝ :=
  ∫ q in D, WeakForms.pressVec p (Variation.measure (jet X q)) (jet X q) (v q)

end Verif.Plate
