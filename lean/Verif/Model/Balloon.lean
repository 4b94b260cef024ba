import Verif.Model.ShellTangent
import Verif.Model.WeakForms
import Verif.Model.Field
import Mathlib.MeasureTheory.Integral.Bochner.Basic
import Mathlib.MeasureTheory.Measure.Lebesgue.Basic

/-!
# Residual under pressure as an integral over the parameters

Simplifications: the Gauss quadrature over the elements is replaced by the exact integral over the
parameters, and the spline functions by arbitrary functions of the parameters.  Only the terms of
`assembleVector` without boundary and interface terms are included.
-/

namespace Verif.Balloon

open V3 Geometry Integrate Verif.Variation ShellTangent WeakForms Fields MeasureTheory

/-- Residual of the assembler with bending for the undeformed surface `X`, the deformed surface `x`
and the test field `w`: pressure (`src/gsThinShellAssembler.hpp` l.445-460) and internal force
(l.2038-2042), times the measure of the undeformed surface. -/
noncomputable def residual (L : Surf → Law) (r : Rule) (t p : ℝ) (X x w : ℝ × ℝ → V3) : ℝ :=
  ∫ q, force (L (jet X q)) r t (jet x q) (jet w q) * Variation.measure (jet X q)
    + pressVec p (Variation.measure (jet X q)) (jet x q) (w q)

/-- Residual of the assembler without bending (`src/gsThinShellAssembler.hpp` l.2106-2110). -/
noncomputable def residualMembrane (L : Surf → Law) (r : Rule) (t p : ℝ) (X x w : ℝ × ℝ → V3) : ℝ :=
  ∫ q, internalForceMembrane (jet x q) (jet w q) (resultant (L (jet X q)) r t 0 (jet x q))
      * Variation.measure (jet X q)
    + pressVec p (Variation.measure (jet X q)) (jet x q) (w q)

/-- `getArea` over the parameters `D` (`src/gsThinShellAssembler.hpp` l.2508-2520). -/
noncomputable def area (X : ℝ × ℝ → V3) (D : Set (ℝ × ℝ)) : ℝ := ∫ q in D, Variation.measure (jet X q)

end Verif.Balloon
