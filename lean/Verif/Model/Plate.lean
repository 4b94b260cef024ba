import Verif.Model.System
import Verif.Model.Field
import Mathlib.MeasureTheory.Integral.Bochner.Set
import Mathlib.MeasureTheory.Measure.Lebesgue.Basic

/-!
# Stiffness, mass and load as integrals over the parameters

The matrices of `assemble` and `assembleMass` as bilinear forms.  Simplifications: the Gauss quadrature
over the elements is replaced by the exact integral over the parameters `D`, and the spline functions by
arbitrary functions of the parameters.  Terms of boundaries and interfaces are left out.
-/

namespace Verif.Plate

open V3 Verif.Geometry Verif.Balance Verif.Integrate Verif.Fields MeasureTheory
open Verif.Linear (Output)

/-- Stiffness of the linear problem for the undeformed surface `X` and the section moduli `S`
(`src/gsThinShellAssembler.hpp` l.1577-1600). -/
noncomputable def stiffForm (X : ℝ × ℝ → V3) (S : Surf → Section) (D : Set (ℝ × ℝ)) (u v : ℝ × ℝ → V3) :
    ℝ :=
  ∫ q in D, System.integrand true (jet X q) (jet u q) (jet v q) (S (jet X q))
    * Variation.measure (jet X q)

/-- Mass with the mass per area `m` (`src/gsThinShellAssembler.hpp` l.1462). -/
noncomputable def massForm (X : ℝ × ℝ → V3) (m : ℝ) (D : Set (ℝ × ℝ)) (u v : ℝ × ℝ → V3) : ℝ :=
  ∫ q in D, m * dot (u q) (v q) * Variation.measure (jet X q)

/-- Load `m_space * m_force * meas(m_ori)` (`src/gsThinShellAssembler.hpp` l.1600-1603). -/
noncomputable def loadForm (X f : ℝ × ℝ → V3) (D : Set (ℝ × ℝ)) (v : ℝ × ℝ → V3) : ℝ :=
  ∫ q in D, dot (v q) (f q) * Variation.measure (jet X q)

/-- Mass per area of a material with one density: `density_into`, used without integration
(`src/gsMaterialMatrixBaseDim.hpp` l.39-54, `src/gsMaterialMatrixIntegrate.hpp` l.167-173). -/
noncomputable def areaMass (t ρ : ℝ) : ℝ := t * ρ

end Verif.Plate
