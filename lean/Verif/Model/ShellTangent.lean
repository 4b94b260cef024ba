import Verif.Model.Hyper
import Verif.Model.Integrate
import Verif.Model.Variation

/-!
# Internal force and tangent stiffness of a hyperelastic shell at one quadrature point

Puts together the metric at a height, the constitutive functions, the integration through the
thickness and the integrands of the residual and of the tangent, in the way the assembler and the
evaluators of an integrated hyperelastic material do.

Simplifications: exact arithmetic; the zero-stress shortcut (`Model/Shortcut`) is left out; the
quadrature rule through the thickness is a parameter; the in-plane quadrature weights are
parameters of the theorems.
-/

namespace Verif.ShellTangent

open Verif.Geometry Verif.Hyper Verif.Integrate Verif.Variation

/-- Stress and tangent of a material as functions of the height and of the deformed metric at that
height (`_Sij`, `_Cijkl` after `_getMetric(k, z*T)`, `src/gsMaterialMatrixNonlinear.hpp` l.891-905,
1260-1273). -/
structure Law where
  stress : ℝ → T2 → Fin 3 → Fin 3 → ℝ
  tangent : ℝ → T2 → Fin 3 → Fin 3 → Fin 3 → Fin 3 → ℝ

/-- Incompressible neo-Hookean material on the undeformed shell `ori`. -/
noncomputable def nh (p : Par) (ori : Surf) : Law where
  stress z G := sNH p (data (Gblock ori z) G)
  tangent z G := cNH p (data (Gblock ori z) G)

/-- Incompressible Mooney–Rivlin material on the undeformed shell `ori`. -/
noncomputable def mr (p : Par) (ori : Surf) : Law where
  stress z G := sMR p (data (Gblock ori z) G)
  tangent z G := cMR p (data (Gblock ori z) G)

/-- The column `(S11, S22, S12)` (`src/gsMaterialMatrixNonlinear.hpp` l.901-903). -/
def stressV (S : Fin 3 → Fin 3 → ℝ) : Voigt := vec3 (S 0 0) (S 1 1) (S 0 1)

/-- Resultant of order `m` (0 for `N`, 1 for `M`) of the deformed shell `s` with thickness `t`
(`src/gsMaterialMatrixIntegrate.hpp` l.311-323). -/
noncomputable def resultant (L : Law) (r : Rule) (t : ℝ) (m : Nat) (s : Surf) : Voigt := fun k =>
  integrateZ r t m fun ξ => stressV (L.stress (ξ * t) (Gblock s (ξ * t))) k

/-- Modulus of order `m` (0, 1, 1, 2 for `A`, `B`, `C`, `D`)
(`src/gsMaterialMatrixIntegrate.hpp` l.311-323). -/
noncomputable def modulus (L : Law) (r : Rule) (t : ℝ) (m : Nat) (s : Surf) : T3 := fun i j =>
  integrateZ r t m fun ξ => fillMatrix (L.tangent (ξ * t) (Gblock s (ξ * t))) i j

/-- Integrand of the residual for the test field `u` (`src/gsThinShellAssembler.hpp`
l.2038-2042). -/
noncomputable def force (L : Law) (r : Rule) (t : ℝ) (s u : Surf) : ℝ :=
  internalForce s u (resultant L r t 0 s) (resultant L r t 1 s)

/-- Integrand of the tangent for the fields `u` (row) and `v` (column)
(`src/gsThinShellAssembler.hpp` l.1757-1776). -/
noncomputable def tangentStiffness (L : Law) (r : Rule) (t : ℝ) (s u v : Surf) : ℝ :=
  stiffness s u v (modulus L r t 0 s) (modulus L r t 1 s) (modulus L r t 1 s) (modulus L r t 2 s)
    (resultant L r t 0 s) (resultant L r t 1 s)

end Verif.ShellTangent
