import Verif.Model.Field
import Mathlib.Analysis.Calculus.ContDiff.Defs
import Mathlib.Analysis.SpecialFunctions.Pow.Real

/-!
# Specification: the inflated balloon of the unit tests

Surfaces as maps of the parameters, and the pressures of `balloon_analytical`
(`unittests/gsThinShellAssembler_test.cpp`), transcribed independently of the model.
-/

namespace Verif.Spec.Balloon

open V3 Fields

/-- All components are `n` times continuously differentiable on `U`. -/
def SmoothOn (n : ℕ) (X : ℝ × ℝ → V3) (U : Set (ℝ × ℝ)) : Prop :=
  ContDiffOn ℝ n (fun q => (X q).x) U ∧ ContDiffOn ℝ n (fun q => (X q).y) U ∧
    ContDiffOn ℝ n (fun q => (X q).z) U

/-- `X` maps the open set `U` regularly to the sphere of radius `R` about the origin, with the normal
pointing outwards. -/
structure SpherePatch (R : ℝ) (X : ℝ × ℝ → V3) (U : Set (ℝ × ℝ)) : Prop where
  open' : IsOpen U
  nonempty : U.Nonempty
  radius : 0 < R
  smooth : SmoothOn 2 X U
  sphere : ∀ q ∈ U, dot (X q) (X q) = R ^ 2
  outward : ∀ q ∈ U, 0 < dot (cross (vpd 0 X q) (vpd 1 X q)) (X q)

/-- A virtual displacement: twice continuously differentiable, zero outside a compact part of `U`. -/
structure TestField (w : ℝ × ℝ → V3) (U : Set (ℝ × ℝ)) : Prop where
  smooth : SmoothOn 2 w Set.univ
  support : ∃ K, IsCompact K ∧ K ⊆ U ∧ ∀ q, q ∉ K → w q = 0

/-- Pressure of a balloon of radius `R` and thickness `t` stretched by `lam`, incompressible
neo-Hookean material (l.417). -/
noncomputable def balloonNH (mu R t lam : ℝ) : ℝ :=
  2 * (t / R) * (mu * (lam ^ (2 - 3 : ℝ) - lam ^ (-2 * 2 - 3 : ℝ)))

/-- Mooney–Rivlin material (l.421-427). -/
noncomputable def balloonMR (mu ratio R t lam : ℝ) : ℝ :=
  let c2 := 1 / (ratio + 1);
  let c1 := 1 - c2;
  let m1 := c1 * mu;
  let m2 := -c2 * mu;
  2 * (t / R) * (m1 * (lam ^ (2 - 3 : ℝ) - lam ^ (-2 * 2 - 3 : ℝ))
    + m2 * (lam ^ (-2 - 3 : ℝ) - lam ^ (-2 * -2 - 3 : ℝ)))

/-- Ogden material with any number of terms (l.431-434, three terms). -/
noncomputable def balloonOG (terms : List (ℝ × ℝ)) (R t lam : ℝ) : ℝ :=
  2 * (t / R) * (terms.map fun a => a.1 * (lam ^ (a.2 - 3) - lam ^ (-2 * a.2 - 3))).sum

end Verif.Spec.Balloon
