import Verif.Model.Linear

/-!
# Integration through the thickness

Models `src/gsMaterialMatrixIntegrate.h/.hpp` for one point and one component.  The
integrand is a function `f` of the *scaled* height `ξ ∈ [-1/2, 1/2]`: the materials multiply
the height they receive by the thickness (`src/gsMaterialMatrixLinear.hpp` l.198).
-/

namespace Verif.Integrate

open Verif.Linear (Output)

/-- `enum MatIntegration` (`src/gsMaterialMatrixUtils.h`). -/
inductive MatIntegration where
  | notIntegrated | integrated | constant | linear
deriving Repr, DecidableEq

/-- A quadrature rule on `[-1/2, 1/2]`: `gauss.mapTo(-Thalf,Thalf,…)` with `Thalf = 0.5`
(`src/gsMaterialMatrixIntegrate.hpp` l.300-308).  Nodes and weights come from the G+Smo core
and are not modelled; any rule is allowed. -/
structure Rule where
  n : Nat
  ξ : Fin n → ℝ
  w : Fin n → ℝ

/-- `integrateZ_into` (`src/gsMaterialMatrixIntegrate.hpp` l.311-323). -/
noncomputable def integrateZ (r : Rule) (t : ℝ) (m : Nat) (f : ℝ → ℝ) : ℝ :=
  ∑ j, r.w j * (r.ξ j * t) ^ m * f (r.ξ j) * t

/-- `multiplyLinZ_into` (`src/gsMaterialMatrixIntegrate.hpp` l.333-364); heights `1/2` and
`-1/2`. -/
noncomputable def multiplyLinZ (t : ℝ) (m : Nat) (f : ℝ → ℝ) : ℝ :=
  1 / ((m : ℝ) + (if m % 2 = 0 then 0 else 1) + 1) *
    ((1 / 2 * t) ^ (m + 1) * f (1 / 2) - (-(1 / 2) * t) ^ (m + 1) * f (-(1 / 2)))

/-- `multiplyZ_into` (`src/gsMaterialMatrixIntegrate.hpp` l.367-390), value at height 0. -/
noncomputable def multiplyZ (t : ℝ) (m : Nat) (f : ℝ → ℝ) : ℝ :=
  if m % 2 ≠ 0 then 0 else f 0 * (2 / ((m : ℝ) + 1) * (t / 2) ^ (m + 1))

/-- `getMoment` (`src/gsMaterialMatrixIntegrate.h` l.231-269); no implementation for other
outputs. -/
def getMoment : Output → Option Nat
  | .vectorN | .pstressN | .cauchyVectorN => some 0
  | .vectorM | .pstressM | .cauchyVectorM => some 1
  | .matrixA => some 0
  | .matrixB => some 1
  | .matrixC => some 1
  | .matrixD => some 2
  | _ => none

/-- Moment used for a material constant through the thickness: `0` and `2` for the stress
resultants, `getMoment` otherwise (`src/gsMaterialMatrixIntegrate.hpp` l.181, 199, 218, 235). -/
def constMoment : Output → Option Nat
  | .vectorN | .cauchyVectorN => some 0
  | .vectorM | .cauchyVectorM => some 2
  | o => getMoment o

/-- `eval_into_impl`: dispatch on how the material depends on the height
(`src/gsMaterialMatrixIntegrate.hpp` l.169-257). -/
noncomputable def evalInto (c : MatIntegration) (r : Rule) (o : Output) (t : ℝ) (f : ℝ → ℝ) :
    Outcome ℝ :=
  match c with
  | .notIntegrated => match getMoment o with
    | some m => .ok (integrateZ r t m f)
    | none => .throws
  | .integrated => .ok (f 0)
  | .constant => match constMoment o with
    | some m => .ok (multiplyZ t m f)
    | none => .throws
  | .linear => match getMoment o with
    | some m => .ok (multiplyLinZ t m f)
    | none => .throws

end Verif.Integrate
