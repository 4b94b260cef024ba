import Verif.Model.Geometry

/-!
# The linear (Saint Venant–Kirchhoff) material

Models `src/gsMaterialMatrixLinear.hpp`.
-/

namespace Verif.Linear

/-- `mu` (`src/gsMaterialMatrixLinear.hpp` l.549). -/
noncomputable def mu (E ν : ℝ) : ℝ := E / (2 * (1 + ν))

/-- `lambda` (`src/gsMaterialMatrixLinear.hpp` l.551). -/
noncomputable def lam (E ν : ℝ) : ℝ := E * ν / ((1 + ν) * (1 - 2 * ν))

/-- `Cconstant` (`src/gsMaterialMatrixLinear.hpp` l.552). -/
noncomputable def Cconst (E ν : ℝ) : ℝ := 2 * lam E ν * mu E ν / (lam E ν + 2 * mu E ν)

/-- Value of `_Cijkl` once the checks have passed; `A` is `m_Acon_ori`
(`src/gsMaterialMatrixLinear.hpp` l.554). -/
noncomputable def Cval (E ν : ℝ) (A : T2) (i j k l : Fin 2) : ℝ :=
  Cconst E ν * A i j * A k l + mu E ν * (A i k * A j l + A i l * A j k)

/-- `_Cijkl` (`src/gsMaterialMatrixLinear.hpp` l.539-555): the check `1-2ν ≠ 0` is an
error; the unchecked divisions by `1+ν` and by `λ+2μ` are recorded as `ub` when the divisor
is zero (in C++: infinities or NaN). -/
noncomputable def Cijkl (E ν : ℝ) (A : T2) (i j k l : Fin 2) : Outcome ℝ :=
  if 1 + ν = 0 then .ub
  else if 1 - 2 * ν = 0 then .throws
  else if lam E ν + 2 * mu E ν = 0 then .ub
  else .ok (Cval E ν A i j k l)

/-- `eval3D_matrix` at one point (`src/gsMaterialMatrixLinear.hpp` l.206-211); does not
depend on the height. -/
noncomputable def matrix (E ν : ℝ) (A : T2) : T3 :=
  mk3 (Cval E ν A 0 0 0 0) (Cval E ν A 0 0 1 1) (Cval E ν A 0 0 0 1)
    (Cval E ν A 0 0 1 1) (Cval E ν A 1 1 1 1) (Cval E ν A 1 1 0 1)
    (Cval E ν A 0 0 0 1) (Cval E ν A 1 1 0 1) (Cval E ν A 0 1 0 1)

/-- `_Sij` (`src/gsMaterialMatrixLinear.hpp` l.557-563). -/
noncomputable def Sij (E ν : ℝ) (A : T2) (strain : T2) (i j : Fin 2) : ℝ :=
  Cval E ν A i j 0 0 * strain 0 0 + Cval E ν A i j 0 1 * strain 0 1
    + Cval E ν A i j 1 0 * strain 1 0 + Cval E ν A i j 1 1 * strain 1 1

/-- `eval3D_stress` at one point: `(S00, S11, S01)`
(`src/gsMaterialMatrixLinear.hpp` l.483-486). -/
noncomputable def stress (E ν : ℝ) (A : T2) (strain : T2) : Voigt :=
  vec3 (Sij E ν A strain 0 0) (Sij E ν A strain 1 1) (Sij E ν A strain 0 1)

/-! ## Output kinds -/

/-- The output kinds of `enum MaterialOutput` (`src/gsMaterialMatrixUtils.h` l.98-142). -/
inductive Output where
  | generic | density | vectorN | vectorM | cauchyVectorN | cauchyVectorM
  | matrixA | matrixB | matrixC | matrixD
  | pstress | pstressDir | pstressN | pstressM | pcauchyStressN | pcauchyStressM
  | pstrainN | pstrainM | stretch | stretchDir | tensionField | theta | gamma
  | strain | strainN | strainM | stress | stressN | stressM
  | cauchyStress | cauchyStressN | cauchyStressM
  | spec2cov | spec2con | cov2cart | con2cart | stretchTransform | pstressTransform
  | thickness | parameters | deformation
deriving Repr, DecidableEq

/-- Which strain `_E` computes. -/
inductive StrainKind where
  | membrane | bending | full
deriving Repr, DecidableEq

/-- `_E`: selection of the strain by output kind, an error for the others
(`src/gsMaterialMatrixLinear.hpp` l.593-626). -/
def strainKind : Output → Outcome StrainKind
  | .vectorN | .cauchyVectorN | .strainN | .stressN | .cauchyStressN | .pstrainN | .pstressN
  | .pcauchyStressN | .tensionField => .ok .membrane
  | .vectorM | .cauchyVectorM | .stressM | .cauchyStressM | .strainM | .pstrainM | .pstressM
  | .pcauchyStressM => .ok .bending
  | .generic | .strain | .stress | .pstress => .ok .full
  | _ => .throws

/-- Output kinds for which the pointwise evaluator calls a function of the material that
ends in `_E` with that kind (`src/gsMaterialMatrixEval.hpp` l.192-206, 229-243, 264-267,
354-369; `src/gsMaterialMatrixLinear.hpp` l.314-520).  `TensionField` evaluates
`eval3D_pstress` with kind `Generic` (`src/gsMaterialMatrixBaseDim.hpp` l.297). -/
def evaluatesStress : Output → Bool
  | .generic | .vectorN | .vectorM | .cauchyVectorN | .cauchyVectorM | .pstress | .pstressN
  | .pstressM | .pcauchyStressN | .pcauchyStressM | .pstressDir | .stress | .stressN
  | .stressM | .cauchyStress | .cauchyStressN | .cauchyStressM => true
  | _ => false

/-- Shape step of `eval3D_pstressDir`: `_evalPStress` returns a 3×2 matrix of directions
(`src/gsMaterialMatrixBaseDim.hpp` l.1389) which is reshaped to 9×1
(`src/gsMaterialMatrixLinear.hpp` l.424).  `rows*cols` entries read as `n` entries. -/
def reshapeOk (entries n : Nat) : Outcome Unit := if entries = n then .ok () else .ub

/-- Evaluation of output kind `o` up to the strain, including the reshape for the
directions. -/
def evalOutput (o : Output) : Outcome StrainKind :=
  match strainKind o with
  | .ok k => if o = .pstressDir then (reshapeOk (3 * 2) 9).bind fun _ => .ok k else .ok k
  | .throws => .throws
  | .ub => .ub

end Verif.Linear
