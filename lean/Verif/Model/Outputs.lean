import Verif.Model.Linear

/-!
# Outputs of the material evaluators: dispatch and sizes

Models which member function of a material an evaluator calls for each output kind, which class
implements it, and the number of rows and columns of the matrix it returns.

Simplifications: `n ≥ 1` points and `h ≥ 1` heights; both geometries are set and regular, so that
the checks of the metrics pass (`src/gsMaterialMatrixBaseDim.hpp` l.1003-1038); the material is
fresh (no evaluation has filled its point data before); the option `TensionField` is 0, 1 or 2.
Null pointers that are followed and matrices read or written out of their bounds are `ub`.
-/

namespace Verif.Outputs

open Verif.Linear (Output strainKind)

/-- A material that can be wrapped: linear with `np` parameters, nonlinear with `np` parameters,
laminate built with or without densities (`src/gsMaterialMatrixComposite.h` l.57-69). -/
inductive Inner where
  | linear (np : ℕ)
  | nonlinear (np : ℕ)
  | composite (rho : Bool)
deriving Repr, DecidableEq

/-- A material: plain, or wrapped for tension-field analysis
(`src/gsMaterialMatrixTFT.h` l.83-103). -/
inductive Mat where
  | plain (i : Inner)
  | tft (i : Inner)
deriving Repr, DecidableEq

/-- Rows and columns of a matrix. -/
structure Shape where
  rows : ℕ
  cols : ℕ
deriving Repr, DecidableEq

/-- The virtual member functions called by the evaluators
(`src/gsMaterialMatrixBase.h` l.140-640). -/
inductive Member where
  | density | vector | cauchyVector | matrix | pstretch | pstretchDir | pstress | cauchyPStress
  | pstressDir | pstrain | spec2cov | spec2con | cov2cart | con2cart
  | tensionfield | theta | gamma | strain | stress | cauchyStress
  | thickness | parameters | deformation
deriving Repr, DecidableEq

/-- `eval_into_impl` of the pointwise evaluator: output kind to member function
(`src/gsMaterialMatrixEval.hpp` l.182-395); the two transformations of the principal axes are
`eval3D_spec2con` and `eval3D_spec2cov` (`src/gsMaterialMatrixBase.h` l.332-346). -/
def member : Output → Member
  | .density => .density
  | .generic | .vectorN | .vectorM => .vector
  | .cauchyVectorN | .cauchyVectorM => .cauchyVector
  | .matrixA | .matrixB | .matrixC | .matrixD => .matrix
  | .stretch => .pstretch
  | .stretchDir => .pstretchDir
  | .pstress | .pstressN | .pstressM => .pstress
  | .pcauchyStressN | .pcauchyStressM => .cauchyPStress
  | .pstressDir => .pstressDir
  | .pstrainN | .pstrainM => .pstrain
  | .spec2cov | .pstressTransform => .spec2cov
  | .spec2con | .stretchTransform => .spec2con
  | .cov2cart => .cov2cart
  | .con2cart => .con2cart
  | .tensionField => .tensionfield
  | .theta => .theta
  | .gamma => .gamma
  | .strain | .strainN | .strainM => .strain
  | .stress | .stressN | .stressM => .stress
  | .cauchyStress | .cauchyStressN | .cauchyStressM => .cauchyStress
  | .thickness => .thickness
  | .parameters => .parameters
  | .deformation => .deformation

/-- Number of parameters, `m_pars.size()` (`src/gsMaterialMatrixBase.h` l.746).  The laminate
stores its data elsewhere; the wrapper passes parameters on to the wrapped material
(`src/gsMaterialMatrixTFT.h` l.195-196) and keeps none. -/
def numParameters : Mat → ℕ
  | .plain (.linear np) | .plain (.nonlinear np) => np
  | _ => 0

/-- `targetDim_impl` of the pointwise evaluator (`src/gsMaterialMatrixEval.h` l.139-224); `none`:
no overload, the evaluator cannot be instantiated. -/
def declared (m : Mat) : Output → Option ℕ
  | .density | .tensionField | .theta | .gamma | .thickness => some 1
  | .generic | .vectorN | .vectorM | .cauchyVectorN | .cauchyVectorM | .stretch
  | .strain | .strainN | .strainM | .stress | .stressN | .stressM | .cauchyStressN
  | .cauchyStressM => some 3
  | .matrixA | .matrixB | .matrixC | .matrixD | .stretchDir | .pstressDir | .spec2cov
  | .spec2con | .cov2cart | .con2cart | .stretchTransform | .pstressTransform
  | .deformation => some 9
  | .pstress | .pstressN | .pstressM | .pcauchyStressN | .pcauchyStressM | .pstrainN
  | .pstrainM => some 2
  | .parameters => some (numParameters m)
  | .cauchyStress => none

/-- Whether `m_thickness` is set: the laminate keeps its thicknesses in `m_Ts` and leaves
`m_thickness` empty (`src/gsMaterialMatrixComposite.hpp` l.33-96). -/
def hasThickness : Inner → Bool
  | .composite _ => false
  | _ => true

/-- `gsMaterialMatrixBaseDim::_computePoints`: follows `m_thickness`
(`src/gsMaterialMatrixBaseDim.hpp` l.387-413).  It is not virtual
(`src/gsMaterialMatrixBaseDim.h` l.156), so the functions of the base class use it for the laminate
too. -/
def computePoints (i : Inner) : Outcome Unit := if hasThickness i then .ok () else .ub

/-- Loops that write column `j*n+k` of a matrix with `n` columns
(`src/gsMaterialMatrixBaseDim.hpp` l.70-84, 92-106, 116-129, 139-152;
`src/gsMaterialMatrixTFT.hpp` l.306-331, 338-363). -/
def pointColumns (rows n h : ℕ) : Outcome Shape := if h ≤ 1 then .ok ⟨rows, n⟩ else .ub

/-- `eval3D_stress` with output kind `o` (`src/gsMaterialMatrixLinear.hpp` l.460-493 with `_E`
l.593-626; `src/gsMaterialMatrixNonlinear.hpp` l.708-713, which ignores the kind; not implemented
by the laminate). -/
def stress (i : Inner) (o : Output) (n h : ℕ) : Outcome Shape :=
  match i with
  | .linear _ => (strainKind o).bind fun _ => .ok ⟨3, n * h⟩
  | .nonlinear _ => .ok ⟨3, n * h⟩
  | .composite _ => .throws

/-- `eval3D_CauchyStress`: the stress, divided by the determinant
(`src/gsMaterialMatrixLinear.hpp` l.512-531; `src/gsMaterialMatrixNonlinear.hpp` l.1010-1043). -/
def cauchyStress (i : Inner) (o : Output) (n h : ℕ) : Outcome Shape := stress i o n h

/-- `eval3D_matrix` (`src/gsMaterialMatrixLinear.hpp` l.177-215; `src/gsMaterialMatrixNonlinear.hpp`
l.508-546; the laminate evaluates once per point, `src/gsMaterialMatrixComposite.hpp`
l.200). -/
def matrix (i : Inner) (n h : ℕ) : Outcome Shape :=
  match i with
  | .linear _ | .nonlinear _ => .ok ⟨9, n * h⟩
  | .composite _ => .ok ⟨9, n⟩

/-- `eval3D_vector` (`src/gsMaterialMatrixLinear.hpp` l.306-309;
`src/gsMaterialMatrixNonlinear.hpp` l.549-552; laminate: two kinds only, once per point,
`src/gsMaterialMatrixComposite.hpp` l.287-303). -/
def vector (i : Inner) (o : Output) (n h : ℕ) : Outcome Shape :=
  match i with
  | .composite _ => if o = .vectorN ∨ o = .vectorM then .ok ⟨3, n⟩ else .throws
  | _ => stress i o n h

/-- `eval3D_pstress` (`src/gsMaterialMatrixLinear.hpp` l.361-391;
`src/gsMaterialMatrixNonlinear.hpp` l.617-644): the stress, then two principal values. -/
def pstress (i : Inner) (o : Output) (n h : ℕ) : Outcome Shape :=
  (stress i o n h).bind fun _ => .ok ⟨2, n * h⟩

/-- `eval3D_CauchyPStress` (`src/gsMaterialMatrixLinear.hpp` l.427-457;
`src/gsMaterialMatrixNonlinear.hpp` l.677-703). -/
def cauchyPStress (i : Inner) (o : Output) (n h : ℕ) : Outcome Shape :=
  (cauchyStress i o n h).bind fun _ => .ok ⟨2, n * h⟩

/-- `eval3D_pstressDir`: the six entries of a 3×2 matrix are addressed as nine.  The linear
material copies all nine to a column of a matrix with nine rows
(`src/gsMaterialMatrixLinear.hpp` l.394-424); the nonlinear material assigns them to a column of a
matrix with two rows (`src/gsMaterialMatrixNonlinear.hpp` l.650, 670), which (the size check
being an assertion) copies two. -/
def pstressDir (i : Inner) (o : Output) (n h : ℕ) : Outcome Shape :=
  (stress i o n h).bind fun _ =>
    match i with
    | .nonlinear _ => .ok ⟨2, n * h⟩
    | _ => .ub

/-- `eval3D_strain` (`src/gsMaterialMatrixBaseDim.hpp` l.270-292). -/
def strain (i : Inner) (n h : ℕ) : Outcome Shape :=
  (computePoints i).bind fun _ => .ok ⟨3, n * h⟩

/-- `eval3D_pstrain` (`src/gsMaterialMatrixBaseDim.hpp` l.243-267). -/
def pstrain (i : Inner) (n h : ℕ) : Outcome Shape :=
  (strain i n h).bind fun _ => .ok ⟨3, n * h⟩

/-- `eval3D_deformation` (`src/gsMaterialMatrixBaseDim.hpp` l.176-196). -/
def deformation (i : Inner) (n h : ℕ) : Outcome Shape :=
  (computePoints i).bind fun _ => .ok ⟨9, n * h⟩

/-- `eval3D_pstretch` (`src/gsMaterialMatrixBaseDim.hpp` l.199-218;
`src/gsMaterialMatrixNonlinear.hpp` l.567-614). -/
def pstretch (i : Inner) (n h : ℕ) : Outcome Shape :=
  (deformation i n h).bind fun _ => .ok ⟨3, n * h⟩

/-- `eval3D_pstretchDir` (`src/gsMaterialMatrixBaseDim.hpp` l.221-240). -/
def pstretchDir (i : Inner) (n h : ℕ) : Outcome Shape :=
  (deformation i n h).bind fun _ => .ok ⟨9, n * h⟩

/-- `eval3D_tensionfield`: principal stresses of kind `Generic`, principal strains, one number per
column (`src/gsMaterialMatrixBaseDim.hpp` l.295-343). -/
def tensionfield (i : Inner) (n h : ℕ) : Outcome Shape :=
  (pstress i .generic n h).bind fun _ => (pstrain i n h).bind fun _ => .ok ⟨1, n * h⟩

/-- `density_into` (`src/gsMaterialMatrixBaseDim.hpp` l.38-53); the laminate follows one pointer
per layer, which is null without densities (`src/gsMaterialMatrixComposite.hpp` l.69-97,
154-157). -/
def density (i : Inner) (n : ℕ) : Outcome Shape :=
  match i with
  | .composite false => .ub
  | _ => .ok ⟨1, n⟩

/-- `thickness_into` (`src/gsMaterialMatrixBaseDim.hpp` l.56-64); the laminate writes rows of the
matrix it is given without giving it a size (`src/gsMaterialMatrixComposite.hpp` l.185-187). -/
def thickness (i : Inner) (n : ℕ) : Outcome Shape :=
  match i with
  | .composite _ => .ub
  | _ => .ok ⟨1, n⟩

/-- A member function of a plain material. -/
def evalPlain (i : Inner) (f : Member) (o : Output) (n h : ℕ) : Outcome Shape :=
  match f with
  | .density => density i n
  | .vector => vector i o n h
  | .cauchyVector => cauchyStress i o n h
  | .matrix => matrix i n h
  | .pstretch => pstretch i n h
  | .pstretchDir => pstretchDir i n h
  | .pstress => pstress i o n h
  | .cauchyPStress => cauchyPStress i o n h
  | .pstressDir => pstressDir i o n h
  | .pstrain => pstrain i n h
  | .spec2cov | .spec2con => (pstretchDir i n h).bind fun _ => pointColumns 9 n h
  | .cov2cart | .con2cart => (computePoints i).bind fun _ => pointColumns 9 n h
  | .tensionfield => tensionfield i n h
  | .theta | .gamma => .throws
  | .strain => strain i n h
  | .stress => stress i o n h
  | .cauchyStress => cauchyStress i o n h
  | .thickness => thickness i n
  | .parameters =>
    match i with
    | .composite _ => .throws
    | _ => .ok ⟨numParameters (.plain i), n⟩
  | .deformation => deformation i n h

/-- The data of a wrinkled point: stiffness, stress and strain of the wrapped material
(`src/gsMaterialMatrixTFT.hpp` l.140-142, 182-184, 323-325). -/
def wrinkledData (i : Inner) (n h : ℕ) : Outcome Unit :=
  (matrix i n h).bind fun _ => (stress i .vectorN n h).bind fun _ =>
    (strain i n h).bind fun _ => .ok ()

/-- A member function of a wrapped material (`src/gsMaterialMatrixTFT.h` l.129-192,
`src/gsMaterialMatrixTFT.hpp` l.41-454), at points that are not all taut or slack.
`eval3D_CauchyVector` and `eval3D_pstressDir` are not overridden and not implemented by the base
class (`src/gsMaterialMatrixBase.h` l.451-482).  `eval3D_spec2cov/con` are those of the base
class: the directions are computed by the wrapped material, then the point data of the
wrapper itself, which nobody has computed, are read (`src/gsMaterialMatrixBaseDim.hpp` l.72-80,
94-102). -/
def evalTFT (i : Inner) (f : Member) (o : Output) (n h : ℕ) : Outcome Shape :=
  match f with
  | .density => density i n
  | .thickness => thickness i n
  | .matrix =>
    (matrix i n h).bind fun s => (tensionfield i n h).bind fun _ =>
      (wrinkledData i n h).bind fun _ => .ok s
  | .vector | .stress =>
    (stress i .vectorN n h).bind fun s => (tensionfield i n h).bind fun _ =>
      (wrinkledData i n h).bind fun _ => .ok s
  | .pstress => (tensionfield i n h).bind fun _ => pstress i o n h
  | .pstrain => (tensionfield i n h).bind fun _ => pstrain i n h
  | .strain =>
    (strain i n h).bind fun s => (tensionfield i n h).bind fun _ =>
      (wrinkledData i n h).bind fun _ => .ok s
  | .cauchyStress =>
    (cauchyStress i .cauchyStressN n h).bind fun s => (tensionfield i n h).bind fun _ =>
      (computePoints i).bind fun _ => (wrinkledData i n h).bind fun _ => .ok s
  | .cauchyPStress => cauchyPStress i o n h
  | .tensionfield => tensionfield i n h
  | .theta | .gamma =>
    (tensionfield i n h).bind fun _ => (wrinkledData i n h).bind fun _ => pointColumns 1 n h
  | .pstretch => pstretch i n h
  | .pstretchDir => pstretchDir i n h
  | .cauchyVector | .pstressDir => .throws
  | .spec2cov | .spec2con => (pstretchDir i n h).bind fun _ => .ub
  | .cov2cart | .con2cart => (computePoints i).bind fun _ => pointColumns 9 n h
  | .parameters => .ok ⟨0, n⟩
  | .deformation => deformation i n h

/-- `eval_into` of the pointwise evaluator at `n` points and `h` heights
(`src/gsMaterialMatrixEval.hpp` l.174-395). -/
def eval (m : Mat) (o : Output) (n h : ℕ) : Outcome Shape :=
  match m with
  | .plain i => evalPlain i (member o) o n h
  | .tft i => evalTFT i (member o) o n h

end Verif.Outputs
