import Verif.Model.Newton
import Verif.Model.Shortcut
import Verif.Model.TFTSection

/-!
# Materials evaluated at a given deformation tensor

Models `eval3D_stress_C`, `eval3D_vector_C` and `eval3D_matrix_C` of the nonlinear and of the linear
material, which take the deformation tensor as an argument, and beside them the evaluations that take
it from the deformed geometry.

Simplifications: one point; the inverse of a singular matrix, which has infinite entries in the
program, is the outcome `ub`; the material parameters of the point are arguments of the laws; exact
arithmetic.
-/

namespace Verif.AtTensor

open Verif.Geometry Verif.Hyper

/-- The tensor with the entries `(C11, C22, C12)` (`src/gsMaterialMatrixBaseDim.hpp` l.1046-1053). -/
def tensor (c : Voigt) : T2 := fun i j => if i = j then (if i = 0 then c 0 else c 1) else c 2

/-- The members after `_getMetric(k, z, C)`: deformed metric from the tensor, undeformed metric from
the geometry, ratio of the determinants (`src/gsMaterialMatrixBaseDim.hpp` l.998-1017, 1043-1068). -/
noncomputable def metricC (ori : Surf) (z : ℝ) (c : Voigt) : Outcome Data :=
  if det2 (tensor c) = 0 then .ub
  else if det3 (Gcov ori z) = 0 then .ub
  else (areaRatioSq (det3 (Gcov ori z)) (det3 (embed (tensor c)))).map fun J =>
    ⟨Gcon ori z, embed (tensor c), embed (inv2 (tensor c)), J⟩

/-- The members after `_getMetric(k, z)` (`src/gsMaterialMatrixBaseDim.hpp` l.1019-1040, 1071-1135). -/
noncomputable def metric (ori defo : Surf) (z : ℝ) : Outcome Data :=
  if det3 (Gcov defo z) = 0 then .ub
  else if det3 (Gcov ori z) = 0 then .ub
  else (areaRatioSq (det3 (Gcov ori z)) (det3 (Gcov defo z))).map fun J =>
    ⟨Gcon ori z, Gcov defo z, Gcon defo z, J⟩

/-- A material: incompressible by stress and tangent, or compressible by the three-dimensional ones. -/
inductive Law where
  | inc (S : Data → Fin 3 → Fin 3 → ℝ) (T : Data → Fin 3 → Fin 3 → Fin 3 → Fin 3 → ℝ)
  | comp (S : CData → Fin 3 → Fin 3 → ℝ) (T : CData → Fin 3 → Fin 3 → Fin 3 → Fin 3 → ℝ)

/-- The stress from the members (`src/gsMaterialMatrixNonlinear.hpp` l.801-820, 851-868, 897-905,
929-937): the thickness stretch first, then zero or the formula. -/
noncomputable def stressOf : Law → Data → Outcome Voigt
  | .inc S _ => fun D => .ok (vec3 (Shortcut.evalStress S D 0 0) (Shortcut.evalStress S D 1 1) (Shortcut.evalStress S D 0 1))
  | .comp S T => fun D => (Newton.c33Of S T D).map fun x =>
      vec3 (Shortcut.evalStress (fun D => S (cdata D x)) D 0 0) (Shortcut.evalStress (fun D => S (cdata D x)) D 1 1)
        (Shortcut.evalStress (fun D => S (cdata D x)) D 0 1)

/-- The tangent from the members (`src/gsMaterialMatrixNonlinear.hpp` l.1225-1236, 1267-1273, 2031-2058,
2085-2090). -/
noncomputable def matrixOf : Law → Data → Outcome T3
  | .inc _ T => fun D => .ok (fillMatrix (T D))
  | .comp S T => fun D => (Newton.c33Of S T D).map fun x => fillMatrix (condense (T (cdata D x)))

/-- `eval3D_stress_C`, `eval3D_vector_C` (`src/gsMaterialMatrixNonlinear.hpp` l.553-557, 743-776, 823-871,
908-945); `z` is the height times the thickness. -/
noncomputable def stressC (L : Law) (ori : Surf) (z : ℝ) (c : Voigt) : Outcome Voigt :=
  (metricC ori z c).bind (stressOf L)

/-- `eval3D_matrix_C` (`src/gsMaterialMatrixNonlinear.hpp` l.303-343, 1202-1240, 1939-2061). -/
noncomputable def matrixC (L : Law) (ori : Surf) (z : ℝ) (c : Voigt) : Outcome T3 :=
  (metricC ori z c).bind (matrixOf L)

/-- `eval3D_stress` (`src/gsMaterialMatrixNonlinear.hpp` l.705-741, 778-821, 873-906). -/
noncomputable def stress (L : Law) (ori defo : Surf) (z : ℝ) : Outcome Voigt :=
  (metric ori defo z).bind (stressOf L)

/-- `eval3D_matrix` (`src/gsMaterialMatrixNonlinear.hpp` l.1242-1275, 2063-2095). -/
noncomputable def matrix (L : Law) (ori defo : Surf) (z : ℝ) : Outcome T3 :=
  (metric ori defo z).bind (matrixOf L)

/-! ## Linear material -/

open Verif.Linear (Output StrainKind strainKind)

/-- The strain `_E` after `eval3D_vector_C` has overwritten the members of the deformed mid-surface:
`m_Acov_def` is the tensor, `m_Bcov_def` is zero (`src/gsMaterialMatrixLinear.hpp` l.336-357, 593-626). -/
noncomputable def strainC (ori : Surf) (z : ℝ) (c : Voigt) : StrainKind → T2
  | .membrane => fun i j => 0.5 * (tensor c i j - Acov ori i j)
  | .bending => fun i j => Bcov ori i j - 0
  | .full => fun i j => 0.5 * (tensor c i j - Gblock ori z i j)

/-- `eval3D_vector_C` of the linear material (`src/gsMaterialMatrixLinear.hpp` l.318-362).  The
assertion `z==0.0` is not compiled into release builds; the area ratio is not computed. -/
noncomputable def linVectorC (E ν : ℝ) (ori : Surf) (o : Output) (z : ℝ) (c : Voigt) : Outcome Voigt :=
  (strainKind o).map fun k => Linear.stress E ν (Acon ori) (strainC ori z c k)

/-- `eval3D_matrix_C` of the linear material (`src/gsMaterialMatrixLinear.hpp` l.217-248): six entries
from `m_Acon_ori`. -/
noncomputable def linMatrixC (E ν : ℝ) (ori : Surf) (_z : ℝ) (_c : Voigt) : T3 :=
  Linear.matrix E ν (Acon ori)

/-! ## Functions of the strain -/

/-- What the last evaluation left: Young's modulus, Poisson's ratio, contravariant metric; `none` before
the first evaluation. -/
abbrev Last := Option (ℝ × ℝ × T2)

/-- The public `S(strain)` of the linear material (`src/gsMaterialMatrixLinear.hpp` l.565-577): it reads
the members of the last evaluation, which have no entries before the first one. -/
noncomputable def publicS (l : Last) (e : T2) : Outcome T2 :=
  match l with
  | none => .ub
  | some (E, ν, A) => .ok (Linear.Sij E ν A e)

/-- Assignment to an entry of a dense matrix without bounds check (release build): outside of the
matrix the outcome is `ub`. -/
def put (rows cols : ℕ) (m : ℕ → ℕ → ℝ) (i j : ℕ) (v : ℝ) : Outcome (ℕ → ℕ → ℝ) :=
  if i < rows ∧ j < cols then .ok (fun a b => if a = i ∧ b = j then v else m a b) else .ub

/-- A list of assignments in order. -/
def puts (rows cols : ℕ) : List (ℕ × ℕ × ℝ) → (ℕ → ℕ → ℝ) → Outcome (ℕ → ℕ → ℝ)
  | [], m => .ok m
  | (i, j, v) :: l, m => (put rows cols m i j v).bind (puts rows cols l)

/-- The public `C(strain)` of the linear material (`src/gsMaterialMatrixLinear.hpp` l.579-591): the
result has `n` rows and columns, in the code `n = 2`. -/
noncomputable def publicC (n : ℕ) (l : Last) : Outcome (ℕ → ℕ → ℝ) :=
  match l with
  | none => .ub
  | some (E, ν, A) =>
    let v := Linear.Cval E ν A
    puts n n [(0, 0, v 0 0 0 0), (1, 1, v 1 1 1 1), (2, 2, v 0 1 0 1), (0, 1, v 0 0 1 1), (1, 0, v 0 0 1 1),
      (0, 2, v 0 0 0 1), (2, 0, v 0 0 0 1), (1, 2, v 1 1 0 1), (2, 1, v 1 1 0 1)] fun _ _ => 0

end Verif.AtTensor
