import Mathlib.Analysis.Real.Sqrt
import Mathlib.Algebra.BigOperators.Fin
import Mathlib.Tactic.Ring
import Mathlib.Tactic.FieldSimp
import Mathlib.Tactic.Linarith
import Mathlib.Tactic.LinearCombination
import Mathlib.Tactic.Positivity
import Mathlib.Tactic.FinCases

/-!
# Vectors and small tensors

Stand-ins for the Eigen types used by the code (`gsVector<T,3>`, `gsMatrix<T,2,2>`,
`gsMatrix<T,3,3>`).  Scalars are real numbers instead of `double`: rounding is not modelled.
-/

namespace Verif

/-- A vector in three-dimensional space (`gsVector<T,3>`, the columns of `gsMatrix<T>` with
three rows). -/
@[ext] structure V3 where
  x : ℝ
  y : ℝ
  z : ℝ

namespace V3

/-- Sum of vectors (Eigen `operator+`). -/
instance : Add V3 := ⟨fun u v => ⟨u.x + v.x, u.y + v.y, u.z + v.z⟩⟩
/-- Difference of vectors (Eigen `operator-`). -/
instance : Sub V3 := ⟨fun u v => ⟨u.x - v.x, u.y - v.y, u.z - v.z⟩⟩
/-- Negated vector (Eigen unary `operator-`). -/
instance : Neg V3 := ⟨fun u => ⟨-u.x, -u.y, -u.z⟩⟩
/-- Scalar times vector (Eigen `operator*`). -/
instance : SMul ℝ V3 := ⟨fun c u => ⟨c * u.x, c * u.y, c * u.z⟩⟩
/-- Zero vector (Eigen `setZero`). -/
instance : Zero V3 := ⟨⟨0, 0, 0⟩⟩

@[simp] theorem add_x (u v : V3) : (u + v).x = u.x + v.x := rfl
@[simp] theorem add_y (u v : V3) : (u + v).y = u.y + v.y := rfl
@[simp] theorem add_z (u v : V3) : (u + v).z = u.z + v.z := rfl
@[simp] theorem sub_x (u v : V3) : (u - v).x = u.x - v.x := rfl
@[simp] theorem sub_y (u v : V3) : (u - v).y = u.y - v.y := rfl
@[simp] theorem sub_z (u v : V3) : (u - v).z = u.z - v.z := rfl
@[simp] theorem neg_x (u : V3) : (-u).x = -u.x := rfl
@[simp] theorem neg_y (u : V3) : (-u).y = -u.y := rfl
@[simp] theorem neg_z (u : V3) : (-u).z = -u.z := rfl
@[simp] theorem smul_x (c : ℝ) (u : V3) : (c • u).x = c * u.x := rfl
@[simp] theorem smul_y (c : ℝ) (u : V3) : (c • u).y = c * u.y := rfl
@[simp] theorem smul_z (c : ℝ) (u : V3) : (c • u).z = c * u.z := rfl
@[simp] theorem zero_x : (0 : V3).x = 0 := rfl
@[simp] theorem zero_y : (0 : V3).y = 0 := rfl
@[simp] theorem zero_z : (0 : V3).z = 0 := rfl

/-- Dot product (Eigen `.dot`). -/
def dot (u v : V3) : ℝ := u.x * v.x + u.y * v.y + u.z * v.z

/-- Cross product (Eigen `.cross`, G+Smo `col3d(0).cross(col3d(1))`). -/
def cross (u v : V3) : V3 :=
  ⟨u.y * v.z - u.z * v.y, u.z * v.x - u.x * v.z, u.x * v.y - u.y * v.x⟩

/-- Euclidean norm (Eigen `.norm`). -/
noncomputable def norm (u : V3) : ℝ := Real.sqrt (dot u u)

/-- Eigen `.normalized`/`.normalize` (for the zero vector Eigen leaves it unchanged; here
the result is then zero as well). -/
noncomputable def normalized (u : V3) : V3 := (1 / norm u) • u

end V3

/-- A 2×2 matrix/tensor (`gsMatrix<T,2,2>`). -/
abbrev T2 := Fin 2 → Fin 2 → ℝ

/-- A 3×3 matrix (`gsMatrix<T,3,3>`). -/
abbrev T3 := Fin 3 → Fin 3 → ℝ

/-- Voigt vector (`gsMatrix<T>` with three rows). -/
abbrev Voigt := Fin 3 → ℝ

/-- Three values as a vector (Eigen's comma initialiser). -/
def vec3 {α : Type} (a b c : α) : Fin 3 → α := fun k => if k = 0 then a else if k = 1 then b else c

@[simp] theorem vec3_zero {α : Type} (a b c : α) : vec3 a b c 0 = a := rfl
@[simp] theorem vec3_one {α : Type} (a b c : α) : vec3 a b c 1 = b := rfl
@[simp] theorem vec3_two {α : Type} (a b c : α) : vec3 a b c 2 = c := rfl

/-- Nine values as a 3×3 matrix, row by row. -/
def mk3 (a b c d e f g h i : ℝ) : T3 := vec3 (vec3 a b c) (vec3 d e f) (vec3 g h i)

@[simp] theorem mk3_zero (a b c d e f g h i : ℝ) : mk3 a b c d e f g h i 0 = vec3 a b c := rfl
@[simp] theorem mk3_one (a b c d e f g h i : ℝ) : mk3 a b c d e f g h i 1 = vec3 d e f := rfl
@[simp] theorem mk3_two (a b c d e f g h i : ℝ) : mk3 a b c d e f g h i 2 = vec3 g h i := rfl

/-- 2×2 determinant (Eigen `.determinant`). -/
def det2 (A : T2) : ℝ := A 0 0 * A 1 1 - A 0 1 * A 1 0

/-- 2×2 inverse as computed by Eigen for size 2 (adjugate over determinant).  For a singular
matrix Eigen divides by zero; theorems using `inv2` state `det2 A ≠ 0`. -/
noncomputable def inv2 (A : T2) : T2 :=
  ![![A 1 1 / det2 A, -(A 0 1) / det2 A], ![-(A 1 0) / det2 A, A 0 0 / det2 A]]

/-- 3×3 determinant (Eigen `.determinant`). -/
def det3 (A : T3) : ℝ :=
  A 0 0 * (A 1 1 * A 2 2 - A 1 2 * A 2 1) - A 0 1 * (A 1 0 * A 2 2 - A 1 2 * A 2 0)
    + A 0 2 * (A 1 0 * A 2 1 - A 1 1 * A 2 0)

/-- 3×3 inverse by cofactors.  For a singular matrix Eigen divides by zero; theorems using
`inv3` state `det3 A ≠ 0`. -/
noncomputable def inv3 (A : T3) : T3 :=
  mk3 ((A 1 1 * A 2 2 - A 1 2 * A 2 1) / det3 A) ((A 0 2 * A 2 1 - A 0 1 * A 2 2) / det3 A)
      ((A 0 1 * A 1 2 - A 0 2 * A 1 1) / det3 A)
    ((A 1 2 * A 2 0 - A 1 0 * A 2 2) / det3 A) ((A 0 0 * A 2 2 - A 0 2 * A 2 0) / det3 A)
      ((A 0 2 * A 1 0 - A 0 0 * A 1 2) / det3 A)
    ((A 1 0 * A 2 1 - A 1 1 * A 2 0) / det3 A) ((A 0 1 * A 2 0 - A 0 0 * A 2 1) / det3 A)
      ((A 0 0 * A 1 1 - A 0 1 * A 1 0) / det3 A)

/-- Matrix product. -/
def mul3 (A B : T3) : T3 := fun i j => ∑ k, A i k * B k j

/-- Matrix times vector. -/
def mulVec3 (A : T3) (v : Voigt) : Voigt := fun i => ∑ k, A i k * v k

/-- Transpose. -/
def transpose3 (A : T3) : T3 := fun i j => A j i

/-- Dot product of Voigt vectors. -/
def dotV (u v : Voigt) : ℝ := ∑ k, u k * v k

end Verif
