import Verif.Model.ExprMat

/-! # Specification: numbering of vector-valued basis functions -/

namespace Verif.Spec.ExprMat

open Verif.ExprMat Verif.Variation Verif.Geometry

/-- `n` scalar functions with gradients `grad j` and second derivatives `hess j`, stored one after
the other: the columns `values[1]` and `values[2]` of a basis. -/
def Stores (n : ℕ) (g h : Col) (grad : ℕ → Fin 2 → ℝ) (hess : ℕ → Voigt) : Prop :=
  ∀ j, j < n → (∀ c : Fin 2, g (2 * j + c) = grad j c) ∧ ∀ c : Fin 3, h (3 * j + c) = hess j c

/-- The second derivatives of a geometry map with components `x, y, z`, stored one component after
the other. -/
def StoresMap (s : Surf) (H : Col) : Prop :=
  ∀ c : Fin 3, H (3 * c) = comp s.d11 c ∧ H (3 * c + 1) = comp s.d22 c ∧ H (3 * c + 2) = comp s.d12 c

/-- The Jacobian (3×2) of a field. -/
def jacobian (u : Surf) (k : Fin 3) (a : Fin 2) : ℝ := comp (u.a a) k

/-- Number of the basis function `j` in component `d`: all functions of the first component come
first. -/
def number (n : ℕ) (d : Fin 3) (j : ℕ) : ℕ := d * n + j

/-- Every entry of a matrix has been written. -/
def Complete (m : Mat) : Prop := ∀ i j, i < m.rows → j < m.cols → m.get i j ≠ none

end Verif.Spec.ExprMat
