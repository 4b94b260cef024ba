import Verif.Model.Planar

/-! # Specification of planar problems: the flat sheet in space -/

namespace Verif.Planar

open Verif.Geometry

/-- A vector of the plane `z = 0` in space. -/
def lift (u : Fin 2 → ℝ) : V3 := ⟨u 0, u 1, 0⟩

/-- The surface (or field) in space whose Jacobian is `J` and whose second derivatives `h` have no
component along `z`. -/
def sheet (J : Jac) (h : Fin 3 → Fin 2 → ℝ) : Surf where
  a := fun i => lift (J i)
  d11 := lift (h 0)
  d22 := lift (h 1)
  d12 := lift (h 2)

/-- A field along `z`. -/
def upright (w : Fin 2 → ℝ) (h : Fin 3 → ℝ) : Surf where
  a := fun i => ⟨0, 0, w i⟩
  d11 := ⟨0, 0, h 0⟩
  d22 := ⟨0, 0, h 1⟩
  d12 := ⟨0, 0, h 2⟩

/-- Determinant of the Jacobian. -/
def jdet (J : Jac) : ℝ := J 0 0 * J 1 1 - J 0 1 * J 1 0

/-- The columns of the Jacobian are orthonormal. -/
def Orthonormal (J : Jac) : Prop :=
  J 0 0 ^ 2 + J 0 1 ^ 2 = 1 ∧ J 1 0 ^ 2 + J 1 1 ^ 2 = 1 ∧ J 0 0 * J 1 0 + J 0 1 * J 1 1 = 0

end Verif.Planar
