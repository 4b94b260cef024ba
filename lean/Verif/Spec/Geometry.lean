import Verif.Model.Geometry

/-! # Specification notions for surfaces -/

namespace Verif.Geometry

open V3

/-- Specification: two vectors are linearly independent. -/
def Indep (u v : V3) : Prop := ∀ c d : ℝ, c • u + d • v = 0 → c = 0 ∧ d = 0

/-- Kronecker delta. -/
def δ {n : ℕ} (i j : Fin n) : ℝ := if i = j then 1 else 0

/-- Specification: inner product of two plane vectors. -/
def plane (u v : Fin 2 → ℝ) : ℝ := u 0 * v 0 + u 1 * v 1

/-- Specification: a proper rotation, by its orthonormal right-handed columns. -/
structure Rotation where
  c0 : V3
  c1 : V3
  c2 : V3
  h00 : dot c0 c0 = 1
  h11 : dot c1 c1 = 1
  h22 : dot c2 c2 = 1
  h01 : dot c0 c1 = 0
  h02 : dot c0 c2 = 0
  h12 : dot c1 c2 = 0
  right_handed : dot (cross c0 c1) c2 = 1

/-- Apply a rotation. -/
def Rotation.act (R : Rotation) (v : V3) : V3 := v.x • R.c0 + v.y • R.c1 + v.z • R.c2

/-- The derivatives of the moved surface `R x + b`. -/
def Rotation.move (R : Rotation) (s : Surf) : Surf :=
  ⟨fun i => R.act (s.a i), R.act s.d11, R.act s.d22, R.act s.d12⟩

end Verif.Geometry
