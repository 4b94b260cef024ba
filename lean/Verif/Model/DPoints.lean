import Verif.Outcome

/-!
# The derivative of the tangent at several points

Models the loop of `eval3D_dmatrix` of the hyperelastic materials over a set of points.  The data of
the points (metrics, thickness, parameters) are columns of member matrices, filled by
`_computePoints`.  For all materials but the incompressible neo-Hookean one the derivative is taken
numerically: `Cfun` calls `eval3D_matrix_C` of the same material for one point, which fills the same
members again.

Simplifications: points (`P`) and heights (`Z`) are abstract; one thread; a deformed geometry is
registered; the derivative at one point is a parameter `f q z`, computed from the data of the point
`q` and the height `z`; the number of evaluations of one finite difference is not counted, each
leaves the members as the first does.
-/

namespace Verif.DPoints

/-- The member matrices: the point each column was computed from (`m_parmat`, `m_Tmat`,
`m_Acov_def_mat`, …, `src/gsMaterialMatrixBaseDim.hpp` l.388-420). -/
abbrev Cache (P : Type) := List P

/-- `_computePoints(patch,u)` (`src/gsMaterialMatrixBaseDim.hpp` l.388-420). -/
def computePoints {P : Type} (us : List P) : Cache P := us

/-- Result of one step: the members and the values found so far. -/
abbrev Run (P α : Type) := Outcome (Cache P × List α)

/-- One turn of the inner loop: `m_parmat(v,k)` and `_getMetric(k, z)` read column `k`, out of
bounds if there are not so many; `dCijkl(patch,u.col(k),z(j,k))` takes the numerical derivative,
which leaves the members filled for the one point `u`, or the closed form, which leaves them
unchanged (`src/gsMaterialMatrixNonlinear.hpp` l.355-366, 376-392, 303-312). -/
def turn {P Z α : Type} (numerical : Bool) (f : P → Z → α) (k : Nat) (u : P) (z : Z)
    (s : Cache P × List α) : Run P α :=
  match s.1[k]? with
  | none => .ub
  | some q => .ok (if numerical then computePoints [u] else s.1,
      s.2 ++ [f q z])

/-- The inner loop over the heights of point `k`. -/
def heights {P Z α : Type} (numerical : Bool) (f : P → Z → α) (k : Nat) (u : P) :
    List Z → Cache P × List α → Run P α
  | [], s => .ok s
  | z :: zs, s => (turn numerical f k u z s).bind fun s' => heights numerical f k u zs s'

/-- The outer loop over the points from number `k` on. -/
def points {P Z α : Type} (numerical : Bool) (f : P → Z → α) (zs : P → List Z) :
    Nat → List P → Cache P × List α → Run P α
  | _, [], s => .ok s
  | k, u :: us, s =>
    (heights numerical f k u (zs u) s).bind fun s' => points numerical f zs (k + 1) us s'

/-- `eval3D_dmatrix` (`src/gsMaterialMatrixNonlinear.hpp` l.344-370); values in the order in which
they are computed. -/
def dmatrix {P Z α : Type} (numerical : Bool) (f : P → Z → α) (zs : P → List Z) (us : List P) :
    Outcome (List α) :=
  (points numerical f zs 0 us (computePoints us, [])).map Prod.snd

end Verif.DPoints
