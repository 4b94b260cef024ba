import Verif.Outcome

/-!
# Layout of point/height results

Models the column bookkeeping of the `eval3D_*` functions.
-/

namespace Verif.Layout

/-- Kinds of `eval3D_*` quantity, by what they allocate. -/
inductive Quantity where
  | strain | pstrain | tensionfield | deformation | vector | matrix | stress | pstress
  | spec2cov | spec2con | cov2cart | con2cart
  | theta | gamma
  | thicknessStretch
deriving Repr, DecidableEq

/-- Column written for point `k` and height `j`: `colIdx = j*u.cols()+k` in every
function (e.g. `src/gsMaterialMatrixBaseDim.hpp` l.79, 101, 125, 148, 281;
`src/gsMaterialMatrixTFT.hpp` l.320, 352). -/
def colIdx (n j k : Nat) : Nat := j * n + k

/-- Number of allocated columns for `n = u.cols()` points and `m = z.rows()` heights.
`eval3D_strain` etc. allocate `u.cols()*z.rows()` (`src/gsMaterialMatrixBaseDim.hpp`
l.272, `src/gsMaterialMatrixLinear.hpp`, …; `_eval3D_Compressible_C33`,
`src/gsMaterialMatrixNonlinear.hpp` l.1872); the transformations
(`src/gsMaterialMatrixBaseDim.hpp` l.70, 92, 116, 139) and `eval3D_theta/gamma`
(`src/gsMaterialMatrixTFT.hpp` l.306, 338) allocate `u.cols()`. -/
def allocated (q : Quantity) (n m : Nat) : Nat :=
  match q with
  | .spec2cov | .spec2con | .cov2cart | .con2cart | .theta | .gamma => n
  | _ => n * m

/-- The write to column `colIdx n j k` is inside the matrix. -/
def writeInBounds (q : Quantity) (n m j k : Nat) : Prop := colIdx n j k < allocated q n m

/-- The matrix of thickness coordinates handed to the `eval3D_*` functions. -/
structure ZMat (H : Type) where
  rows : Nat
  cols : Nat
  val : Nat → Nat → H

/-- `z(j,k)`; Eigen checks the bounds with an assertion only. -/
def ZMat.read {H : Type} (z : ZMat H) (j k : Nat) : Outcome H :=
  if j < z.rows ∧ k < z.cols then .ok (z.val j k) else .ub

/-- `result.col(c) = a` (or `result(i,c) = …` for all rows); `none` is a column not yet
written.  Eigen checks the bounds with an assertion only. -/
def writeCol {α : Type} (r : List (Option α)) (c : Nat) (a : α) : Outcome (List (Option α)) :=
  if c < r.length then .ok (r.set c (some a)) else .ub

/-- Body of the inner loop: read the height, evaluate, write the column
(`src/gsMaterialMatrixBaseDim.hpp` l.281-287). -/
def body {α H : Type} (n : Nat) (z : ZMat H) (f : Nat → H → α) (r : List (Option α))
    (kj : Nat × Nat) : Outcome (List (Option α)) :=
  (z.read kj.2 kj.1).bind fun h => writeCol r (colIdx n kj.2 kj.1) (f kj.1 h)

/-- The pairs (point, height) in the order of the nested loops
(`src/gsMaterialMatrixBaseDim.hpp` l.278-280: points outside, heights inside). -/
def pairs (n m : Nat) : List (Nat × Nat) :=
  (List.range n).flatMap fun k => (List.range m).map fun j => (k, j)

/-- One `eval3D_*` function over `n` points: allocate, then the nested loops.  `f k h` is the
value at point `k` and height `h` (all rows of the column). -/
def run {α H : Type} (q : Quantity) (n : Nat) (z : ZMat H) (f : Nat → H → α) :
    Outcome (List (Option α)) :=
  (pairs n z.rows).foldl (fun acc kj => acc.bind fun r => body n z f r kj)
    (.ok (List.replicate (allocated q n z.rows) none))

/-- `_pstretch_into_impl` and `_pstretchDir_into_impl` for compressible materials
(`src/gsMaterialMatrixNonlinear.hpp` l.231-233, 279-281): the thickness stretches of all
points are computed with a 1×1 matrix of heights; point `i` then uses entry `i`
(l.244, 292). -/
def midsurface {α β H : Type} (zero : H) (n : Nat) (f : Nat → H → α) (g : Nat → α → β) :
    Outcome (List β) :=
  (run .thicknessStretch n ⟨1, 1, fun _ _ => zero⟩ f).bind fun row =>
    (List.range n).foldl (fun acc i => acc.bind fun out =>
      match row[i]? with
      | some (some a) => .ok (out ++ [g i a])
      | _ => .ub) (.ok [])

end Verif.Layout
