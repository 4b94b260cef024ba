import Verif.Outcome

/-!
# The explicit tension field

Models the option `Explicit` of `gsMaterialMatrixTFT`: the tension field is taken from a geometry
registered by `updateDeformed`, everything else from the current deformed geometry.  The wrapped
material is shared: its registered geometry is exchanged during the query and put back afterwards,
and its data of the deformed surface stay from the last evaluation with a registered geometry.

Simplifications: geometries (`G`) and points (`P`) are abstract; the undeformed geometry is fixed;
one thread; the value of the tension field at one point is a parameter `f g q p`, computed from
the deformed surface `g` at the point `q` and the undeformed surface at the point `p`.
-/

namespace Verif.Explicit

/-- `m_defpatches` of the wrapper and of the wrapped material, `m_defpatches0`
(`src/gsMaterialMatrixTFT.h` l.274-280), and the columns of the data of the deformed surface kept by
the wrapped material (`m_Acov_def_mat`, …): geometry and point each column was computed from. -/
structure St (G P : Type) where
  outer : Option G
  inner : Option G
  fixed : Option G
  cache : List (G × P)
deriving Repr, DecidableEq

/-- The first failure of a list of outcomes, or all values. -/
def collect {α : Type} : List (Outcome α) → Outcome (List α)
  | [] => .ok []
  | x :: l => x.bind fun a => (collect l).bind fun r => .ok (a :: r)

/-- `_computePoints`: the data of the deformed surface are recomputed only if a deformed geometry
is registered (`src/gsMaterialMatrixBaseDim.hpp` l.391-393, the columns l.424-479). -/
def points {G P : Type} (inner : Option G) (cache : List (G × P)) (us : List P) : List (G × P) :=
  match inner with
  | some g => us.map fun u => (g, u)
  | none => cache

/-- One point of the loop: `_getMetricDeformed` ensures that there are columns
(`src/gsMaterialMatrixBaseDim.hpp` l.1084-1090) and reads column `k`, out of bounds if there are not
so many. -/
def column {G P α : Type} (f : G → P → P → Outcome α) (cache : List (G × P)) (k : Nat) (p : P) :
    Outcome α :=
  if cache.isEmpty then .throws
  else match cache[k]? with
    | some (g, q) => f g q p
    | none => .ub

/-- An evaluation of the wrapped material at the points `us`
(`src/gsMaterialMatrixBaseDim.hpp` l.270-343): the values, column by column. -/
def values {G P α : Type} (f : G → P → P → Outcome α) (cache : List (G × P)) (us : List P) :
    Outcome (List α) :=
  collect (us.mapIdx fun k p => column f cache k p)

/-- `setDeformed` of the wrapper: also registered with the wrapped material
(`src/gsMaterialMatrixTFT.h` l.210-229). -/
def setDeformed {G P : Type} (s : St G P) (g : Option G) : St G P := { s with outer := g, inner := g }

/-- `updateDeformed` (`src/gsMaterialMatrixTFT.h` l.231-242). -/
def updateDeformed {G P : Type} (s : St G P) (g : Option G) : St G P := { s with fixed := g }

/-- Any evaluation of the wrapped material by the wrapper, e.g. of the stress
(`src/gsMaterialMatrixTFT.hpp` l.117-118, 162, 206): the state afterwards and the values. -/
def evaluate {G P α : Type} (f : G → P → P → Outcome α) (s : St G P) (us : List P) :
    St G P × Outcome (List α) :=
  let c := points s.inner s.cache us
  ({ s with cache := c }, values f c us)

/-- `_compute_TF` with the option `Explicit` (`src/gsMaterialMatrixTFT.hpp` l.779-791): the geometry
of the wrapped material is put back by a statement after the evaluation, so not if the evaluation
throws. -/
def computeTF {G P α : Type} (expl : Bool) (f : G → P → P → Outcome α) (s : St G P)
    (us : List P) : St G P × Outcome (List α) :=
  if expl then
    let tmp := s.inner
    let c := points s.fixed s.cache us
    match values f c us with
    | .ok r => ({ s with inner := tmp, cache := c }, .ok r)
    | .throws => ({ s with inner := s.fixed, cache := c }, .throws)
    | .ub => ({ s with inner := s.fixed, cache := c }, .ub)
  else evaluate f s us

/-- Calls of the users of the wrapper. -/
inductive Op (G P : Type) where
  | setDeformed (g : Option G)
  | updateDeformed (g : Option G)
  | evaluate (us : List P)
  | field (us : List P)
deriving Repr, DecidableEq

/-- One call (the caller may catch an error and go on). -/
def step {G P α : Type} (expl : Bool) (f : G → P → P → Outcome α) (s : St G P) : Op G P → St G P
  | .setDeformed g => setDeformed s g
  | .updateDeformed g => updateDeformed s g
  | .evaluate us => (evaluate f s us).1
  | .field us => (computeTF expl f s us).1

/-- A sequence of calls. -/
def run {G P α : Type} (expl : Bool) (f : G → P → P → Outcome α) (s : St G P)
    (ops : List (Op G P)) : St G P := ops.foldl (step expl f) s

end Verif.Explicit
