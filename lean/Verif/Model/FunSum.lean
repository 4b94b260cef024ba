import Verif.Outcome
import Mathlib.Algebra.BigOperators.Group.List.Basic
import Mathlib.Data.Real.Basic

/-!
# Sums of functions

Models `gsFunctionSum` and `gsFunctionPieceSum` (`src/gsFunctionSum.h`).
-/

namespace Verif.FunSum

/-- One piece of a function set: support box (lower and upper bound per direction), value, and
the derivatives of any order (`eval_into`, `deriv_into`, `deriv2_into`, `evalAllDers_into`;
order 0 is the value).  Points `P` and values `V` are abstract. -/
structure Piece (P V : Type) where
  support : List (ℝ × ℝ)
  ders : ℕ → P → V

/-- A function set (`gsFunctionSet`): its pieces and the dimensions of its domain and range. -/
structure FunSet (P V : Type) where
  pieces : List (Piece P V)
  domainDim : ℕ
  targetDim : ℕ

variable {P V : Type}

/-- Access to `m_functions[i]` / `piece(k)`: unchecked vector indexing. -/
def get {α : Type} (l : List α) (i : ℕ) : Outcome α :=
  match l[i]? with
  | some a => .ok a
  | none => .ub

/-- One step of the support loop for function `p` (`src/gsFunctionSum.h` l.121-130): for every
row of the current support take the smaller lower and the larger upper bound.  A support of the
other function with fewer rows is read out of bounds. -/
noncomputable def enlarge : List (ℝ × ℝ) → List (ℝ × ℝ) → Outcome (List (ℝ × ℝ))
  | [], _ => .ok []
  | _ :: _, [] => .ub
  | a :: l, b :: m =>
    (enlarge l m).map (fun r => ((if a.1 > b.1 then b.1 else a.1),
      (if a.2 < b.2 then b.2 else a.2)) :: r)

/-- The loop over the functions `1 … n-1` in the piece constructor (`src/gsFunctionSum.h`
l.120-130). -/
noncomputable def supportLoop (k : ℕ) : List (FunSet P V) → List (ℝ × ℝ) → Outcome (List (ℝ × ℝ))
  | [], s => .ok s
  | f :: fs, s => (get f.pieces k).bind (fun p => (enlarge s p.support).bind (supportLoop k fs))

/-- Support of piece `k` of the sum (`src/gsFunctionSum.h` l.115-131); `func(0)` of an empty sum
is an out-of-bounds access. -/
noncomputable def support (fs : List (FunSet P V)) (k : ℕ) : Outcome (List (ℝ × ℝ)) :=
  match fs with
  | [] => .ub
  | f :: rest => (get f.pieces k).bind (fun p => supportLoop k rest p.support)

/-- `_init`: the pieces `0 … nPieces-1` of the first function are created in turn
(`src/gsFunctionSum.h` l.81-93).  The assertions on the number of functions, pieces and
dimensions are compiled out of release builds; with no functions `functions[0]` is read out of
bounds.  The result lists the supports. -/
noncomputable def initPieces (fs : List (FunSet P V)) : ℕ → Outcome (List (List (ℝ × ℝ)))
  | 0 => .ok []
  | n + 1 => (initPieces fs n).bind (fun l => (support fs n).map (fun s => l ++ [s]))

/-- The constructors from a list of functions (`src/gsFunctionSum.h` l.38-54). -/
noncomputable def construct (fs : List (FunSet P V)) : Outcome (List (List (ℝ × ℝ))) :=
  match fs with
  | [] => .ub
  | f :: _ => initPieces fs f.pieces.length

/-- The loop `result += tmp` over the functions `1 … n-1` (`src/gsFunctionSum.h` l.149-153,
161-165, 174-178, 188-195); `m` is the order of the derivative. -/
def sumLoop [Add V] (k m : ℕ) (u : P) : List (FunSet P V) → V → Outcome V
  | [], r => .ok r
  | f :: fs, r => (get f.pieces k).bind (fun p => sumLoop k m u fs (r + p.ders m u))

/-- `eval_into` (`m = 0`), `deriv_into` (`m = 1`), `deriv2_into` (`m = 2`) and the blocks of
`evalAllDers_into` of piece `k` (`src/gsFunctionSum.h` l.145-196). -/
def ders [Add V] (fs : List (FunSet P V)) (k m : ℕ) (u : P) : Outcome V :=
  match fs with
  | [] => .ub
  | f :: rest => (get f.pieces k).bind (fun p => sumLoop k m u rest (p.ders m u))

/-- `nPieces()` (`src/gsFunctionSum.h` l.56). -/
def nPieces (fs : List (FunSet P V)) : Outcome ℕ :=
  (get fs 0).map (fun f => f.pieces.length)

/-- The loop of `print`, `for (p = 1; p != m_size; p++)` with access to `m_pieces[p]`, for a sum
of `nFun` functions (`m_size`) and `nPc` pieces (`src/gsFunctionSum.h` l.68-73).  The list of
printed indices is returned.  For `m_size = 0` the loop starts beyond its end and does not stop
before leaving the vector. -/
def print (nFun nPc : ℕ) : Outcome (List ℕ) :=
  if nFun = 0 then .ub
  else if nFun ≤ 1 then .ok []
  else if nPc < nFun then .ub
  else .ok ((List.range (nFun - 1)).map (· + 1))

/-! ## Object identity -/

/-- A sum as an object in memory: its functions and, per piece, the identifier of the sum object
the piece refers to (`m_geom`, `src/gsFunctionSum.h` l.97, 209). -/
structure Obj (P V : Type) where
  funs : List (FunSet P V)
  owners : List ℕ

/-- Memory: identifier to live object. -/
abbrev Mem (P V : Type) := ℕ → Option (Obj P V)

/-- Construction of the object `id`: the pieces store `this` (`src/gsFunctionSum.h` l.92). -/
def Mem.new (m : Mem P V) (id : ℕ) (fs : List (FunSet P V)) : Mem P V := fun i =>
  if i = id then some ⟨fs, List.replicate (match fs with | [] => 0 | f :: _ => f.pieces.length) id⟩
  else m i

/-- The implicit copy constructor copies `m_pieces`, including their pointers
(`src/gsFunctionSum.h` l.95-99: no user-defined copy constructor). -/
def Mem.copy (m : Mem P V) (src dst : ℕ) : Mem P V := fun i => if i = dst then m src else m i

/-- Destruction. -/
def Mem.destroy (m : Mem P V) (id : ℕ) : Mem P V := fun i => if i = id then none else m i

/-- Evaluation of piece `k` of the object `id`: the piece reads the functions of its owner
(`src/gsFunctionSum.h` l.64, 145-154). -/
def Mem.ders [Add V] (mem : Mem P V) (id k m : ℕ) (u : P) : Outcome V :=
  match mem id with
  | none => .ub
  | some o => (get o.owners k).bind (fun w =>
      match mem w with
      | none => .ub
      | some ow => FunSum.ders ow.funs k m u)

end Verif.FunSum
