import Verif.Model.Variation

/-!
# The matrices of the expressions on discrete spaces

Models how `src/gsThinShellUtils.h` reads the values of the basis functions from, and writes the
results to, dense matrices: `var1_expr`, `var2dot_expr`, `var2deriv2dot_expr`, `deriv2dot_expr`,
`deriv2_expr`, `flatdot_expr`, `flatdot2_expr` for `gsFeSpace` arguments.

A matrix records which entries have been written (`resize` leaves them indeterminate).  Writing
outside is `ub` (the index checks of Eigen are assertions).  The loops are the list of their writes,
in the order of the code.  `n` is the number of active scalar functions (`values[0].rows()`), `3` the
number of components; `cardinality()` is `3 * n`.  Layout of the data (G+Smo): `values[1].col(k)` has
derivative `c` of function `j` at `2*j+c`, `values[2].col(k)` has the second derivatives `11, 22, 12`
at `3*j`, `3*j+1`, `3*j+2`; for a geometry map the same with its components as functions.
-/

namespace Verif.ExprMat

open V3 Verif.Geometry Verif.Variation

/-- A dense matrix; `none` is an entry that has not been initialised. -/
structure Mat where
  rows : ℕ
  cols : ℕ
  get : ℕ → ℕ → Option ℝ

/-- `resize(r,c)` to a new size. -/
def resize (r c : ℕ) : Mat := ⟨r, c, fun _ _ => none⟩

/-- `resize(r,c); setZero()`. -/
def zeros (r c : ℕ) : Mat := ⟨r, c, fun _ _ => some 0⟩

/-- A write to one entry: row, column, value. -/
structure Write where
  row : ℕ
  col : ℕ
  val : ℝ

/-- `res(i,j) = x`. -/
def Mat.put (m : Mat) (w : Write) : Outcome Mat :=
  if w.row < m.rows ∧ w.col < m.cols then
    .ok ⟨m.rows, m.cols, fun i j => if i = w.row ∧ j = w.col then some w.val else m.get i j⟩
  else .ub

/-- A sequence of writes. -/
def run (m : Mat) : List Write → Outcome Mat
  | [] => .ok m
  | w :: l => (m.put w).bind fun m' => run m' l

/-- A column of `values[1]` or `values[2]`: its entries. -/
abbrev Col := ℕ → ℝ

/-- The field of function `j` in component `d`, read from the columns as the code does:
`vecFun(d, grads.at(2*j))`, `vecFun(d, grads.at(2*j+1))` (`src/gsThinShellUtils.h` l.168-169, 298-316)
and column `j` of `values[2].reshapeCol(k, 3, n)` (l.1340, 1546). -/
def readField (g h : Col) (d : Fin 3) (j : ℕ) : Surf :=
  basisField d (fun c => g (2 * j + c)) (fun c => h (3 * j + c))

/-- Component of a vector. -/
def comp (v : V3) (c : Fin 3) : ℝ := if c = 0 then v.x else if c = 1 then v.y else v.z

/-- `var1_expr` on a space (`src/gsThinShellUtils.h` l.149-176): `A = cardinality/dim`,
`res.row(d*A+j)` is the variation of the normal. -/
noncomputable def var1Mat (n : ℕ) (s : Surf) (g h : Col) : Outcome Mat :=
  run (resize (3 * n) 3) <|
    (List.finRange 3).flatMap fun (d : Fin 3) => (List.range n).flatMap fun j =>
      (List.finRange 3).map fun (c : Fin 3) =>
        ⟨(d : ℕ) * n + j, c, comp (var1 s (readField g h d j)) c⟩

/-- The four loops of `var2dot_expr`, `var2deriv2dot_expr` and `ovar2dot_expr`: `nU`, `nV` active
functions of the two spaces, `f` the value for two fields; the result has `u.cardinality()` rows and
columns (`src/gsThinShellUtils.h` l.282-333, 411-467, 1038-1163). -/
noncomputable def var2Mat (nU nV : ℕ) (gU hU gV hV : Col) (f : Surf → Surf → ℝ) : Outcome Mat :=
  run (resize (3 * nU) (3 * nU)) <|
    (List.range nU).flatMap fun j => (List.range nV).flatMap fun i =>
      (List.finRange 3).flatMap fun (d : Fin 3) => (List.finRange 3).map fun (c : Fin 3) =>
        ⟨(d : ℕ) * nU + j, (c : ℕ) * nV + i, f (readField gU hU d j) (readField gV hV c i)⟩

/-- `deriv2_expr` on a space (`src/gsThinShellUtils.h` l.1540-1557): `s = d*(cardinality+1)`, column
`s + i*dim` is column `i` of `values[2].reshapeCol(k, 3, n)`. -/
noncomputable def deriv2Mat (n : ℕ) (h : Col) : Outcome Mat :=
  run (zeros 3 (3 * (3 * n))) <|
    (List.range 3).flatMap fun d => (List.range n).flatMap fun i => (List.range 3).map fun r =>
      ⟨r, d * (3 * n + 1) + i * 3, h (3 * i + r)⟩

/-- `deriv2dot_expr` on a space (`src/gsThinShellUtils.h` l.1337-1345): block of rows `i*n, …` is the
transposed `values[2].reshapeCol(k, 3, n)` times component `i` of the vector. -/
noncomputable def deriv2dotMat (n : ℕ) (h : Col) (v : V3) : Outcome Mat :=
  run (resize (3 * n) 3) <|
    (List.finRange 3).flatMap fun (d : Fin 3) => (List.range n).flatMap fun j =>
      (List.range 3).map fun r => ⟨(d : ℕ) * n + j, r, h (3 * j + r) * comp v d⟩

/-- Reading an entry: an indeterminate or missing one is undefined behaviour. -/
def Mat.read (m : Mat) (i j : ℕ) : Outcome ℝ :=
  if i < m.rows ∧ j < m.cols then
    match m.get i j with
    | some x => .ok x
    | none => .ub
  else .ub

/-- Three entries read along a row or column, as a Voigt vector. -/
def read3 (f : ℕ → Outcome ℝ) : Outcome Voigt :=
  (f 0).bind fun a => (f 1).bind fun b => (f 2).bind fun c => .ok (vec3 a b c)

/-- `deriv2dot_expr` on a geometry map, with a matrix `V` of vectors in its rows: row `a` of
`vEv * tmp.transpose()` with `tmp = values[2].reshapeCol(k, 3, 3)` (`src/gsThinShellUtils.h`
l.1309-1325); `H` is the column of second derivatives of the map. -/
noncomputable def mapDeriv2Row (H : Col) (V : Mat) (a : ℕ) : Outcome Voigt :=
  (read3 fun c => V.read a c).bind fun v =>
    .ok fun r => ∑ c : Fin 3, v c * H (3 * c + r)

/-- `flatdot2_expr` at one pair (`src/gsThinShellUtils.h` l.1727-1733): block `i` of `A` (3×3) times
column `j` of `B` (the transposed matrix of row vectors `V`), third entry doubled, times the row
`M`. -/
noncomputable def flatdot2Entry (A V : Mat) (M : Voigt) (i j : ℕ) : Outcome ℝ :=
  (read3 fun c => V.read j c).bind fun b =>
    (read3 fun r => (read3 fun c => A.read r (i * 3 + c)).bind fun row => .ok (∑ c, row c * b c)).bind
      fun t => .ok (dotV M (dbl3 t))

/-- `flatdot_expr` at one pair (`src/gsThinShellUtils.h` l.1651-1667): `A j` is block `j` of the first
argument (3×2, `An` of them), `B i` block `i` of the second (2×3, `Bn` of them).  Row `i` runs over
`An`, column `j` over `Bn`, but block `i` is taken from the second and block `j` from the first
argument. -/
noncomputable def flatdotEntry (An Bn : ℕ) (A : ℕ → Fin 3 → Fin 2 → ℝ) (B : ℕ → Fin 2 → Fin 3 → ℝ)
    (C : Voigt) (i j : ℕ) : Outcome ℝ :=
  if i < Bn ∧ j < An then
    let t : Fin 2 → Fin 2 → ℝ := fun a b => ∑ k, B i a k * A j k b
    .ok (t 0 0 * C 0 + t 0 1 * C 2 + t 1 0 * C 2 + t 1 1 * C 1)
  else .ub

end Verif.ExprMat
