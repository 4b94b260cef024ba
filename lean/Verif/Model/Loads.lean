import Verif.Outcome
import Mathlib.Data.Real.Basic
import Mathlib.Algebra.BigOperators.Group.List.Basic

/-!
# Point loads and point masses

Models `_applyLoads` and `_applyMass` of `src/gsThinShellAssembler.hpp` (l.1324-1434).
-/

namespace Verif.Loads

/-- Vector of the system: entry per global index. -/
abbrev Vec := ℕ → ℝ

/-- Matrix of the system. -/
abbrev Mat := ℕ → ℕ → ℝ

/-- Degree-of-freedom mapper (`gsDofMapper`): global index of a local basis function of a patch in
a component, and the number of free indices (`is_free_index(g)` is `g < freeSize`). -/
structure Mapper where
  glob : ℕ → ℕ → ℕ → ℕ
  freeSize : ℕ

/-- One entry of `gsPointLoads`. -/
structure PointLoad (P : Type) where
  patch : ℕ
  point : P
  parametric : Bool
  value : List ℝ

/-- What `_applyLoads` asks of the space basis: the active functions of a patch at a parametric
point with their values (`active_into`, `eval_into`), whether the basis is one of the two
supported types, and the inversion of physical points (`invertPoints`). -/
structure Space (P : Type) where
  active : ℕ → P → List (ℕ × ℝ)
  understood : Bool
  invert : ℕ → P → P

variable {P : Type}

/-- The parametric position of a load and its active functions (l.1339-1370). -/
def Space.acts (S : Space P) (l : PointLoad P) : List (ℕ × ℝ) :=
  S.active l.patch (if l.parametric then l.point else S.invert l.patch l.point)

/-- The inner loop over the active functions (l.1377-1382). -/
noncomputable def addActs (m : Mapper) (p j : ℕ) (v : ℝ) : List (ℕ × ℝ) → Vec → Vec
  | [], r => r
  | (i, b) :: rest, r =>
    addActs m p j v rest
      (if m.glob p j i < m.freeSize then
        (fun g => if g = m.glob p j i then r g + b * v else r g) else r)

open Classical in
/-- The loop over the components (l.1373-1384): `value[j]` is read without check. -/
noncomputable def addComps (m : Mapper) (p : ℕ) (value : List ℝ) (acts : List (ℕ × ℝ)) :
    List ℕ → Vec → Outcome Vec
  | [], r => .ok r
  | j :: js, r =>
    match value[j]? with
    | none => .ub
    | some v => addComps m p value acts js (if v ≠ 0 then addActs m p j v acts r else r)

/-- `_applyLoads` (l.1324-1386): `d` is the number of components. -/
noncomputable def applyLoads (d : ℕ) (m : Mapper) (S : Space P) :
    List (PointLoad P) → Vec → Outcome Vec
  | [], r => .ok r
  | l :: ls, r =>
    if S.understood then
      (addComps m l.patch l.value (S.acts l) (List.range d) r).bind (applyLoads d m S ls)
    else .throws

/-! ## Masses -/

/-- Inner loop over the second active function of `_applyMass` (l.1421-1427). -/
noncomputable def addRow (m : Mapper) (p j k : ℕ) (bk v : ℝ) : List (ℕ × ℝ) → Mat → Mat
  | [], M => M
  | (i, b) :: rest, M =>
    addRow m p j k bk v rest
      (if m.glob p j k < m.freeSize ∧ m.glob p j i < m.freeSize then
        (fun g h => if g = m.glob p j k ∧ h = m.glob p j i then M g h + bk * b * v else M g h)
      else M)

/-- Loop over the first active function (l.1419-1428). -/
noncomputable def addBlock (m : Mapper) (p j : ℕ) (v : ℝ) (acts : List (ℕ × ℝ)) :
    List (ℕ × ℝ) → Mat → Mat
  | [], M => M
  | (k, bk) :: rest, M => addBlock m p j v acts rest (addRow m p j k bk v acts M)

open Classical in
/-- Loop over the components (l.1414-1430). -/
noncomputable def addMassComps (m : Mapper) (p : ℕ) (v : ℝ) (acts : List (ℕ × ℝ)) :
    List ℕ → Mat → Mat
  | [], M => M
  | j :: js, M => addMassComps m p v acts js (if v ≠ 0 then addBlock m p j v acts acts M else M)

/-- `_applyMass` (l.1388-1434).  The function takes the basis of the first patch for every mass;
the model covers masses whose patch has that basis.  The value is the first entry, read without
check. -/
noncomputable def applyMass (d : ℕ) (m : Mapper) (S : Space P) :
    List (PointLoad P) → Mat → Outcome Mat
  | [], M => .ok M
  | l :: ls, M =>
    match l.value[0]? with
    | none => .ub
    | some v => applyMass d m S ls (addMassComps m l.patch v (S.acts l) (List.range d) M)

/-- The mass matrix stored by `assembleMass` (l.1465-1472): the assembled matrix.  The call of
`_applyMass` is inside a comment (l.1474-1490), the registered point masses are not used. -/
def assembleMass (elem : Mat) (_masses : List (PointLoad P)) : Mat := elem

end Verif.Loads
