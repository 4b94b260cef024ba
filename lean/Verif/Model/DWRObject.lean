import Verif.Model.Assembler
import Mathlib.Data.Real.Basic
import Mathlib.Algebra.BigOperators.Group.Finset.Basic

/-!
# The error estimator as an object

Models lifetime, configuration and dual numbering of `gsThinShellAssemblerDWR`
(`src/gsThinShellAssemblerDWR.h` l.61-125, 273, 392-425, `src/gsThinShellAssemblerDWR.hpp` l.46-66,
199-221, 650-678, 1115-1143) and the error bookkeeping of `src/gsThinShellDWRHelper.h`.
-/

namespace Verif.DWR

open Verif.Assembler (upd)

/-! ## Lifetime -/

/-- Objects and the assemblers they point to: `ptr i` are `m_assemblerL` and `m_assemblerH` of
object `i` (`some none`: object exists with uninitialised pointers, `none`: no such object), `live`
the allocated assemblers. -/
structure Mem where
  ptr : ℕ → Option (Option (ℕ × ℕ))
  live : ℕ → Bool
  next : ℕ

/-- Lifetime operations. -/
inductive LifeOp where
  /-- constructor with arguments (l.46-66 of the `.hpp`) -/
  | construct (i : ℕ)
  /-- `gsThinShellAssemblerDWR()` (l.69) -/
  | empty (i : ℕ)
  /-- implicit copy constructor: the class declares none, the pointers are copied -/
  | copy (i j : ℕ)
  /-- destructor (l.62-66) -/
  | destroy (i : ℕ)

/-- `delete p`: deleting what is not allocated is undefined. -/
def Mem.delete (m : Mem) (p : ℕ) : Outcome Mem :=
  if m.live p then .ok { m with live := upd m.live p false } else .ub

/-- Effect of an operation.  Constructing over an existing object or using a missing one is not a C++
program; it is left without effect. -/
def Mem.step (m : Mem) : LifeOp → Outcome Mem
  | .construct i =>
    if (m.ptr i).isSome then .ok m else
    .ok { ptr := upd m.ptr i (some (some (m.next, m.next + 1)))
          live := upd (upd m.live m.next true) (m.next + 1) true
          next := m.next + 2 }
  | .empty i =>
    if (m.ptr i).isSome then .ok m else .ok { m with ptr := upd m.ptr i (some none) }
  | .copy i j =>
    if (m.ptr i).isSome then .ok m else
    match m.ptr j with
    | none => .ok m
    | some p => .ok { m with ptr := upd m.ptr i (some p) }
  | .destroy i =>
    match m.ptr i with
    | none => .ok m
    | some none => .ub
    | some (some (l, h)) =>
      ((m.delete l).bind (·.delete h)).map fun m => { m with ptr := upd m.ptr i none }

/-- Run a program. -/
def Mem.exec : List LifeOp → Mem → Outcome Mem
  | [], m => .ok m
  | o :: os, m => (m.step o).bind (Mem.exec os)

/-- Nothing constructed yet. -/
def Mem.start : Mem := ⟨fun _ => none, fun _ => false, 0⟩

/-! ## Configuration -/

/-- The data of one assembler that the estimates depend on; functions and geometries are identified
by numbers, `press`/`found` are the registered pressure and foundation. -/
structure Part where
  geo : ℕ
  bcs : ℕ
  loads : ℕ
  press : Option ℕ
  found : Option ℕ
  cont : ℤ
deriving DecidableEq

/-- The three sets of data: members of the estimator itself (`own`) and of its two assemblers. -/
structure Dwr where
  own : Part
  L : Part
  H : Part
deriving DecidableEq

/-- Setters (`src/gsThinShellAssemblerDWR.h` l.96-122). -/
inductive Setter where
  | pointLoads (k : ℕ)
  | foundation (k : ℕ)
  | pressure (k : ℕ)
  | updateBCs (k : ℕ)
  | undeformed (k : ℕ)
  /-- `setOptions` with a list whose "Continuity" is `c` -/
  | options (c : ℤ)

/-- Effect of a setter on one `gsThinShellAssembler`; a new geometry or continuity switches pressure
and foundation off (`src/gsThinShellAssembler.hpp` l.262-265, see C69). -/
def Part.set (p : Part) : Setter → Part
  | .pointLoads k => { p with loads := k }
  | .foundation k => { p with found := some k }
  | .pressure k => { p with press := some k }
  | .updateBCs k => { p with bcs := k }
  | .undeformed k => { p with geo := k, press := none, found := none }
  | .options c => if c = p.cont then p else { p with cont := c, press := none, found := none }

/-- Effect of a setter on the estimator: point loads and geometry are stored in its own members too
(l.103, 119), everything else is only passed on (l.100, 106, 109, 112). -/
def Dwr.set (x : Dwr) (s : Setter) : Dwr where
  own := match s with
    | .pointLoads k => { x.own with loads := k }
    | .undeformed k => { x.own with geo := k }
    | _ => x.own
  L := x.L.set s
  H := x.H.set s

/-- The constructor (l.46-66 of the `.hpp`): all three get the same data; the default continuity is
`-1`. -/
def Dwr.new (geo bcs : ℕ) : Dwr :=
  let p : Part := ⟨geo, bcs, 0, none, none, -1⟩
  ⟨p, p, p⟩

/-! ## Numbering of the dual vector -/

/-- A numbering: number of free functions and global index of each function. -/
structure Numbering where
  size : ℕ
  glob : ℕ → ℕ

/-- Adding the contributions of functions (pairs of function and value) to a vector: eliminated
functions are skipped, an index beyond the vector is written without check. -/
noncomputable def scatter (N : Numbering) (rows : ℕ) : List (ℕ × ℝ) → (ℕ → ℝ) → Outcome (ℕ → ℝ)
  | [], v => .ok v
  | (i, x) :: l, v =>
    if N.glob i < N.size then
      if N.glob i < rows then scatter N rows l (upd v (N.glob i) (v (N.glob i) + x)) else .ub
    else scatter N rows l v

/-- `_assembleDual` for one of the assemblers (l.199-221, 650-678, 1115-1143): the vector has the
size of the assembler's numbering (`initSystem`, `initVector`), but the entries are placed by the
numbering set up afterwards with the estimator's own `m_bcs` and continuity 0. -/
noncomputable def dualVector (num : ℕ → ℤ → Numbering) (own : Part) (a : Part) (c : List (ℕ × ℝ)) :
    Outcome (ℕ → ℝ) :=
  scatter (num own.bcs 0) (num a.bcs a.cont).size c (fun _ => 0)

/-! ## Helper -/

/-- Members of `gsThinShellDWRHelper` (`src/gsThinShellDWRHelper.h` l.176-180); `none` is
uninitialised. -/
structure Helper where
  error : Option ℝ
  errors : List ℝ
  sqerrors : List ℝ

/-- The empty constructor and the one from an assembler (l.32-40) leave `m_error` uninitialised. -/
def Helper.new : Helper := ⟨none, [], []⟩

/-- `error()` (l.138). -/
def Helper.getError (h : Helper) : Outcome ℝ :=
  match h.error with
  | none => .ub
  | some e => .ok e

/-- The result of a division in floating point: a number, or not finite if the divisor is zero. -/
noncomputable def fdiv (x y : ℝ) : Option ℝ := open Classical in if y = 0 then none else some (x / y)

/-- `errors(normalize)` (l.139-151). -/
noncomputable def Helper.getErrors (h : Helper) (normalize : Bool) : Outcome (List (Option ℝ)) :=
  if normalize then
    if h.errors = [] then .ok [] else
    h.getError.map fun e => h.errors.map fun x => fdiv |x| |e|
  else .ok (h.errors.map some)

/-- `absErrors(normalize)` (l.152-166). -/
noncomputable def Helper.getAbs (h : Helper) (normalize : Bool) : Outcome (List (Option ℝ)) :=
  if normalize then
    if h.errors = [] then .ok [] else
    h.getError.map fun e => h.errors.map fun x => fdiv |x| |e|
  else .ok (h.errors.map fun x => some |x|)

/-- `sqErrors(normalize)` (l.167-178). -/
noncomputable def Helper.getSq (h : Helper) (normalize : Bool) : Outcome (List (Option ℝ)) :=
  if normalize then
    if h.sqerrors = [] then .ok [] else
    h.getError.map fun e => h.sqerrors.map fun x => fdiv |x| (e ^ 2)
  else .ok (h.sqerrors.map some)

/-- `rhsL`/`rhsH` (l.70-104, 113-130): sum of the dual vectors of the requested places, `nb` and
`np` are the numbers of boundaries and points. -/
noncomputable def helperRhs {n : ℕ} (interior : Bool) (nb np : ℕ) (dI dB dP : Fin n → ℝ) : Fin n → ℝ :=
  fun i => (if interior then dI i else 0) + (if nb ≠ 0 then dB i else 0)
    + (if np ≠ 0 then dP i else 0)

end Verif.DWR
