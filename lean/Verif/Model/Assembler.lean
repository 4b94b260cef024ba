import Verif.Model.Loads

/-!
# State of the assembler

Models the members of `gsThinShellAssembler` that decide which loads are active, what `rhs()`
returns and which status is reported (`src/gsThinShellAssembler.h` l.164-320, 335-375, 395-402,
640-703, `src/gsThinShellAssembler.hpp` l.205-275, 1304-1322, 1436-2310, 2448-2478).

The work of the expression assembler is a parameter of every call: the vectors it adds and whether
it throws.  Functions (pressure, foundation) are identified by numbers.
-/

namespace Verif.Assembler

open Verif.Loads

/-- `ThinShellAssemblerStatus` (`src/gsThinShellAssembler.h` l.53-58). -/
inductive Status where
  | success
  | assemblyError
  | dimensionError
deriving DecidableEq

/-- Members (`src/gsThinShellAssembler.h` l.655-703).  `none` for a pointer or the status means
uninitialised; `rhsOwn = none` is an empty `m_rhs`; `rhsAsm` is `m_assembler.rhs()`;
`cont`/`optCont` are `m_continuity` and the option "Continuity". -/
structure State (P : Type) where
  cont : ℤ
  optCont : ℤ
  foundFun : Option ℕ
  pressFun : Option ℕ
  foundInd : Bool
  pressInd : Bool
  pLoads : List (PointLoad P)
  rhsOwn : Option Vec
  rhsAsm : Vec
  status : Option Status

/-- What the expression assembler contributes in one call: body force, internal force, boundary
terms (`base`), the vectors of pressures and foundations, and whether it runs without exception. -/
structure Elem where
  base : Vec
  press : ℕ → Vec
  found : ℕ → Vec
  ok : Bool

/-- The assembly routines. -/
inductive Routine where
  /-- `assemble()` -/
  | linear
  /-- `assembleVector(deformed)` -/
  | vector
  /-- `assembleMatrix(deformed)` -/
  | matrix
  /-- `assembleMass()` -/
  | mass
  /-- `assembleFoundation()` -/
  | foundation
  /-- `assemblePressureMatrix(p)` and its variants -/
  | pressureMatrix (f : ℕ)
  /-- `assemblePressureVector(p)` and its variants -/
  | pressureVector (f : ℕ)
  /-- `assemblePressureVector(deformed)` -/
  | pressureVectorReg
  /-- `assembleFoundationVector(f, deformed)` -/
  | foundationVector (f : ℕ)
  /-- `assembleFoundationVector(deformed)` -/
  | foundationVectorReg

variable {P : Type}

/-- State after the constructors (`src/gsThinShellAssembler.hpp` l.34-98, 190-207, 241-275):
pointers and status are not initialised. -/
def State.new : State P :=
  ⟨-1, -1, none, none, false, false, [], none, fun _ => 0, none⟩

/-- The part of `_initialize` that matters here (`src/gsThinShellAssembler.hpp` l.262-265). -/
def State.drop (s : State P) : State P := { s with foundInd := false, pressInd := false }

/-- `_getOptions` (`src/gsThinShellAssembler.hpp` l.211-223).  The nested `_initialize` calls
`_assembleDirichlet`, which calls `_getOptions` again, now without effect. -/
def State.getOptions (s : State P) : State P :=
  if s.cont ≠ s.optCont then ({ s with cont := s.optCont }).drop else s

/-- `_initialize` including the call of `_getOptions` in `_assembleDirichlet`
(`src/gsThinShellAssembler.hpp` l.241-275, 1304-1311). -/
def State.initialize (s : State P) : State P := s.getOptions.drop

/-- Configuration calls. -/
inductive Config (P : Type) where
  | setPointLoads (l : List (PointLoad P))
  | setFoundation (f : ℕ)
  | setPressure (f : ℕ)
  | setGeometry
  | setBasis
  | setSpaceBasis
  | updateBCs
  /-- `options().setInt("Continuity", c)` -/
  | optionContinuity (c : ℤ)
  /-- `setOptions` with a list whose "Continuity" is `c` -/
  | setOptions (c : ℤ)

/-- Effect of a configuration call (`src/gsThinShellAssembler.h` l.165-188, 335-375,
`src/gsThinShellAssembler.hpp` l.225-239). -/
def State.config (s : State P) : Config P → State P
  | .setPointLoads l => { s with pLoads := l }
  | .setFoundation f => { s with foundFun := some f, foundInd := true }
  | .setPressure f => { s with pressFun := some f, pressInd := true }
  | .setGeometry => s.getOptions.initialize
  | .setBasis => s.getOptions.initialize
  | .setSpaceBasis => s.getOptions.initialize
  | .updateBCs => s.getOptions
  | .optionContinuity c => { s with optCont := c }
  | .setOptions c => if s.optCont ≠ c then ({ s with optCont := c }).initialize else s

/-- Vector of a registered load if its flag is set; using the flag without a function is a
dereference of an uninitialised pointer. -/
def active (ind : Bool) (f : Option ℕ) (v : ℕ → Vec) : Outcome Vec :=
  if ind then (match f with | none => .ub | some f => .ok (v f)) else .ok (fun _ => 0)

/-- Vector assembly, common to `assemble()` and `assembleVector` (l.1577-1627, 1664-1703,
2026-2064, 2096-2134): registered foundation and pressure, element terms, then, if there are point
loads, the copy into `m_rhs` and `_applyLoads`.  On an exception the partial vector is left in the
expression assembler (here: unchanged zero vector) and `m_rhs` keeps its value. -/
noncomputable def State.assembleVec (d : ℕ) (m : Mapper) (S : Space P) (s : State P) (e : Elem) :
    Outcome (State P) :=
  (active s.foundInd s.foundFun e.found).bind fun vf =>
  (active s.pressInd s.pressFun e.press).bind fun vp =>
  if e.ok then
    let v : Vec := fun g => e.base g + vf g + vp g
    match s.pLoads with
    | [] => .ok { s with rhsAsm := v, status := some .success }
    | l :: ls =>
      match applyLoads d m S (l :: ls) v with
      | .ok r => .ok { s with rhsAsm := v, rhsOwn := some r, status := some .success }
      | .throws => .ok { s with rhsAsm := v, rhsOwn := some v, status := some .assemblyError }
      | .ub => .ub
  else .ok { s with rhsAsm := fun _ => 0, status := some .assemblyError }

/-- Status of a `try` block that sets `Success` at its end and `AssemblyError` on an exception. -/
def outcomeStatus (ok : Bool) : Status := if ok then .success else .assemblyError

/-- Effect of a routine on the state. -/
noncomputable def State.run (d : ℕ) (m : Mapper) (S : Space P) (s : State P) (e : Elem) :
    Routine → Outcome (State P)
  | .linear => s.getOptions.assembleVec d m S e
  | .vector => s.getOptions.assembleVec d m S e
  | .matrix =>
    let s := s.getOptions
    (active s.foundInd s.foundFun e.found).bind fun _ =>
    (active s.pressInd s.pressFun e.press).bind fun _ =>
    .ok { s with rhsAsm := fun _ => 0, status := some (outcomeStatus e.ok) }
  | .mass =>
    .ok { s with rhsAsm := fun _ => 0
                 status := if e.ok then s.status else some .assemblyError }
  | .foundation =>
    match s.foundFun with
    | none => .ub
    | some _ => .ok { s with rhsAsm := fun _ => 0, status := some (outcomeStatus e.ok) }
  | .pressureMatrix _ => .ok { s with status := some (outcomeStatus e.ok) }
  | .pressureVector f =>
    .ok { s with rhsAsm := if e.ok then (fun g => s.rhsAsm g + e.press f g) else s.rhsAsm
                 status := some (outcomeStatus e.ok) }
  | .pressureVectorReg =>
    match s.pressFun with
    | none => .ub
    | some f =>
      -- the inner call catches the exception, the outer one overwrites its status (l.2240-2252)
      .ok { s with rhsAsm := if e.ok then (fun g => s.rhsAsm g + e.press f g) else s.rhsAsm
                   status := some .success }
  | .foundationVector f =>
    .ok { s with rhsAsm := if e.ok then (fun g => s.rhsAsm g + e.found f g) else s.rhsAsm
                 status := some (outcomeStatus e.ok) }
  | .foundationVectorReg =>
    match s.foundFun with
    | none => .ub
    | some f =>
      .ok { s with rhsAsm := if e.ok then (fun g => s.rhsAsm g + e.found f g) else s.rhsAsm
                   status := some .success }

/-- The value a routine returns: `return m_status`; an uninitialised status is undefined
behaviour. -/
def State.statusOut (s : State P) : Outcome Status :=
  match s.status with
  | none => .ub
  | some st => .ok st

/-- `assemble(deformed, Matrix, homogenize)` with `Matrix = true`
(`src/gsThinShellAssembler.hpp` l.2456-2469). -/
noncomputable def State.full (d : ℕ) (m : Mapper) (S : Space P) (s : State P) (e1 e2 : Elem) :
    Outcome (State P) :=
  (s.run d m S e1 .matrix).bind fun s1 =>
    if s1.status = some .success then s1.run d m S e2 .vector else .ok s1

/-- `rhs()` (`src/gsThinShellAssembler.h` l.401). -/
def State.rhs (s : State P) : Vec := match s.rhsOwn with | none => s.rhsAsm | some r => r

/-- The copy constructor: `operator=` does not copy `m_status`
(`src/gsThinShellAssembler.h` l.137-140, `src/gsThinShellAssembler.hpp` l.100-147). -/
def State.copy (s : State P) : State P := { s with status := none }

/-- One step of a client program. -/
inductive Op (P : Type) where
  | config (c : Config P)
  | call (r : Routine) (e : Elem)

/-- Run a client program. -/
noncomputable def exec (d : ℕ) (m : Mapper) (S : Space P) : List (Op P) → State P →
    Outcome (State P)
  | [], s => .ok s
  | .config c :: ops, s => exec d m S ops (s.config c)
  | .call r e :: ops, s => (s.run d m S e r).bind (exec d m S ops)

/-! ## Discretisation basis -/

/-- A reference to a basis: the member `m_basis` of an assembler object or an object outside. -/
inductive Ref where
  | own (k : ℕ)
  | ext (j : ℕ)
deriving DecidableEq

/-- Memory: the member `m_basis` of live assemblers, the bases outside that are alive, and
`m_spaceBasis` of each assembler (`src/gsThinShellAssembler.h` l.660-665).  Bases are identified
by numbers. -/
structure Heap where
  own : ℕ → Option ℕ
  ext : ℕ → Option ℕ
  space : ℕ → Ref

/-- Dereference. -/
def Heap.deref (h : Heap) : Ref → Outcome ℕ
  | .own k => match h.own k with | none => .ub | some b => .ok b
  | .ext j => match h.ext j with | none => .ub | some b => .ok b

/-- The basis of the discretisation space, `*m_spaceBasis`
(`src/gsThinShellAssembler.hpp` l.256). -/
def Heap.discretisation (h : Heap) (k : ℕ) : Outcome ℕ := h.deref (h.space k)

/-- Operations on assemblers and outside bases. -/
inductive HeapOp where
  /-- constructor with a material container, basis `j` (l.34-55) -/
  | newContainer (k j : ℕ)
  /-- constructor with a material pointer, basis `j` (l.69-98) -/
  | newPointer (k j : ℕ)
  /-- copy construction or assignment `k = m` (l.100-147) -/
  | copy (k m : ℕ)
  /-- move construction or assignment `k = give(m)` (`src/gsThinShellAssembler.h` l.143-146,
  `src/gsThinShellAssembler.hpp` l.149-194); `e` is what is left in the member `m_basis` of `m` -/
  | move (k m e : ℕ)
  | setBasis (k b : ℕ)
  | setSpaceBasis (k j : ℕ)
  | destroy (k : ℕ)
  /-- an outside basis is created or changed by its owner -/
  | writeExt (j b : ℕ)
  | destroyExt (j : ℕ)

/-- Pointwise update. -/
def upd {α : Type} (f : ℕ → α) (k : ℕ) (a : α) : ℕ → α := fun i => if i = k then a else f i

/-- Effect of an operation; reading a destroyed object is undefined behaviour. -/
def Heap.step (h : Heap) : HeapOp → Outcome Heap
  | .newContainer k j =>
    match h.ext j with
    | none => .ub
    | some b => .ok { h with own := upd h.own k (some b), space := upd h.space k (.own k) }
  | .newPointer k j =>
    match h.ext j with
    | none => .ub
    | some b => .ok { h with own := upd h.own k (some b), space := upd h.space k (.ext j) }
  | .copy k m =>
    match h.own m with
    | none => .ub
    | some b => .ok { h with own := upd h.own k (some b), space := upd h.space k (h.space m) }
  | .move k m e =>
    match h.own m with
    | none => .ub
    | some b =>
      .ok { h with own := upd (upd h.own m (some e)) k (some b), space := upd h.space k (h.space m) }
  | .setBasis k b =>
    match h.own k with
    | none => .ub
    | some _ => .ok { h with own := upd h.own k (some b) }
  | .setSpaceBasis k j =>
    match h.own k with
    | none => .ub
    | some _ => .ok { h with space := upd h.space k (.ext j) }
  | .destroy k => .ok { h with own := upd h.own k none }
  | .writeExt j b => .ok { h with ext := upd h.ext j (some b) }
  | .destroyExt j => .ok { h with ext := upd h.ext j none }

/-- Run a sequence of operations. -/
def Heap.exec : List HeapOp → Heap → Outcome Heap
  | [], h => .ok h
  | op :: ops, h => (h.step op).bind (Heap.exec ops)

/-! ## Interfaces -/

/-- The coupling lists (`src/gsThinShellAssembler.h` l.701); interfaces are identified by
numbers. -/
structure Ifc where
  strongC0 : List ℕ
  strongC1 : List ℕ
  weakC0 : List ℕ
  weakC1 : List ℕ
  uncoupled : List ℕ

/-- The kinds of coupling. -/
inductive Kind where
  | strongC0 | strongC1 | weakC0 | weakC1 | uncoupled
deriving DecidableEq

/-- `addStrongC0` … `addUncoupled`: the list is assigned (`src/gsThinShellAssembler.hpp`
l.281-309). -/
def Ifc.add (s : Ifc) (l : List ℕ) : Kind → Ifc
  | .strongC0 => { s with strongC0 := l }
  | .strongC1 => { s with strongC1 := l }
  | .weakC0 => { s with weakC0 := l }
  | .weakC1 => { s with weakC1 := l }
  | .uncoupled => { s with uncoupled := l }

/-- The list of a kind. -/
def Ifc.get (s : Ifc) : Kind → List ℕ
  | .strongC0 => s.strongC0
  | .strongC1 => s.strongC1
  | .weakC0 => s.weakC0
  | .weakC1 => s.weakC1
  | .uncoupled => s.uncoupled

/-- The five searches (`src/gsThinShellAssembler.hpp` l.318-323). -/
def Ifc.assigned (s : Ifc) (i : ℕ) : Bool :=
  s.strongC0.contains i || s.strongC1.contains i || s.weakC0.contains i || s.weakC1.contains i
    || s.uncoupled.contains i

/-- `initInterfaces`: loop over the interfaces of the topology with the option "IfcDefault"
(`src/gsThinShellAssembler.hpp` l.311-340). -/
def Ifc.init (dflt : ℤ) : List ℕ → Ifc → Outcome Ifc
  | [], s => .ok s
  | i :: is, s =>
    if s.assigned i then Ifc.init dflt is s
    else if dflt = -1 then Ifc.init dflt is s
    else if dflt = 0 then Ifc.init dflt is { s with weakC0 := s.weakC0 ++ [i] }
    else if dflt = 1 then Ifc.init dflt is { s with weakC1 := s.weakC1 ++ [i] }
    else .throws

/-- Whether the displacement is coupled across an interface: by the penalty on its jump
(`assembleIfc(m_weakC0, …)`, `src/gsThinShellAssembler.hpp` l.907, 993, 1065, 1199, 1256, 1294:
only the list `m_weakC0` is used) or by the matching of degrees of freedom at all interfaces, which
`setup(…, m_continuity)` does for a continuity of at least 0 (l.1304-1311; external). -/
def Ifc.couplesDisplacement (s : Ifc) (cont : ℤ) (i : ℕ) : Bool :=
  s.weakC0.contains i || decide (0 ≤ cont)

/-- Whether the rotation is penalised in 3D (l.920, 941, 1078-1139, 1206, 1219). -/
def Ifc.couplesRotation (s : Ifc) (i : ℕ) : Bool := s.weakC1.contains i

end Verif.Assembler
