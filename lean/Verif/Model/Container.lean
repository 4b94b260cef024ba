import Verif.Outcome
import Mathlib.Logic.Function.Basic

/-!
# The material container

Models `src/gsMaterialMatrixContainer.h/.hpp`.  Material objects live on a heap; the
container is a vector of shared pointers into it.
-/

namespace Verif.Container

/-- Addresses: objects of the user, and clones made by the container. -/
inductive Addr where
  | user (n : Nat)
  | clone (n : Nat)
deriving Repr, DecidableEq

/-- Heap, allocator and the vector `m_container`; `none` is a null pointer.
`α` is the type of material contents. -/
structure State (α : Type) where
  heap : Addr → α
  next : Nat
  slots : List (Option Addr)

/-- `gsMaterialMatrixContainer(size)`: `m_container.resize(size)` – null pointers
(`src/gsMaterialMatrixContainer.hpp` l.26-31). -/
def State.init {α : Type} (h : Addr → α) (size : Nat) : State α :=
  ⟨h, 0, List.replicate size none⟩

/-- Operations on the container, plus mutation of objects through the pointers a program
can hold: of its own objects (`mutUser`) and of what `piece(k)` returns (`mutPiece`).
Simplification: `set(i, Ptr)` with a shared pointer is treated in the XML reader only. -/
inductive Op (α : Type) where
  /-- `add(const gsMaterialMatrixBase &)` -/
  | addRef (a : Nat)
  /-- `add(const gsMaterialMatrixBase *)` -/
  | addPtr (a : Nat)
  /-- `set(i, const gsMaterialMatrixBase &)` -/
  | setRef (i : Int) (a : Nat)
  /-- `set(i, const gsMaterialMatrixBase *)` -/
  | setPtr (i : Int) (a : Nat)
  /-- `clear()` -/
  | clear
  /-- the program changes its own object -/
  | mutUser (a : Nat) (v : α)
  /-- the program changes the object behind `piece(k)` -/
  | mutPiece (k : Int) (v : α)

/-- `piece(k)`: `m_container.at(k).get()` – throws when out of range (a negative index
becomes a huge `size_t`) (`src/gsMaterialMatrixContainer.hpp` l.76-79). -/
def piece {α : Type} (s : State α) (k : Int) : Outcome (Option Addr) :=
  if 0 ≤ k then
    match s.slots[k.toNat]? with
    | some p => .ok p
    | none => .throws
  else .throws

/-- `m_container[i] = p` without bounds check (`src/gsMaterialMatrixContainer.hpp`
l.58-73). -/
def store {α : Type} (s : State α) (i : Int) (p : Addr) : Outcome (State α) :=
  if 0 ≤ i ∧ i.toNat < s.slots.length then .ok { s with slots := s.slots.set i.toNat (some p) }
  else .ub

/-- `memory::make_shared(mat.clone().release())`: a new object with the present contents. -/
def cloneObj {α : Type} (s : State α) (a : Nat) : State α × Addr :=
  ({ s with heap := Function.update s.heap (.clone s.next) (s.heap (.user a)), next := s.next + 1 },
   .clone s.next)

/-- One operation (`src/gsMaterialMatrixContainer.hpp` l.44-93). -/
def step {α : Type} (s : State α) : Op α → Outcome (State α)
  | .addRef a => let (s', p) := cloneObj s a; .ok { s' with slots := s'.slots ++ [some p] }
  | .addPtr a => .ok { s with slots := s.slots ++ [some (.user a)] }
  | .setRef i a => let (s', p) := cloneObj s a; store s' i p
  | .setPtr i a => store s i (.user a)
  | .clear => .ok { s with slots := [] }
  | .mutUser a v => .ok { s with heap := Function.update s.heap (.user a) v }
  | .mutPiece k v =>
    (piece s k).bind fun
      | none => .ub
      | some p => .ok { s with heap := Function.update s.heap p v }

/-- A sequence of operations. -/
def run {α : Type} (s : State α) : List (Op α) → Outcome (State α)
  | [] => .ok s
  | op :: r => (step s op).bind fun s' => run s' r

/-- What the program observes of slot `k`: throws when out of range, `none` for an empty
slot, otherwise the present contents of the object. -/
def observe {α : Type} (s : State α) (k : Int) : Outcome (Option α) :=
  (piece s k).map fun p => p.map s.heap

/-! ## Reading a container from XML -/

/-- Unchecked `vec[i]` on a `std::vector` with an `int` index. -/
def indexUnchecked {β : Type} (l : List β) (i : Int) : Outcome β :=
  if 0 ≤ i then (match l[i.toNat]? with | some x => .ok x | none => .ub) else .ub

/-- Unchecked `vec[i] = x`. -/
def assignUnchecked {β : Type} (l : List β) (i : Int) (x : β) : Outcome (List β) :=
  if 0 ≤ i ∧ i.toNat < l.length then .ok (l.set i.toNat x) else .ub

/-- The material inventory: `mat(count)` with `count` the number of children, then
`mat[index] = …` (`src/gsMaterialMatrixContainer.hpp` l.118-126).  A child is its `index`
attribute and the material read from it. -/
def readInventory {M : Type} (children : List (Int × M)) : Outcome (List (Option M)) :=
  children.foldl (fun acc c => acc.bind fun l => assignUnchecked l c.1 (some c.2))
    (.ok (List.replicate children.length none))

/-- One group: `for patch in group: obj.set(patch, mat[mIndex])`
(`src/gsMaterialMatrixContainer.hpp` l.129-138). -/
def readGroup {M : Type} (mat : List (Option M)) (slots : List (Option M))
    (g : Int × List Int) : Outcome (List (Option M)) :=
  g.2.foldl (fun acc patch => acc.bind fun l =>
    (indexUnchecked mat g.1).bind fun m => assignUnchecked l patch m) (.ok slots)

/-- `get_into` (`src/gsMaterialMatrixContainer.hpp` l.113-140); `size` is the attribute
(negative sizes are not modelled: `resize` throws `length_error`). -/
def readXml {M : Type} (size : Nat) (children : List (Int × M)) (groups : List (Int × List Int)) :
    Outcome (List (Option M)) :=
  (readInventory children).bind fun mat =>
    groups.foldl (fun acc g => acc.bind fun l => readGroup mat l g)
      (.ok (List.replicate size none))

end Verif.Container
