import Verif.Model.Container

/-!
# Specification of the material container

The container as a plain list: no heap, no addresses of copies.  An entry is empty, a
private copy (a value), or an alias of an object of the program.
-/

namespace Verif.Container.Spec

/-- Entry of the abstract container. -/
inductive Entry (α : Type) where
  | empty
  | own (v : α)
  | alias (a : Nat)

/-- Abstract state: the objects of the program and the entries. -/
structure AState (α : Type) where
  users : Nat → α
  entries : List (Entry α)

/-- Replace entry `i`; outside the list: undefined. -/
def put {α : Type} (s : AState α) (i : Int) (e : Entry α) : Outcome (AState α) :=
  if 0 ≤ i ∧ i.toNat < s.entries.length then
    .ok { s with entries := s.entries.set i.toNat e } else .ub

/-- Intended effect of every operation. -/
def astep {α : Type} (s : AState α) : Op α → Outcome (AState α)
  | .addRef a => .ok { s with entries := s.entries ++ [.own (s.users a)] }
  | .addPtr a => .ok { s with entries := s.entries ++ [.alias a] }
  | .setRef i a => put s i (.own (s.users a))
  | .setPtr i a => put s i (.alias a)
  | .clear => .ok { s with entries := [] }
  | .mutUser a v => .ok { s with users := Function.update s.users a v }
  | .mutPiece k v =>
    if 0 ≤ k then
      match s.entries[k.toNat]? with
      | none => .throws
      | some .empty => .ub
      | some (.own _) => .ok { s with entries := s.entries.set k.toNat (.own v) }
      | some (.alias a) => .ok { s with users := Function.update s.users a v }
    else .throws

/-- A sequence of operations. -/
def arun {α : Type} (s : AState α) : List (Op α) → Outcome (AState α)
  | [] => .ok s
  | op :: r => (astep s op).bind fun s' => arun s' r

/-- Intended value of slot `k`. -/
def aobserve {α : Type} (s : AState α) (k : Int) : Outcome (Option α) :=
  if 0 ≤ k then
    match s.entries[k.toNat]? with
    | none => .throws
    | some .empty => .ok none
    | some (.own v) => .ok (some v)
    | some (.alias a) => .ok (some (s.users a))
  else .throws

/-- Fresh container of `size` empty entries. -/
def ainit {α : Type} (users : Nat → α) (size : Nat) : AState α :=
  ⟨users, List.replicate size .empty⟩

/-- Specification: material declared last with index `i`. -/
def declared {M : Type} (children : List (Int × M)) (i : Int) : Option M :=
  children.foldl (fun acc c => if c.1 = i then some c.2 else acc) none

/-- Specification: index named by the last group listing patch `p`. -/
def groupOf (groups : List (Int × List Int)) (p : Int) : Option Int :=
  (groups.flatMap fun g => g.2.map fun q => (g.1, q)).foldl
    (fun acc o => if o.2 = p then some o.1 else acc) none

end Verif.Container.Spec
