import Verif.Model.Threads

/-! # Specification: threads that do not disturb each other -/

namespace Verif.Spec.Threads

open Verif.Threads

/-- Two accesses of different threads to the shared member, one of them a write, without any order between
them: a data race, undefined behaviour in C++. -/
def Race {P : Type} (prog : Nat → List (Act P)) : Prop :=
  ∃ i j, i ≠ j ∧ ∃ a ∈ prog i, ∃ b ∈ prog j, a.writes = true ∧ (b.writes = true ∨ b.reads = true)

/-- All threads have made all their calls. -/
def Finished {G P α : Type} (s : St G P α) : Prop := ∀ i, (s.loc i).prog = []

/-- Points of a call. -/
def points {P : Type} : Call P → List P
  | .evaluate us => us
  | .field us => us

/-- What a call should return with the deformed geometry `g`: the values at its points, each computed from the
deformed surface at this point. -/
def expected {G P α : Type} (f : G → P → P → α) (g : G) (c : Call P) : Outcome (List α) :=
  .ok ((points c).map fun u => f g u u)

/-- The same with the option `Explicit`: tension fields from `g0`. -/
def expectedExplicit {G P α : Type} (f : G → P → P → α) (g g0 : G) : Call P → Outcome (List α)
  | .evaluate us => .ok (us.map fun u => f g u u)
  | .field us => .ok (us.map fun u => f g0 u u)

/-- The calls of thread `i` among calls made one after another. -/
def callsOf {P : Type} (blocks : List (Nat × Call P)) (i : Nat) : List (Call P) :=
  (blocks.filter (·.1 = i)).map (·.2)

/-- The calls `blocks` one after another, each without interruption: the interleaving. -/
def oneByOne {P : Type} (blocks : List (Nat × Call P)) : List Nat :=
  blocks.flatMap fun b => List.replicate (b.2.acts true).length b.1

end Verif.Spec.Threads
