/-!
# Outcomes of C++ code

Undefined behaviour and exceptions are values of their own, so that a theorem
"the call is fine" really says something.
-/

namespace Verif

/-- Result of running a piece of C++:
`ok a` – normal return with value `a`;
`throws` – an exception (`GISMO_ERROR`, `GISMO_ENSURE`, `GISMO_NO_IMPLEMENTATION`,
`std::out_of_range`, …);
`ub` – undefined behaviour (null dereference, unchecked out-of-bounds access, read
of an indeterminate value, endless loop).  `GISMO_ASSERT` is compiled out in release
builds, and the models describe release builds unless they say otherwise. -/
inductive Outcome (α : Type u) where
  | ok (a : α)
  | throws
  | ub
deriving Repr, DecidableEq

namespace Outcome

/-- Sequencing: the first non-`ok` outcome wins. -/
def bind {α : Type u} {β : Type v} (x : Outcome α) (f : α → Outcome β) : Outcome β :=
  match x with
  | ok a => f a
  | throws => throws
  | ub => ub

instance : Monad Outcome where
  pure := ok
  bind := bind

@[simp] theorem bind_ok {α β : Type u} (a : α) (f : α → Outcome β) :
    (Outcome.ok a >>= f) = f a := rfl
@[simp] theorem bind_throws {α β : Type u} (f : α → Outcome β) :
    ((Outcome.throws : Outcome α) >>= f) = Outcome.throws := rfl
@[simp] theorem bind_ub {α β : Type u} (f : α → Outcome β) :
    ((Outcome.ub : Outcome α) >>= f) = Outcome.ub := rfl
@[simp] theorem pure_eq {α : Type u} (a : α) : (pure a : Outcome α) = Outcome.ok a := rfl

/-- The call returns normally. -/
def isOk {α : Type u} (x : Outcome α) : Prop := ∃ a, x = ok a

/-- The call does not run into undefined behaviour. -/
def safe {α : Type u} (x : Outcome α) : Prop := x ≠ ub

/-- Map over the value. -/
def map {α : Type u} {β : Type v} (f : α → β) : Outcome α → Outcome β
  | ok a => ok (f a)
  | throws => throws
  | ub => ub

end Outcome

end Verif
