import Verif.Model.Explicit

/-! # Specification of the explicit tension field -/

namespace Verif.Explicit

variable {G P α : Type}

/-- Specification: the tension field of the geometry `g` at the points `us`. -/
def fieldOf (f : G → P → P → Outcome α) (g : G) : List P → Outcome (List α)
  | [] => .ok []
  | u :: us => match f g u u, fieldOf f g us with
    | .ok a, .ok r => .ok (a :: r)
    | .ok _, e => e
    | .throws, _ => .throws
    | .ub, _ => .ub

/-- The calls that do not register another geometry for the tension field. -/
def KeepsFixed (op : Op G P) : Prop := ∀ g, op ≠ .updateDeformed g

/-- Specification: the calls `ops` from the state `s` all return normally. -/
def AllReturn (expl : Bool) (f : G → P → P → Outcome α) : St G P → List (Op G P) → Prop
  | _, [] => True
  | s, op :: ops =>
    (∀ us, op = .field us → (computeTF expl f s us).2.isOk) ∧ AllReturn expl f (step expl f s op) ops

end Verif.Explicit
