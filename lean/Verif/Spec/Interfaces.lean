import Verif.Model.Assembler

/-! # Specification of interface coupling and of the discretisation basis -/

namespace Verif.Assembler

/-- An interface is in at least one coupling set. -/
def Ifc.Covered (s : Ifc) (i : ℕ) : Prop := ∃ k : Kind, i ∈ s.get k

/-- The order of continuity an interface of a given set should have: −1 for uncoupled ones. -/
def Kind.order : Kind → ℤ
  | .strongC0 => 0
  | .strongC1 => 1
  | .weakC0 => 0
  | .weakC1 => 1
  | .uncoupled => -1

/-- Client view of the basis of assembler `k`: the basis given to the constructor, replaced by
`setBasis` (value) and `setSpaceBasis` (the outside object, whatever it currently holds). -/
inductive Want where
  | value (b : ℕ)
  | outside (j : ℕ)

/-- The value of a wanted basis. -/
def Want.eval (ext : ℕ → Option ℕ) : Want → Option ℕ
  | .value b => some b
  | .outside j => ext j

/-- Client view after one operation.  A copy has the basis of the original at that time, as a
value of its own unless it was an outside object. -/
def wantStep (h : Heap) (w : ℕ → Option Want) : HeapOp → ℕ → Option Want
  | .newContainer k j => upd w k ((h.ext j).map .value)
  | .newPointer k j => upd w k ((h.ext j).map .value)
  | .copy k m => upd w k (w m)
  | .move k m _ => upd (upd w m none) k (w m)
  | .setBasis k b => upd w k (some (.value b))
  | .setSpaceBasis k j => upd w k (some (.outside j))
  | .destroy k => upd w k none
  | .writeExt _ _ => w
  | .destroyExt _ => w

/-- Operations on assemblers built with a material container, without copies and moves. -/
def ContainerOnly : HeapOp → Prop
  | .newPointer _ _ => False
  | .copy _ _ => False
  | .move _ _ _ => False
  | .setSpaceBasis _ _ => False
  | _ => True

/-- The client view along a sequence of operations. -/
def wantExec : List HeapOp → Heap → (ℕ → Option Want) → ℕ → Option Want
  | [], _, w => w
  | op :: ops, h, w =>
    match h.step op with
    | .ok h' => wantExec ops h' (wantStep h w op)
    | _ => w

end Verif.Assembler
