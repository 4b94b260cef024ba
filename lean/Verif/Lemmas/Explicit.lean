import Verif.Spec.Explicit
import Mathlib.Data.List.Basic

/-! # Helper lemmas for the explicit tension field -/

namespace Verif.Explicit

variable {G P α : Type}

theorem collect_mapIdx (f : G → P → P → Outcome α) (g : G) (pre us : List P) :
    collect (us.mapIdx fun k p => column f ((pre ++ us).map fun u => (g, u)) (pre.length + k) p)
      = fieldOf f g us := by
  induction us generalizing pre with
  | nil => rfl
  | cons u us ih =>
    have h := ih (pre ++ [u])
    simp only [List.append_assoc, List.singleton_append, List.length_append, List.length_singleton,
      Nat.add_assoc] at h
    rw [List.mapIdx_cons]
    have e : ∀ k, pre.length + (k + 1) = pre.length + (1 + k) := fun k => by omega
    simp only [collect, e, h]
    have hc : column f ((pre ++ u :: us).map fun u => (g, u)) (pre.length + 0) u = f g u u := by
      unfold column
      simp
    rw [hc]
    simp only [fieldOf]
    cases f g u u <;> cases fieldOf f g us <;> rfl

theorem values_map (f : G → P → P → Outcome α) (g : G) (us : List P) :
    values f (us.map fun u => (g, u)) us = fieldOf f g us := by
  have h := collect_mapIdx f g [] us
  simpa [values] using h

theorem step_fixed (expl : Bool) (f : G → P → P → Outcome α) (s : St G P) (op : Op G P)
    (h : KeepsFixed op) : (step expl f s op).fixed = s.fixed := by
  cases op with
  | updateDeformed g => exact absurd rfl (h g)
  | setDeformed g => rfl
  | evaluate us => rfl
  | field us =>
    cases expl
    · rfl
    · simp only [step, computeTF, if_true]
      cases values f (points s.fixed s.cache us) us <;> rfl

theorem run_fixed (expl : Bool) (f : G → P → P → Outcome α) (s : St G P) (ops : List (Op G P))
    (h : ∀ op ∈ ops, KeepsFixed op) : (run expl f s ops).fixed = s.fixed := by
  induction ops generalizing s with
  | nil => rfl
  | cons op ops ih =>
    show (run expl f (step expl f s op) ops).fixed = _
    rw [ih _ (fun o ho => h o (List.mem_cons_of_mem _ ho)), step_fixed _ _ _ _ (h op (by simp))]

end Verif.Explicit
