import Verif.Model.Project
import Verif.Lemmas.Solution

/-!
# Lemmas on the full solution vector, the projection and principal values
-/

namespace Verif.Project

open Verif.Solution

theorem readAll_ok (m : Mapper) (fixed sol : List ℝ) (v : ℕ → ℝ) (l : List (ℕ × ℕ × ℕ))
    (h : ∀ t ∈ l, dofValue m fixed sol (m.glob t.1 t.2.1 t.2.2)
      = .ok (v (m.glob t.1 t.2.1 t.2.2))) :
    readAll m fixed sol l = .ok (l.map fun t => v (m.glob t.1 t.2.1 t.2.2)) := by
  induction l with
  | nil => rfl
  | cons t ts ih =>
    unfold readAll
    rw [h t List.mem_cons_self, ih (fun t' ht' => h t' (List.mem_cons_of_mem _ ht'))]
    rfl

theorem fill_ub (m : Mapper) (ddofs : List ℝ) (l : List (ℕ × ℕ × ℕ)) (f : Field)
    (hb : ∀ t ∈ l, m.glob t.1 t.2.1 t.2.2 < m.freeSize + ddofs.length)
    (h : ∃ t ∈ l, m.glob t.1 t.2.1 t.2.2 < m.freeSize) : fill m ddofs [] l f = .ub := by
  induction l generalizing f with
  | nil => obtain ⟨t, ht, -⟩ := h; simp at ht
  | cons t ts ih =>
    unfold fill
    by_cases hg : m.glob t.1 t.2.1 t.2.2 < m.freeSize
    · have : dofValue m ddofs [] (m.glob t.1 t.2.1 t.2.2) = .ub := by
        unfold dofValue; rw [if_pos hg]; rfl
      rw [this]
    · have hl : m.glob t.1 t.2.1 t.2.2 - m.freeSize < ddofs.length := by
        have := hb t List.mem_cons_self; omega
      have : dofValue m ddofs [] (m.glob t.1 t.2.1 t.2.2)
          = .ok ddofs[m.glob t.1 t.2.1 t.2.2 - m.freeSize] := by
        unfold dofValue readAt
        rw [if_neg hg, List.getElem?_eq_getElem hl]
      rw [this]
      refine ih _ (fun t' ht' => hb t' (List.mem_cons_of_mem _ ht')) ?_
      obtain ⟨t', ht', hf⟩ := h
      rcases List.mem_cons.1 ht' with rfl | h2
      · exact absurd hf hg
      · exact ⟨t', h2, hf⟩

theorem sizes_ok (mat : Outputs.Mat) (o : Linear.Output) (R : ℕ) (s : Outputs.Shape)
    (h : Outputs.eval mat o 1 1 = .ok s) (hs : s.rows = R) (n : ℕ) :
    principalSizes mat o R n = .ok (List.replicate n R) := by
  induction n with
  | zero => rfl
  | succ n ih =>
    unfold principalSizes
    rw [h, ih]
    simp [Outcome.bind, assignCol, hs, List.replicate_succ]

theorem sizes_ub (mat : Outputs.Mat) (o : Linear.Output) (R : ℕ) (s : Outputs.Shape)
    (h : Outputs.eval mat o 1 1 = .ok s) (hs : s.rows ≠ R) (n : ℕ) (hn : 0 < n) :
    principalSizes mat o R n = .ub := by
  obtain ⟨n, rfl⟩ := Nat.exists_eq_succ_of_ne_zero hn.ne'
  unfold principalSizes
  rw [h]
  simp [Outcome.bind, assignCol, hs]

end Verif.Project
