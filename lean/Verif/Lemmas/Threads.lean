import Verif.Spec.Threads
import Mathlib.Tactic.Set

/-! # Lemmas: interleavings -/

namespace Verif.Threads

open Spec.Threads

variable {G P α : Type} {f : G → P → P → Outcome α} {fixed : Option G}

theorem run_cons (s : St G P α) (i : Nat) (σ : List Nat) : run f fixed s (i :: σ) = run f fixed (step f fixed s i) σ := rfl

theorem run_append (s : St G P α) (σ τ : List Nat) : run f fixed s (σ ++ τ) = run f fixed (run f fixed s σ) τ := by
  simp [run]

/-- No access that remains writes. -/
def Quiet (s : St G P α) : Prop := ∀ i, ∀ a ∈ (s.loc i).prog, a.writes = false

theorem exec_reg {a : Act P} (ha : a.writes = false) (reg : Option G) (l : Loc G P α) : (exec f fixed reg l a).1 = reg := by
  cases a <;> simp_all [exec, Act.writes]

theorem step_other (s : St G P α) {i j : Nat} (h : j ≠ i) : (step f fixed s i).loc j = s.loc j := by
  unfold step
  split
  · rfl
  · simp [h]

theorem step_reg {s : St G P α} (h : Quiet s) (i : Nat) : (step f fixed s i).reg = s.reg := by
  unfold step
  split
  · rfl
  · rename_i a r e
    exact exec_reg (h i a (by rw [e]; exact List.mem_cons_self)) _ _

theorem step_quiet {s : St G P α} (h : Quiet s) (i : Nat) : Quiet (step f fixed s i) := by
  intro j a ha
  by_cases hj : j = i
  · subst hj
    unfold step at ha
    split at ha
    · exact h j a ha
    · rename_i b r e
      simp only [if_true] at ha
      exact h j a (by rw [e]; exact List.mem_cons_of_mem _ ha)
  · rw [step_other _ hj] at ha
    exact h j a ha

/-- The own step depends on the registered geometry and the own data only. -/
theorem step_own {s s' : St G P α} {i : Nat} (hr : s.reg = s'.reg) (hl : s.loc i = s'.loc i) :
    (step f fixed s i).loc i = (step f fixed s' i).loc i := by
  unfold step
  rw [← hl, ← hr]
  split
  · exact hl
  · simp

theorem run_reg (s : St G P α) (h : Quiet s) (σ : List Nat) : (run f fixed s σ).reg = s.reg := by
  induction σ generalizing s with
  | nil => rfl
  | cons i σ ih => rw [run_cons, ih _ (step_quiet h i), step_reg h]

theorem run_own (s s' : St G P α) (h : Quiet s) (h' : Quiet s') (i : Nat) (hr : s.reg = s'.reg) (hl : s.loc i = s'.loc i)
    (σ : List Nat) : (run f fixed s σ).loc i = (run f fixed s' (σ.filter (· = i))).loc i := by
  induction σ generalizing s s' with
  | nil => exact hl
  | cons j σ ih =>
    by_cases hj : j = i
    · subst hj
      rw [List.filter_cons_of_pos (by simp), run_cons, run_cons]
      exact ih _ _ (step_quiet h j) (step_quiet h' j) (by rw [step_reg h, step_reg h', hr]) (step_own hr hl)
    · rw [List.filter_cons_of_neg (by simpa using hj), run_cons]
      exact ih _ _ (step_quiet h j) h' (by rw [step_reg h, hr]) (by rw [step_other _ (Ne.symm hj), hl])

theorem start_quiet (reg : Option G) (cache : Nat → List (G × P)) (calls : Nat → List (Call P)) :
    Quiet (start (α := α) false reg cache calls) := by
  intro i a ha
  obtain ⟨c, _, hc⟩ := List.mem_flatMap.1 ha
  cases c <;> simp [Call.acts] at hc <;> rcases hc with rfl | rfl <;> rfl

/-! ## A thread by itself -/

theorem collect_ok (l : List α) : Explicit.collect (l.map Outcome.ok) = .ok l := by
  induction l with
  | nil => rfl
  | cons a l ih => simp [Explicit.collect, ih, Outcome.bind]

theorem values_own (f : G → P → P → α) (g : G) (us : List P) :
    Explicit.values (fun g q p => .ok (f g q p)) (us.map fun u => (g, u)) us = .ok (us.map fun u => f g u u) := by
  unfold Explicit.values
  have : (us.mapIdx fun k p => Explicit.column (fun g q p => Outcome.ok (f g q p)) (us.map fun u => (g, u)) k p)
      = (us.map fun u => f g u u).map Outcome.ok := by
    refine List.ext_getElem (by simp) fun k h1 h2 => ?_
    have hk : k < us.length := by simpa using h1
    have ne : (us.map fun u => (g, u)).isEmpty = false := by
      cases us with
      | nil => simp at hk
      | cons => rfl
    simp [Explicit.column, hk]
    intro h; simp [h] at hk
  rw [this, collect_ok]

theorem step_eq {s : St G P α} {i : Nat} {a : Act P} {r : List (Act P)} (h : (s.loc i).prog = a :: r) :
    step f fixed s i = ⟨(exec f fixed s.reg (s.loc i) a).1,
      fun j => if j = i then { (exec f fixed s.reg (s.loc i) a).2 with prog := r } else s.loc j⟩ := by
  unfold step
  rw [h]

theorem step_nil {s : St G P α} {i : Nat} (h : (s.loc i).prog = []) : step f fixed s i = s := by
  unfold step
  rw [h]

theorem run_nil {s : St G P α} {i : Nat} (h : (s.loc i).prog = []) (n : Nat) : run f fixed s (List.replicate n i) = s := by
  induction n with
  | zero => rfl
  | succ n ih => rw [List.replicate_succ, run_cons, step_nil h, ih]

/-- Two accesses of an evaluation. -/
theorem run_evaluate (f : G → P → P → α) {g : G} {s : St G P α} (hs : s.reg = some g) {i : Nat} {us : List P}
    {r : List (Act P)} (h : (s.loc i).prog = .load us :: .value us :: r) :
    let s' := step (fun g q p => .ok (f g q p)) fixed (step (fun g q p => .ok (f g q p)) fixed s i) i
    s'.reg = some g ∧ (s'.loc i).prog = r ∧ (s'.loc i).out = (s.loc i).out ++ [.ok (us.map fun u => f g u u)]
      ∧ ∀ j, j ≠ i → s'.loc j = s.loc j := by
  intro s'
  have h2 : ((step (fun g q p => .ok (f g q p)) fixed s i).loc i).prog = .value us :: r := by
    rw [step_eq h]; simp
  refine ⟨?_, ?_, ?_, fun j hj => ?_⟩
  · show (step _ _ _ _).reg = _
    rw [step_eq h2, step_eq h]; exact hs
  · show ((step _ _ _ _).loc i).prog = _
    rw [step_eq h2]; simp
  · show ((step _ _ _ _).loc i).out = _
    rw [step_eq h2, step_eq h]
    simp [exec, hs, Explicit.points, values_own]
  · show (step _ _ _ _).loc j = _
    rw [step_other _ hj, step_other _ hj]

/-- Calls of one thread by themselves, the option off. -/
theorem alone (f : G → P → P → α) {g : G} {i : Nat} (calls : List (Call P)) :
    ∀ (n : Nat) (s : St G P α), s.reg = some g → (s.loc i).prog = calls.flatMap (Call.acts false) →
      ((run (fun g q p => .ok (f g q p)) fixed s (List.replicate n i)).loc i).prog = [] →
      ((run (fun g q p => .ok (f g q p)) fixed s (List.replicate n i)).loc i).out
        = (s.loc i).out ++ calls.map (expected f g) := by
  induction calls with
  | nil =>
    intro n s _ hp _
    rw [run_nil (by simpa using hp)]; simp
  | cons c calls ih =>
    intro n s hs hp hd
    have hp' : (s.loc i).prog = .load (points c) :: .value (points c) :: calls.flatMap (Call.acts false) := by
      rw [hp]; cases c <;> rfl
    match n with
    | 0 =>
      rw [List.replicate_zero] at hd
      rw [show (run (fun g q p => Outcome.ok (f g q p)) fixed s []) = s from rfl, hp'] at hd
      exact absurd hd (by simp)
    | 1 =>
      rw [List.replicate_one, run_cons, show ∀ t : St G P α, run (fun g q p => Outcome.ok (f g q p)) fixed t [] = t from fun _ => rfl,
        step_eq hp'] at hd
      simp at hd
    | n + 2 =>
      obtain ⟨h1, h2, h3, _⟩ := run_evaluate (fixed := fixed) f hs hp'
      rw [List.replicate_succ, List.replicate_succ, run_cons, run_cons] at hd ⊢
      rw [ih n _ h1 h2 hd, h3]
      simp [expected]

theorem filter_eq (σ : List Nat) (i : Nat) : σ.filter (· = i) = List.replicate (σ.count i) i := by
  rw [← List.filter_beq]
  congr 1

/-! ## Calls that are not interrupted -/

theorem block (f : G → P → P → α) {g g0 : G} {s : St G P α} (hs : s.reg = some g) {i : Nat} (c : Call P)
    {r : List (Act P)} (h : (s.loc i).prog = c.acts true ++ r) :
    let s' := run (fun g q p => .ok (f g q p)) (some g0) s (List.replicate (c.acts true).length i)
    s'.reg = some g ∧ (s'.loc i).prog = r ∧ (s'.loc i).out = (s.loc i).out ++ [expectedExplicit f g g0 c]
      ∧ ∀ j, j ≠ i → s'.loc j = s.loc j := by
  cases c with
  | evaluate us => exact run_evaluate f hs h
  | field us =>
    intro s'
    have h0 : (s.loc i).prog = .save :: .put :: .load us :: .value us :: .back :: r := h
    set F : G → P → P → Outcome α := fun g q p => .ok (f g q p) with hF
    set s2 := step F (some g0) (step F (some g0) s i) i with h2
    have e1 : ((step F (some g0) s i).loc i).prog = .put :: .load us :: .value us :: .back :: r := by
      rw [step_eq h0]; simp
    have e2 : (s2.loc i).prog = .load us :: .value us :: .back :: r := by
      rw [h2, step_eq e1]; simp
    have r2 : s2.reg = some g0 := by rw [h2, step_eq e1]; rfl
    have t2 : (s2.loc i).tmp = some g := by
      rw [h2, step_eq e1, step_eq h0]; simp [exec, hs]
    have o2 : (s2.loc i).out = (s.loc i).out := by
      rw [h2, step_eq e1, step_eq h0]; simp [exec]
    have l2 : ∀ j, j ≠ i → s2.loc j = s.loc j := fun j hj => by
      rw [h2, step_other _ hj, step_other _ hj]
    obtain ⟨_, h4, h5, h6⟩ := run_evaluate (fixed := some g0) f r2 e2
    set s4 := step F (some g0) (step F (some g0) s2 i) i with e4
    have t4 : (s4.loc i).tmp = some g := by
      have e3 : ((step F (some g0) s2 i).loc i).prog = .value us :: .back :: r := by
        rw [step_eq e2]; simp
      rw [e4, step_eq e3, step_eq e2]; simp [exec, t2]
    have e5 : s' = step F (some g0) s4 i := rfl
    refine ⟨?_, ?_, ?_, fun j hj => ?_⟩
    · rw [e5, step_eq h4]; exact t4
    · rw [e5, step_eq h4]; simp
    · rw [e5, step_eq h4]
      simp only [if_true, exec]
      rw [h5, o2]; rfl
    · rw [e5, step_other _ hj, h6 j hj, l2 j hj]

theorem blocks_run (f : G → P → P → α) {g g0 : G} (blocks : List (Nat × Call P)) (s : St G P α) (hs : s.reg = some g)
    (hp : ∀ i, (s.loc i).prog = (callsOf blocks i).flatMap (Call.acts true)) :
    let s' := run (fun g q p => .ok (f g q p)) (some g0) s
      (blocks.flatMap fun b => List.replicate (b.2.acts true).length b.1)
    s'.reg = some g ∧ ∀ i, (s'.loc i).prog = []
      ∧ (s'.loc i).out = (s.loc i).out ++ (callsOf blocks i).map (expectedExplicit f g g0) := by
  induction blocks generalizing s with
  | nil => exact ⟨hs, fun i => ⟨by simpa [callsOf, run] using hp i, by simp [callsOf, run]⟩⟩
  | cons b blocks ih =>
    obtain ⟨i, c⟩ := b
    have hi : (s.loc i).prog = c.acts true ++ (callsOf blocks i).flatMap (Call.acts true) := by
      rw [hp i]; simp [callsOf]
    obtain ⟨h1, h2, h3, h4⟩ := block (g0 := g0) f hs c hi
    obtain ⟨k1, k2⟩ := ih _ h1 fun j => by
      by_cases hj : j = i
      · subst hj; exact h2
      · rw [h4 j hj, hp j]
        simp [callsOf, Ne.symm hj]
    intro s'
    have e : s' = run (fun g q p => .ok (f g q p)) (some g0)
        (run (fun g q p => .ok (f g q p)) (some g0) s (List.replicate (c.acts true).length i))
        (blocks.flatMap fun b => List.replicate (b.2.acts true).length b.1) := by
      rw [← run_append]; rfl
    rw [e]
    refine ⟨k1, fun j => ⟨(k2 j).1, ?_⟩⟩
    rw [(k2 j).2]
    by_cases hj : j = i
    · subst hj
      rw [h3]; simp [callsOf]
    · rw [h4 j hj]
      simp [callsOf, Ne.symm hj]

end Verif.Threads
