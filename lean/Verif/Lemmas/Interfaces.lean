import Verif.Spec.Interfaces
import Mathlib.Tactic.SplitIfs

/-! # Lemmas on interface coupling -/

namespace Verif.Assembler

theorem assigned_iff (s : Ifc) (i : ℕ) : s.assigned i = true ↔ s.Covered i := by
  constructor
  · intro h
    simp only [Ifc.assigned, Bool.or_eq_true, List.contains_iff_mem] at h
    rcases h with (((h | h) | h) | h) | h
    · exact ⟨.strongC0, h⟩
    · exact ⟨.strongC1, h⟩
    · exact ⟨.weakC0, h⟩
    · exact ⟨.weakC1, h⟩
    · exact ⟨.uncoupled, h⟩
  · rintro ⟨k, h⟩
    simp only [Ifc.assigned, Bool.or_eq_true, List.contains_iff_mem]
    cases k <;> simp only [Ifc.get] at h <;> tauto

/-- The set the default option appends to. -/
def dfltKind (dflt : ℤ) : Kind := if dflt = 0 then .weakC0 else .weakC1

theorem get_appended (s : Ifc) (i : ℕ) (k : Kind) :
    (({ s with weakC0 := s.weakC0 ++ [i] } : Ifc).get k =
      if k = .weakC0 then s.get k ++ [i] else s.get k) ∧
    (({ s with weakC1 := s.weakC1 ++ [i] } : Ifc).get k =
      if k = .weakC1 then s.get k ++ [i] else s.get k) := by
  cases k <;> simp [Ifc.get]

/-- Exact effect of `initInterfaces` on membership. -/
theorem init_mem (dflt : ℤ) (h : dflt = 0 ∨ dflt = 1) (t : List ℕ) (s : Ifc) :
    ∃ s', Ifc.init dflt t s = .ok s' ∧ ∀ k i, i ∈ s'.get k ↔
      (i ∈ s.get k ∨ (k = dfltKind dflt ∧ i ∈ t ∧ ¬ s.Covered i)) := by
  induction t generalizing s with
  | nil => exact ⟨s, rfl, by simp⟩
  | cons a t ih =>
    by_cases ha : s.assigned a = true
    · obtain ⟨s', h1, h2⟩ := ih s
      refine ⟨s', by simp only [Ifc.init, ha, if_true, h1], fun k i => ?_⟩
      rw [h2]
      have hc := (assigned_iff s a).1 ha
      constructor
      · rintro (h | ⟨h, h', h''⟩)
        · exact .inl h
        · exact .inr ⟨h, by simp [h'], h''⟩
      · rintro (h | ⟨h, h', h''⟩)
        · exact .inl h
        · rcases List.mem_cons.1 h' with rfl | h'
          · exact absurd hc h''
          · exact .inr ⟨h, h', h''⟩
    · have hnc : ¬ s.Covered a := fun hc => ha ((assigned_iff s a).2 hc)
      have key : ∀ s1 : Ifc, (∀ k, s1.get k = if k = dfltKind dflt then s.get k ++ [a] else s.get k) →
          Ifc.init dflt (a :: t) s = Ifc.init dflt t s1 →
          ∃ s', Ifc.init dflt (a :: t) s = .ok s' ∧ ∀ k i, i ∈ s'.get k ↔
            (i ∈ s.get k ∨ (k = dfltKind dflt ∧ i ∈ a :: t ∧ ¬ s.Covered i)) := by
        intro s1 hg he
        obtain ⟨s', h1, h2⟩ := ih s1
        refine ⟨s', by rw [he, h1], fun k i => ?_⟩
        have hcov : s1.Covered i ↔ (s.Covered i ∨ i = a) := by
          constructor
          · rintro ⟨k, hk⟩
            rw [hg] at hk
            split_ifs at hk with h3
            · rcases List.mem_append.1 hk with hk | hk
              · exact .inl ⟨k, hk⟩
              · exact .inr (by simpa using hk)
            · exact .inl ⟨k, hk⟩
          · rintro (⟨k, hk⟩ | rfl)
            · refine ⟨k, ?_⟩
              rw [hg]; split_ifs <;> simp [hk]
            · exact ⟨dfltKind dflt, by rw [hg]; simp⟩
        rw [h2, hg, hcov]
        by_cases hk : k = dfltKind dflt
        · simp only [hk, if_true, List.mem_append, List.mem_cons, true_and]
          by_cases hi : i = a
          · subst hi; simp [hnc]
          · simp [hi]
        · simp [hk]
      rcases h with rfl | rfl
      · exact key { s with weakC0 := s.weakC0 ++ [a] }
          (fun k => by rw [(get_appended s a k).1]; rfl)
          (by simp only [Ifc.init, ha]; simp)
      · exact key { s with weakC1 := s.weakC1 ++ [a] }
          (fun k => by rw [(get_appended s a k).2]; rfl)
          (by simp only [Ifc.init, ha]; simp)

/-- A topology whose interfaces are all assigned is left alone, for every default. -/
theorem init_covered (dflt : ℤ) (t : List ℕ) (s : Ifc) (h : ∀ i ∈ t, s.Covered i) :
    Ifc.init dflt t s = .ok s := by
  induction t with
  | nil => rfl
  | cons a t ih =>
    have ha := (assigned_iff s a).2 (h a (by simp))
    simp only [Ifc.init, ha, if_true]
    exact ih (fun i hi => h i (by simp [hi]))

theorem init_none (t : List ℕ) (s : Ifc) : Ifc.init (-1) t s = .ok s := by
  induction t with
  | nil => rfl
  | cons a t ih => simp only [Ifc.init]; split_ifs <;> exact ih

theorem init_unknown (dflt : ℤ) (h : dflt ≠ -1 ∧ dflt ≠ 0 ∧ dflt ≠ 1) (t : List ℕ) (s : Ifc)
    (i : ℕ) (hi : i ∈ t) (hn : ¬ s.Covered i) : Ifc.init dflt t s = .throws := by
  induction t with
  | nil => simp at hi
  | cons a t ih =>
    by_cases ha : s.assigned a = true
    · have hia : i ≠ a := fun e => hn (e ▸ (assigned_iff s a).1 ha)
      simp only [Ifc.init, ha, if_true]
      exact ih (by rcases List.mem_cons.1 hi with h' | h'; exacts [absurd h' hia, h'])
    · simp [Ifc.init, ha, h]

/-- Invariant of container-built assemblers. -/
theorem want_exec (ops : List HeapOp) (hops : ∀ op ∈ ops, ContainerOnly op) (h h' : Heap)
    (w : ℕ → Option Want)
    (hw : ∀ k, (w k = none ∧ h.own k = none) ∨ ∃ b, w k = some (.value b) ∧ h.space k = .own k ∧ h.own k = some b)
    (he : Heap.exec ops h = .ok h') (k : ℕ) (v : Want) (hv : wantExec ops h w k = some v) :
    ∃ b, v = .value b ∧ h'.discretisation k = .ok b := by
  induction ops generalizing h w with
  | nil =>
    simp only [Heap.exec, Outcome.ok.injEq] at he
    subst he
    simp only [wantExec] at hv
    rcases hw k with ⟨h1, _⟩ | ⟨b, h1, h2, h3⟩
    · rw [h1] at hv; simp at hv
    · rw [h1] at hv
      exact ⟨b, (Option.some.inj hv).symm, by simp [Heap.discretisation, h2, Heap.deref, h3]⟩
  | cons op ops ih =>
    simp only [Heap.exec] at he
    cases hs : h.step op with
    | throws => simp [hs, Outcome.bind] at he
    | ub => simp [hs, Outcome.bind] at he
    | ok h1 =>
      simp only [hs, Outcome.bind] at he
      simp only [wantExec, hs] at hv
      refine ih (fun o ho => hops o (by simp [ho])) h1 _ ?_ he hv
      intro i
      have hop := hops op (by simp)
      cases op with
      | newPointer _ _ => exact hop.elim
      | copy _ _ => exact hop.elim
      | move _ _ _ => exact hop.elim
      | setSpaceBasis _ _ => exact hop.elim
      | newContainer k j =>
        simp only [Heap.step] at hs
        cases hj : h.ext j with
        | none => simp [hj] at hs
        | some b =>
          simp only [hj] at hs
          cases hs
          by_cases hi : i = k
          · exact .inr ⟨b, by simp [wantStep, upd, hi, hj]⟩
          · simpa [wantStep, upd, hi] using hw i
      | setBasis k b =>
        simp only [Heap.step] at hs
        cases hk : h.own k with
        | none => simp [hk] at hs
        | some b0 =>
          simp only [hk] at hs
          cases hs
          by_cases hi : i = k
          · subst hi
            rcases hw i with ⟨_, h2⟩ | ⟨b1, h2, h3, _⟩
            · rw [h2] at hk; simp at hk
            · exact .inr ⟨b, by simp [wantStep, upd], h3, by simp [upd]⟩
          · simpa [wantStep, upd, hi] using hw i
      | destroy k =>
        simp only [Heap.step] at hs
        cases hs
        by_cases hi : i = k
        · exact .inl (by simp [wantStep, upd, hi])
        · simpa [wantStep, upd, hi] using hw i
      | writeExt j b => simp only [Heap.step] at hs; cases hs; exact hw i
      | destroyExt j => simp only [Heap.step] at hs; cases hs; exact hw i

end Verif.Assembler
