import Verif.Spec.Container

/-! # Helper lemmas: the container refines the list specification -/

namespace Verif.Container

open Spec

/-- Entry seen through the heap. -/
def conv {α : Type} (h : Addr → α) : Option Addr → Entry α
  | none => .empty
  | some (.user a) => .alias a
  | some (.clone n) => .own (h (.clone n))

/-- Abstraction function. -/
def absState {α : Type} (s : State α) : AState α :=
  ⟨fun a => s.heap (.user a), s.slots.map (conv s.heap)⟩

/-- Clones in the container were allocated before, and occur only once. -/
def Inv {α : Type} (s : State α) : Prop :=
  ∀ i n : Nat, s.slots[i]? = some (some (Addr.clone n)) →
    n < s.next ∧ ∀ j : Nat, s.slots[j]? = some (some (Addr.clone n)) → j = i

theorem inv_init {α : Type} (h : Addr → α) (size : Nat) : Inv (State.init h size) := by
  intro i n hi
  simp [State.init, List.getElem?_replicate] at hi

theorem map_conv_congr {α : Type} (h h' : Addr → α) (l : List (Option Addr))
    (hh : ∀ n, some (.clone n) ∈ l → h (.clone n) = h' (.clone n)) :
    l.map (conv h) = l.map (conv h') := by
  apply List.map_congr_left
  intro a ha
  match a with
  | none => rfl
  | some (.user _) => rfl
  | some (.clone n) => simp [conv, hh n ha]

theorem mem_lt {α : Type} (s : State α) (hs : Inv s) (n : Nat)
    (hn : some (Addr.clone n) ∈ s.slots) : n < s.next := by
  obtain ⟨i, hi⟩ := List.getElem?_of_mem hn
  exact (hs i n hi).1

theorem abs_clone {α : Type} (s : State α) (hs : Inv s) (a : Nat) :
    (cloneObj s a).1.slots.map (conv (cloneObj s a).1.heap) = s.slots.map (conv s.heap) := by
  apply map_conv_congr
  intro n hn
  have := mem_lt s hs n hn
  simp only [cloneObj]
  rw [Function.update_of_ne]
  intro e; injection e with e; omega

theorem sim_store {α : Type} (s : State α) (i : Int) (p : Addr) :
    (store s i p).map absState = put (absState s) i (conv s.heap (some p)) := by
  unfold store put
  by_cases h : 0 ≤ i ∧ i.toNat < s.slots.length
  · simp [h, absState, Outcome.map, List.map_set]
  · simp only [h, if_false]
    have : ¬ (0 ≤ i ∧ i.toNat < (absState s).entries.length) := by simpa [absState] using h
    simp [this, Outcome.map]

theorem inv_store {α : Type} (s : State α) (i : Int) (p : Addr) (s' : State α) (hs : Inv s)
    (hp : ∀ n, p = .clone n → n < s.next ∧ some (Addr.clone n) ∉ s.slots)
    (h : store s i p = .ok s') : Inv s' := by
  unfold store at h
  split at h
  · rename_i hi
    injection h with h
    subst h
    intro k n hk
    simp only at hk ⊢
    by_cases hki : k = i.toNat
    · subst hki
      rw [List.getElem?_set_self hi.2] at hk
      simp at hk
      refine ⟨(hp n hk).1, ?_⟩
      intro j hj
      by_contra hne
      rw [List.getElem?_set_ne (fun e => hne e.symm)] at hj
      exact (hp n hk).2 (List.mem_of_getElem? hj)
    · rw [List.getElem?_set_ne (fun e => hki e.symm)] at hk
      refine ⟨(hs k n hk).1, ?_⟩
      intro j hj
      by_cases hji : j = i.toNat
      · subst hji
        rw [List.getElem?_set_self hi.2] at hj
        simp at hj
        exact absurd (List.mem_of_getElem? hk) (hp n hj).2
      · rw [List.getElem?_set_ne (fun e => hji e.symm)] at hj
        exact (hs k n hk).2 j hj
  · simp at h

theorem inv_append {α : Type} (s : State α) (p : Addr) (hs : Inv s)
    (hp : ∀ n, p = .clone n → n < s.next ∧ some (Addr.clone n) ∉ s.slots) :
    Inv { s with slots := s.slots ++ [some p] } := by
  intro k n hk
  simp only at hk ⊢
  rcases Nat.lt_trichotomy k s.slots.length with hlt | heq | hgt
  · rw [List.getElem?_append_left hlt] at hk
    refine ⟨(hs k n hk).1, ?_⟩
    intro j hj
    rcases Nat.lt_trichotomy j s.slots.length with jlt | jeq | jgt
    · rw [List.getElem?_append_left jlt] at hj
      exact (hs k n hk).2 j hj
    · rw [List.getElem?_append_right (by omega)] at hj
      simp [jeq] at hj
      exact absurd (List.mem_of_getElem? hk) (hp n hj).2
    · rw [List.getElem?_append_right (by omega)] at hj
      obtain ⟨d, hd⟩ : ∃ d, j - s.slots.length = d + 1 := ⟨j - s.slots.length - 1, by omega⟩
      simp [hd] at hj
  · rw [List.getElem?_append_right (by omega)] at hk
    simp [heq] at hk
    refine ⟨(hp n hk).1, ?_⟩
    intro j hj
    rcases Nat.lt_trichotomy j s.slots.length with jlt | jeq | jgt
    · rw [List.getElem?_append_left jlt] at hj
      exact absurd (List.mem_of_getElem? hj) (hp n hk).2
    · omega
    · rw [List.getElem?_append_right (by omega)] at hj
      obtain ⟨d, hd⟩ : ∃ d, j - s.slots.length = d + 1 := ⟨j - s.slots.length - 1, by omega⟩
      simp [hd] at hj
  · rw [List.getElem?_append_right (by omega)] at hk
    obtain ⟨d, hd⟩ : ∃ d, k - s.slots.length = d + 1 := ⟨k - s.slots.length - 1, by omega⟩
    simp [hd] at hk

theorem inv_cloneObj {α : Type} (s : State α) (hs : Inv s) (a : Nat) : Inv (cloneObj s a).1 := by
  intro i n hi
  have := hs i n hi
  refine ⟨?_, this.2⟩
  simp only [cloneObj]; omega

theorem fresh_clone {α : Type} (s : State α) (hs : Inv s) (a : Nat) :
    ∀ n, (cloneObj s a).2 = .clone n →
      n < (cloneObj s a).1.next ∧ some (Addr.clone n) ∉ (cloneObj s a).1.slots := by
  intro n hn
  simp only [cloneObj] at hn ⊢
  injection hn with hn
  subst hn
  refine ⟨by omega, fun hm => ?_⟩
  have := mem_lt s hs _ hm
  omega

theorem abs_cloneObj {α : Type} (s : State α) (hs : Inv s) (a : Nat) :
    absState (cloneObj s a).1 = absState s := by
  have := abs_clone s hs a
  unfold absState
  rw [this]
  congr 1

theorem sim_step {α : Type} (s : State α) (hs : Inv s) (op : Op α) :
    (step s op).map absState = astep (absState s) op ∧
    ∀ s', step s op = .ok s' → Inv s' := by
  cases op with
  | addRef a =>
    refine ⟨?_, ?_⟩
    · have h := abs_cloneObj s hs a
      simp only [step, Outcome.map, astep]
      congr 1
      have h1 : (absState (cloneObj s a).1).entries = (absState s).entries := by rw [h]
      have h2 : (absState (cloneObj s a).1).users = (absState s).users := by rw [h]
      simp only [absState] at h1 h2 ⊢
      simp only [h1, h2, List.map_append, List.map_cons, List.map_nil]
      simp [conv, cloneObj]
    · intro s' h
      simp only [step] at h
      injection h with h
      subst h
      exact inv_append _ _ (inv_cloneObj s hs a) (fresh_clone s hs a)
  | addPtr a =>
    refine ⟨?_, ?_⟩
    · simp [step, Outcome.map, astep, absState, conv]
    · intro s' h
      simp only [step] at h
      injection h with h
      subst h
      exact inv_append s _ hs (by intro n h; cases h)
  | setRef i a =>
    refine ⟨?_, ?_⟩
    · simp only [step, astep]
      rw [sim_store, abs_cloneObj s hs a]
      simp [conv, cloneObj, absState]
    · intro s' h
      simp only [step] at h
      exact inv_store _ _ _ s' (inv_cloneObj s hs a) (fresh_clone s hs a) h
  | setPtr i a =>
    refine ⟨?_, ?_⟩
    · simp only [step, astep]
      rw [sim_store]; rfl
    · intro s' h
      simp only [step] at h
      exact inv_store _ _ _ s' hs (by intro n h; cases h) h
  | clear =>
    refine ⟨by simp [step, Outcome.map, astep, absState], ?_⟩
    intro s' h
    simp only [step] at h
    injection h with h
    subst h
    intro i n hi
    simp at hi
  | mutUser a v =>
    refine ⟨?_, ?_⟩
    · simp only [step, Outcome.map, astep, absState]
      congr 1
      rw [map_conv_congr (Function.update s.heap (.user a) v) s.heap]
      · congr 1
        funext b
        by_cases hb : b = a
        · subst hb; simp
        · rw [Function.update_of_ne hb, Function.update_of_ne]
          intro e; injection e with e; exact hb e
      · intro n _; rw [Function.update_of_ne]; intro e; cases e
    · intro s' h
      simp only [step] at h
      injection h with h
      subst h
      exact hs
  | mutPiece k v =>
    simp only [step, astep, piece]
    by_cases hk : 0 ≤ k
    · simp only [hk, if_true]
      have hmap : (absState s).entries[k.toNat]? = (s.slots[k.toNat]?).map (conv s.heap) := by
        simp [absState]
      rw [hmap]
      cases hsl : s.slots[k.toNat]? with
      | none => simp [Outcome.bind, Outcome.map]
      | some p =>
        match p, hsl with
        | none, hsl => simp [Outcome.bind, Outcome.map, conv]
        | some (.user a), hsl =>
          refine ⟨?_, ?_⟩
          · simp only [Outcome.bind, Outcome.map, Option.map_some, conv, absState]
            congr 1
            rw [map_conv_congr (Function.update s.heap (.user a) v) s.heap]
            · congr 1
              funext b
              by_cases hb : b = a
              · subst hb; simp
              · rw [Function.update_of_ne hb, Function.update_of_ne]
                intro e; injection e with e; exact hb e
            · intro n _; rw [Function.update_of_ne]; intro e; cases e
          · intro s' h
            simp only [Outcome.bind] at h
            injection h with h
            subst h
            exact hs
        | some (.clone n), hsl =>
          refine ⟨?_, ?_⟩
          · simp only [Outcome.bind, Outcome.map, Option.map_some, conv, absState]
            congr 1
            congr 1
            · apply List.ext_getElem?
              intro j
              by_cases hj : j = k.toNat
              · subst hj
                have hlt : k.toNat < s.slots.length := by
                  rw [List.getElem?_eq_some_iff] at hsl; exact hsl.1
                rw [List.getElem?_set_self (by simpa using hlt)]
                simp [hsl, conv]
              · rw [List.getElem?_set_ne (fun e => hj e.symm)]
                simp only [List.getElem?_map]
                cases hsj : s.slots[j]? with
                | none => rfl
                | some q =>
                  match q, hsj with
                  | none, _ => rfl
                  | some (.user b), _ => rfl
                  | some (.clone m), hsj =>
                    simp only [Option.map_some, conv]
                    rw [Function.update_of_ne]
                    intro e
                    injection e with e
                    subst e
                    exact hj ((hs k.toNat m hsl).2 j hsj)
          · intro s' h
            simp only [Outcome.bind] at h
            injection h with h
            subst h
            exact hs
    · simp [hk, Outcome.bind, Outcome.map]

theorem sim_run {α : Type} (ops : List (Op α)) (s : State α) (hs : Inv s) :
    (run s ops).map absState = arun (absState s) ops := by
  induction ops generalizing s with
  | nil => rfl
  | cons op r ih =>
    have h := sim_step s hs op
    simp only [run, arun]
    cases hst : step s op with
    | ok s' =>
      have h1 := h.1
      rw [hst] at h1
      simp only [Outcome.map] at h1
      rw [← h1]
      simpa [Outcome.bind] using ih s' (h.2 s' hst)
    | throws =>
      have h1 := h.1
      rw [hst] at h1
      simp only [Outcome.map] at h1
      rw [← h1]; rfl
    | ub =>
      have h1 := h.1
      rw [hst] at h1
      simp only [Outcome.map] at h1
      rw [← h1]; rfl

theorem observe_abs {α : Type} (s : State α) (k : Int) :
    observe s k = aobserve (absState s) k := by
  unfold observe aobserve piece
  by_cases hk : 0 ≤ k
  · simp only [hk, if_true]
    have hmap : (absState s).entries[k.toNat]? = (s.slots[k.toNat]?).map (conv s.heap) := by
      simp [absState]
    rw [hmap]
    cases s.slots[k.toNat]? with
    | none => rfl
    | some p =>
      match p with
      | none => rfl
      | some (.user a) => rfl
      | some (.clone n) => rfl
  · simp [hk, Outcome.map]

end Verif.Container

namespace Verif.Container

open Spec

/-- In-range unchecked assignments behave like a functional update. -/
theorem assign_ok {β : Type} (l : List β) (i : Int) (x : β) (h : 0 ≤ i ∧ i.toNat < l.length) :
    assignUnchecked l i x = .ok (l.set i.toNat x) := by
  unfold assignUnchecked; simp [h]

/-- A fold of in-range assignments: result exists, keeps the length, and position `p`
holds the value of the last assignment to `p`. -/
theorem fold_assign {β γ : Type} (idx : γ → Int) (val : γ → β) (ops : List γ) (l : List β)
    (h : ∀ o ∈ ops, 0 ≤ idx o ∧ (idx o).toNat < l.length) :
    ∃ l' : List β, ops.foldl (fun (acc : Outcome (List β)) o =>
          acc.bind fun l => assignUnchecked l (idx o) (val o)) (.ok l) = .ok l' ∧ l'.length = l.length ∧
      ∀ p : Nat, p < l.length → l'[p]? =
        (ops.foldl (fun acc o => if idx o = (p : Int) then some (val o) else acc) l[p]?) := by
  induction ops generalizing l with
  | nil => exact ⟨l, rfl, rfl, fun p _ => rfl⟩
  | cons o r ih =>
    have ho := h o (by simp)
    simp only [List.foldl_cons, Outcome.bind]
    rw [assign_ok l _ _ ho]
    obtain ⟨l', h1, h2, h3⟩ := ih (l.set (idx o).toNat (val o))
      (fun o' ho' => by simpa using h o' (by simp [ho']))
    refine ⟨l', h1, by simpa using h2, ?_⟩
    intro p hp
    rw [h3 p (by simpa using hp)]
    congr 1
    by_cases hpi : idx o = (p : Int)
    · have : (idx o).toNat = p := by omega
      simp [hpi, hp]
    · have : (idx o).toNat ≠ p := by omega
      rw [List.getElem?_set_ne this]
      simp [hpi]

/-- Last-write-wins folds commute with wrapping the values. -/
theorem fold_last {β γ : Type} (P : γ → Prop) [DecidablePred P] (val : γ → β) (ops : List γ)
    (init : β) :
    ops.foldl (fun acc o => if P o then some (val o) else acc) (some init) =
      some ((ops.foldl (fun acc o => if P o then some (val o) else acc) none).getD init) := by
  have key : ∀ (ops : List γ) (a : Option β),
      ops.foldl (fun acc o => if P o then some (val o) else acc) (some (a.getD init)) =
      some ((ops.foldl (fun acc o => if P o then some (val o) else acc) a).getD init) := by
    intro ops
    induction ops with
    | nil => intro a; rfl
    | cons o r ih =>
      intro a
      simp only [List.foldl_cons]
      by_cases h : P o
      · simp only [h, if_true]
        have := ih (some (val o))
        simpa using this
      · simp only [h, if_false]
        exact ih a
  exact key ops none

theorem readInventory_spec {M : Type} (children : List (Int × M))
    (hc : ∀ c ∈ children, 0 ≤ c.1 ∧ c.1.toNat < children.length) :
    ∃ mat, readInventory children = .ok mat ∧ mat.length = children.length ∧
      ∀ i : Nat, i < children.length → mat[i]? = some (declared children i) := by
  obtain ⟨mat, h1, h2, h3⟩ := fold_assign (fun c : Int × M => c.1) (fun c => some c.2) children
    (List.replicate children.length none) (by simpa using hc)
  refine ⟨mat, h1, by simpa using h2, ?_⟩
  intro i hi
  rw [h3 i (by simpa using hi)]
  have h0 : (List.replicate children.length (none : Option M))[i]? = some none := by
    simp [hi]
  rw [h0]
  have := fold_last (fun c : Int × M => c.1 = (i : Int)) (fun c => some c.2) children (none : Option M)
  rw [this]
  congr 1
  unfold declared
  have key : ∀ (l : List (Int × M)) (a : Option (Option M)) (b : Option M), a.getD none = b →
      (l.foldl (fun acc o => if o.1 = (i : Int) then some (some o.2) else acc) a).getD none =
      l.foldl (fun acc c => if c.1 = (i : Int) then some c.2 else acc) b := by
    intro l
    induction l with
    | nil => intro a b h; exact h
    | cons o r ih =>
      intro a b h
      simp only [List.foldl_cons]
      apply ih
      split <;> simp [h]
  exact key children none none rfl

/-- The loop over all groups is the loop over all (material, patch) pairs. -/
theorem readGroups_flat {M : Type} (mat : List (Option M)) (groups : List (Int × List Int))
    (acc : Outcome (List (Option M))) :
    groups.foldl (fun acc g => acc.bind fun l => readGroup mat l g) acc =
    (groups.flatMap fun g => g.2.map fun q => (g.1, q)).foldl (fun acc o => acc.bind fun l =>
      (indexUnchecked mat o.1).bind fun m => assignUnchecked l o.2 m) acc := by
  induction groups generalizing acc with
  | nil => rfl
  | cons g r ih =>
    simp only [List.foldl_cons, List.flatMap_cons, List.foldl_append]
    rw [ih]
    congr 1
    rw [List.foldl_map]
    unfold readGroup
    cases acc with
    | ok l => rfl
    | throws =>
      simp only [Outcome.bind]
      generalize g.2 = ps
      induction ps with
      | nil => rfl
      | cons a b ihb => simpa [Outcome.bind] using ihb
    | ub =>
      simp only [Outcome.bind]
      generalize g.2 = ps
      induction ps with
      | nil => rfl
      | cons a b ihb => simpa [Outcome.bind] using ihb

end Verif.Container
