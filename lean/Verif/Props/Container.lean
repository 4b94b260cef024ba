import Verif.Lemmas.Container

/-! # Properties C07 and C08: the material container -/

namespace Verif.Container

open Spec

/-! ## C07 list behaviour and aliasing -/

/-- **C07** For every sequence of operations on a fresh container, the observation of every
slot at the end (value, empty, or out-of-range error) is that of the plain list
specification, in which `add/set` by reference makes a private copy and by pointer makes
an alias; operations succeed, throw or are undefined exactly when the specification says
so. -/
theorem C07_refines_list {α : Type} (h : Addr → α) (size : Nat) (ops : List (Op α)) (k : Int) :
    ((run (State.init h size) ops).bind fun s => observe s k) =
      ((arun (ainit (fun a => h (.user a)) size) ops).bind fun s => aobserve s k) := by
  have h1 := sim_run ops (State.init h size) (inv_init h size)
  have h0 : absState (State.init h size) = ainit (fun a => h (.user a)) size := by
    simp [absState, State.init, ainit, conv]
  rw [h0] at h1
  rw [← h1]
  cases run (State.init h size) ops with
  | ok s => simp only [Outcome.map, Outcome.bind]; exact observe_abs s k
  | throws => rfl
  | ub => rfl

/-- **C07** Consequence: a copy made by `add(const &)` is isolated – whatever the program
later does to its own objects, the slot keeps the value at the time of the call. -/
theorem C07_copy_isolated {α : Type} (h : Addr → α) (a : Nat) (muts : List (Nat × α)) :
    ((run (State.init h 0) (.addRef a :: muts.map fun m => .mutUser m.1 m.2)).bind
      fun s => observe s 0) = .ok (some (h (.user a))) := by
  rw [C07_refines_list]
  simp only [arun, astep, Outcome.bind]
  have key : ∀ (muts : List (Nat × α)) (s : AState α),
      ∃ u, arun s (muts.map fun m => .mutUser m.1 m.2) = .ok ⟨u, s.entries⟩ := by
    intro muts
    induction muts with
    | nil => intro s; exact ⟨s.users, rfl⟩
    | cons m r ih =>
      intro s
      simp only [List.map_cons, arun, astep, Outcome.bind]
      exact ih _
  obtain ⟨u, hu⟩ := key muts ⟨fun a => h (.user a), [] ++ [.own (h (.user a))]⟩
  simp only [ainit, List.replicate_zero]
  rw [hu]
  simp [aobserve]

/-- **C07** Consequence: an entry made by `add(pointer)` follows the object of the program. -/
theorem C07_alias_follows {α : Type} (h : Addr → α) (a : Nat) (v : α) :
    ((run (State.init h 0) [.addPtr a, .mutUser a v]).bind fun s => observe s 0)
      = .ok (some v) := by
  rw [C07_refines_list]
  simp [arun, astep, Outcome.bind, ainit, aobserve]

/-- **C07** is violated as regards error reporting: reading a slot that does not exist
throws, but `set` on a slot that does not exist is undefined behaviour. -/
theorem C07_set_out_of_range_violated {α : Type} (h : Addr → α) (size : Nat) (i : Int) (a : Nat)
    (hi : i < 0 ∨ (size : Int) ≤ i) :
    run (State.init h size) [.setPtr i a] = .ub ∧ run (State.init h size) [.setRef i a] = .ub ∧
    observe (State.init h size) i = .throws := by
  have h1 : ¬ (0 ≤ i ∧ i.toNat < size) := by omega
  refine ⟨?_, ?_, ?_⟩
  · simp [run, step, store, State.init, h1, Outcome.bind]
  · simp [run, step, store, State.init, h1, Outcome.bind, cloneObj]
  · unfold observe piece
    by_cases hk : 0 ≤ i
    · have : ¬ (i.toNat < size) := fun h => h1 ⟨hk, h⟩
      simp [hk, State.init, this, Outcome.map]
    · simp [hk, Outcome.map]

/-- Non-vacuity: copies and aliases mixed. -/
example : ((run (State.init (fun | .user n => 10 * n | .clone _ => 0) 1)
    [.addRef 3, .addPtr 3, .setRef 0 4, .mutUser 3 7, .mutPiece 2 8, .mutPiece 1 5]).bind
      fun s => (observe s 0).bind fun x => (observe s 1).bind fun y =>
        (observe s 2).bind fun z => .ok (x, y, z))
    = .ok (some 40, some 5, some 8) := by decide

/-! ## C08 reading from XML -/

/-- **C08** (partial: all indices in the file must be in range.)  Then reading succeeds, the
container has exactly the declared size, every patch listed in a group has the material
declared with the index of the last such group, and unlisted patches are empty. -/
theorem C08_read_partial {M : Type} (size : Nat) (children : List (Int × M))
    (groups : List (Int × List Int))
    (hc : ∀ c ∈ children, 0 ≤ c.1 ∧ c.1.toNat < children.length)
    (hg : ∀ g ∈ groups, 0 ≤ g.1 ∧ g.1.toNat < children.length)
    (hp : ∀ g ∈ groups, ∀ p ∈ g.2, 0 ≤ p ∧ p.toNat < size) :
    ∃ l, readXml size children groups = .ok l ∧ l.length = size ∧
      ∀ p : Nat, p < size → l[p]? = some ((groupOf groups p).bind (declared children)) := by
  obtain ⟨mat, hm, hml, hmi⟩ := readInventory_spec children hc
  unfold readXml
  rw [hm]
  change ∃ l, List.foldl (fun (acc : Outcome (List (Option M))) g => acc.bind fun l => readGroup mat l g)
    (.ok (List.replicate size none)) groups = .ok l ∧ _
  rw [readGroups_flat]
  obtain ⟨ops, hops⟩ : ∃ ops, ops = groups.flatMap fun g => g.2.map fun q => (g.1, q) := ⟨_, rfl⟩
  rw [← hops]
  have hmem : ∀ o ∈ ops, (0 ≤ o.1 ∧ o.1.toNat < children.length) ∧ (0 ≤ o.2 ∧ o.2.toNat < size) := by
    intro o ho
    simp only [hops, List.mem_flatMap, List.mem_map] at ho
    obtain ⟨g, hgm, q, hq, rfl⟩ := ho
    exact ⟨hg g hgm, hp g hgm q hq⟩
  have hfun : ∀ (ops : List (Int × Int)) (acc : Outcome (List (Option M))),
      (∀ o ∈ ops, 0 ≤ o.1 ∧ o.1.toNat < children.length) →
      ops.foldl (fun acc o => acc.bind fun l =>
        (indexUnchecked mat o.1).bind fun m => assignUnchecked l o.2 m) acc =
      ops.foldl (fun acc o => acc.bind fun l =>
        assignUnchecked l o.2 (declared children o.1)) acc := by
    intro ops
    induction ops with
    | nil => intro acc _; rfl
    | cons o r ih =>
      intro acc h
      simp only [List.foldl_cons]
      rw [ih _ (fun o' ho' => h o' (by simp [ho']))]
      have ho := h o (by simp)
      have hidx : indexUnchecked mat o.1 = .ok (declared children o.1) := by
        unfold indexUnchecked
        rw [hmi _ ho.2]
        have : ((o.1.toNat : Nat) : Int) = o.1 := by omega
        simp only [ho.1, if_true, this]
      simp only [hidx, Outcome.bind]
  have e := hfun ops (.ok (List.replicate size none)) (fun o ho => (hmem o ho).1)
  rw [e]
  obtain ⟨l', h1, h2, h3⟩ := fold_assign (fun o : Int × Int => o.2)
    (fun o => declared children o.1) ops (List.replicate size none)
    (fun o ho => by simpa using (hmem o ho).2)
  refine ⟨l', h1, by simpa using h2, ?_⟩
  intro p hps
  rw [h3 p (by simpa using hps)]
  have h0 : (List.replicate size (none : Option M))[p]? = some none := by
    simp [hps]
  rw [h0]
  have := fold_last (fun o : Int × Int => o.2 = (p : Int)) (fun o => declared children o.1) ops
    (none : Option M)
  rw [this]
  congr 1
  unfold groupOf
  rw [← hops]
  have key : ∀ (l : List (Int × Int)) (a : Option (Option M)) (b : Option Int),
      a.getD none = b.bind (declared children) →
      (l.foldl (fun acc o => if o.2 = (p : Int) then some (declared children o.1) else acc) a).getD none =
      (l.foldl (fun acc o => if o.2 = (p : Int) then some o.1 else acc) b).bind (declared children) := by
    intro l
    induction l with
    | nil => intro a b h; exact h
    | cons o r ih =>
      intro a b h
      simp only [List.foldl_cons]
      apply ih
      split <;> simp [h]
  exact key ops none none rfl

/-- **C08** is violated for files with an index out of range: no error is reported, the
read is undefined behaviour.  Three witnesses: a patch index, a group index, and a
material index equal to the declared size. -/
theorem C08_out_of_range_violated {M : Type} (m : M) (n : Nat) :
    readXml n [((0 : Int), m)] [(0, [(n : Int)])] = .ub ∧
    readXml (n + 1) [((0 : Int), m)] [(1, [0])] = .ub ∧
    readXml n [((1 : Int), m)] [] = .ub := by
  refine ⟨?_, ?_, ?_⟩
  · simp [readXml, readInventory, readGroup, assignUnchecked, indexUnchecked, Outcome.bind]
  · simp [readXml, readInventory, readGroup, assignUnchecked, indexUnchecked, Outcome.bind]
  · simp [readXml, readInventory, assignUnchecked, Outcome.bind]

/-- Non-vacuity: two materials, three patches, one listed twice and one not at all. -/
example : readXml 3 [((0 : Int), "a"), (1, "b")] [(0, [0, 2]), (1, [2])]
    = .ok [some "a", none, some "b"] := by decide

end Verif.Container
