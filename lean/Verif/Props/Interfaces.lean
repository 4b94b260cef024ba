import Verif.Lemmas.Interfaces

/-! # Properties C70, C80, C86: interfaces and discretisation basis -/

set_option linter.unusedSimpArgs false

namespace Verif.Assembler

/-- Example: interface 1 is weakly C0, interface 2 uncoupled, 3 not assigned. -/
def exIfc : Ifc := ⟨[], [], [1], [], [2]⟩

/-! ## C70 -/

/-- **C70** For the defaults C0 and C1, every interface of the topology is in a coupling set
afterwards; every user assignment is kept; only unassigned interfaces of the topology are added,
and only to the set of the default. -/
theorem C70_partial (dflt : ℤ) (h : dflt = 0 ∨ dflt = 1) (t : List ℕ) (s : Ifc) :
    ∃ s', Ifc.init dflt t s = .ok s' ∧ (∀ i ∈ t, s'.Covered i) ∧
      (∀ k i, i ∈ s.get k → i ∈ s'.get k) ∧
      (∀ k i, i ∈ s'.get k → i ∈ s.get k ∨
        (i ∈ t ∧ (∀ k', i ∉ s.get k') ∧ k = if dflt = 0 then .weakC0 else .weakC1)) := by
  obtain ⟨s', h1, h2⟩ := init_mem dflt h t s
  refine ⟨s', h1, fun i hi => ?_, fun k i hi => (h2 k i).2 (.inl hi), fun k i hi => ?_⟩
  · by_cases hc : s.Covered i
    · obtain ⟨k, hk⟩ := hc
      exact ⟨k, (h2 k i).2 (.inl hk)⟩
    · exact ⟨dfltKind dflt, (h2 _ i).2 (.inr ⟨rfl, hi, hc⟩)⟩
  · rcases (h2 k i).1 hi with h3 | ⟨h3, h4, h5⟩
    · exact .inl h3
    · exact .inr ⟨h4, fun k' hk' => h5 ⟨k', hk'⟩, h3⟩

/-- **C70** An interface assigned by the user is in exactly the sets the user put it in. -/
theorem C70_user (dflt : ℤ) (h : dflt = -1 ∨ dflt = 0 ∨ dflt = 1) (t : List ℕ) (s : Ifc) (i : ℕ)
    (hi : s.Covered i) :
    ∃ s', Ifc.init dflt t s = .ok s' ∧ ∀ k, i ∈ s'.get k ↔ i ∈ s.get k := by
  rcases h with rfl | h
  · exact ⟨s, init_none t s, fun _ => Iff.rfl⟩
  · obtain ⟨s', h1, h2⟩ := init_mem dflt h t s
    refine ⟨s', h1, fun k => ?_⟩
    rw [h2]
    simp [hi]

/-- **C70** Calling `initInterfaces` a second time changes nothing. -/
theorem C70_idempotent (dflt : ℤ) (t : List ℕ) (s s' : Ifc) (h : Ifc.init dflt t s = .ok s') :
    Ifc.init dflt t s' = .ok s' := by
  by_cases h1 : dflt = -1
  · subst h1; exact init_none t s'
  by_cases h2 : dflt = 0 ∨ dflt = 1
  · obtain ⟨s1, k1, k2⟩ := init_mem dflt h2 t s
    rw [h] at k1
    cases k1
    apply init_covered
    intro i hi
    by_cases hc : s.Covered i
    · obtain ⟨k, hk⟩ := hc
      exact ⟨k, (k2 k i).2 (.inl hk)⟩
    · exact ⟨dfltKind dflt, (k2 _ i).2 (.inr ⟨rfl, hi, hc⟩)⟩
  · by_cases hall : ∀ i ∈ t, s.Covered i
    · rw [init_covered dflt t s hall] at h
      cases h
      exact init_covered dflt t s hall
    · push Not at hall
      obtain ⟨i, hi, hn⟩ := hall
      rw [init_unknown dflt ⟨h1, fun e => h2 (.inl e), fun e => h2 (.inr e)⟩ t s i hi hn] at h
      simp at h

/-- **C70** (partial: an unassigned interface exists) Unknown defaults are rejected. -/
theorem C70_unknown_partial (dflt : ℤ) (h : dflt ≠ -1 ∧ dflt ≠ 0 ∧ dflt ≠ 1) (t : List ℕ) (s : Ifc)
    (hn : ∃ i ∈ t, ¬ s.Covered i) : Ifc.init dflt t s = .throws := by
  obtain ⟨i, hi, hc⟩ := hn
  exact init_unknown dflt h t s i hi hc

/-- Non-vacuity: interfaces 1, 2, 3 with default C1. -/
example : exIfc.Covered 1 ∧ exIfc.Covered 2 ∧ ¬ exIfc.Covered 3 := by
  refine ⟨⟨.weakC0, by simp [exIfc, Ifc.get]⟩, ⟨.uncoupled, by simp [exIfc, Ifc.get]⟩, ?_⟩
  rintro ⟨k, hk⟩
  cases k <;> simp [exIfc, Ifc.get] at hk

/-- **C70** is violated: an unknown default is accepted when no interface is unassigned. -/
theorem C70_unknown_violated (dflt : ℤ) : Ifc.init dflt [1, 2] exIfc = .ok exIfc :=
  init_covered dflt _ _ (by
    intro i hi
    simp only [List.mem_cons, List.not_mem_nil, or_false] at hi
    rcases hi with rfl | rfl
    · exact ⟨.weakC0, by simp [exIfc, Ifc.get]⟩
    · exact ⟨.uncoupled, by simp [exIfc, Ifc.get]⟩)

/-- **C70** is violated: for every kind of coupling a second `add` call forgets the interfaces of
the first. -/
theorem C70_add_violated (s : Ifc) (l l' : List ℕ) (k : Kind) :
    ((s.add l k).add l' k).get k = l' := by
  cases k <;> rfl

/-- **C70** is violated: after `addWeakC0 [1]`, `addWeakC0 [2]`, `initInterfaces` with default C1,
interface 1 is coupled C1 only. -/
theorem C70_replaced_violated :
    ∃ s', Ifc.init 1 [1, 2] (((⟨[], [], [], [], []⟩ : Ifc).add [1] .weakC0).add [2] .weakC0) = .ok s' ∧
      s'.weakC0 = [2] ∧ s'.weakC1 = [1] := ⟨_, rfl, rfl, rfl⟩

/-! ## C86 -/

/-- **C86** (partial: weak C0 interfaces, or strong continuity of the whole space) The displacement
is coupled. -/
theorem C86_partial (s : Ifc) (cont : ℤ) (i : ℕ) (h : i ∈ s.weakC0 ∨ 0 ≤ cont) :
    s.couplesDisplacement cont i = true := by
  rcases h with h | h <;> simp [Ifc.couplesDisplacement, h]

/-- **C86** (partial: discontinuous space) Interfaces that are only in the uncoupled set are not
coupled. -/
theorem C86_uncoupled_partial (s : Ifc) (cont : ℤ) (hc : cont < 0) (i : ℕ)
    (h : ∀ k, i ∈ s.get k → k = .uncoupled) :
    s.couplesDisplacement cont i = false ∧ s.couplesRotation i = false := by
  have h0 : i ∉ s.weakC0 := fun hh => by simpa using h .weakC0 hh
  have h1 : i ∉ s.weakC1 := fun hh => by simpa using h .weakC1 hh
  simp [Ifc.couplesDisplacement, Ifc.couplesRotation, h0, h1, not_le.2 hc]

/-- Non-vacuity. -/
example : 1 ∈ exIfc.weakC0 ∧ ∀ k, 2 ∈ exIfc.get k → k = .uncoupled :=
  ⟨by simp [exIfc], fun k hk => by cases k <;> simp [exIfc, Ifc.get] at hk ⊢⟩

/-- **C86** is violated: with the default options (continuity −1, default coupling C1), every
interface without an assignment gets the rotational penalty but its displacement is not coupled at
all. -/
theorem C86_default_violated (t : List ℕ) (i : ℕ) (hi : i ∈ t) :
    ∃ s', Ifc.init 1 t ⟨[], [], [], [], []⟩ = .ok s' ∧ 0 ≤ Kind.order .weakC1 ∧ i ∈ s'.get .weakC1 ∧
      s'.couplesDisplacement (-1) i = false := by
  obtain ⟨s', h1, h2⟩ := init_mem 1 (.inr rfl) t ⟨[], [], [], [], []⟩
  have hn : ¬ (⟨[], [], [], [], []⟩ : Ifc).Covered i := by
    rintro ⟨k, hk⟩; cases k <;> simp [Ifc.get] at hk
  refine ⟨s', h1, by decide, (h2 _ _).2 (.inr ⟨rfl, hi, hn⟩), ?_⟩
  have : i ∉ s'.get .weakC0 := by
    rw [h2]
    simp [Ifc.get, dfltKind]
  have h3 : i ∉ s'.weakC0 := this
  simp [Ifc.couplesDisplacement, h3]

/-- **C86** is violated: the strong coupling lists have no effect; an interface in them is not
coupled in a discontinuous space. -/
theorem C86_strong_violated (l : List ℕ) (i : ℕ) :
    (((⟨[], [], [], [], []⟩ : Ifc).add l .strongC0).add l .strongC1).couplesDisplacement (-1) i = false ∧
    (((⟨[], [], [], [], []⟩ : Ifc).add l .strongC0).add l .strongC1).couplesRotation i = false := by
  simp [Ifc.add, Ifc.couplesDisplacement, Ifc.couplesRotation]

/-- **C86** is violated: with a continuous space an interface declared uncoupled is coupled. -/
theorem C86_uncoupled_violated (l : List ℕ) (i : ℕ) (cont : ℤ) (hc : 0 ≤ cont) :
    ((⟨[], [], [], [], []⟩ : Ifc).add l .uncoupled).couplesDisplacement cont i = true := by
  simp [Ifc.couplesDisplacement, hc]

/-! ## C80 -/

/-- **C80** `setSpaceBasis` always takes effect. -/
theorem C80_space (h h' : Heap) (k j : ℕ) (hs : h.step (.setSpaceBasis k j) = .ok h') :
    h'.discretisation k = h'.deref (.ext j) := by
  simp only [Heap.step] at hs
  split at hs
  · simp at hs
  · cases hs; simp [Heap.discretisation, upd, Heap.deref]

/-- **C80** (partial: assemblers whose space refers to their own basis) Exact condition: from every
memory state, `setBasis` with a basis different from the one in use takes effect if and only if the
space refers to the assembler's own basis. -/
theorem C80_iff_partial (h h' : Heap) (k b : ℕ) (hs : h.step (.setBasis k b) = .ok h')
    (hb : h.discretisation k ≠ .ok b) :
    h'.discretisation k = .ok b ↔ h.space k = .own k := by
  simp only [Heap.step] at hs
  split at hs
  · simp at hs
  · cases hs
    constructor
    · intro h1
      by_contra h2
      apply hb
      rw [← h1]
      simp only [Heap.discretisation]
      cases hsp : h.space k with
      | own m =>
        have : m ≠ k := fun e => h2 (by rw [hsp, e])
        simp [Heap.deref, upd, this]
      | ext j => simp [Heap.deref]
    · intro h1
      simp [Heap.discretisation, h1, Heap.deref, upd]

/-- Memory with the outside bases `ext` and no assemblers. -/
def Heap.fresh (ext : ℕ → Option ℕ) : Heap := ⟨fun _ => none, ext, fun k => .own k⟩

/-- **C80** (partial: container constructor, no copies, no moves, no `setSpaceBasis`) For every sequence of
operations every live assembler uses the basis the client expects. -/
theorem C80_partial (ext : ℕ → Option ℕ) (ops : List HeapOp) (hops : ∀ op ∈ ops, ContainerOnly op)
    (h : Heap) (he : Heap.exec ops (Heap.fresh ext) = .ok h) (k : ℕ) (v : Want)
    (hv : wantExec ops (Heap.fresh ext) (fun _ => none) k = some v) :
    ∃ b, v = .value b ∧ h.discretisation k = .ok b :=
  want_exec ops hops _ h _ (fun _ => .inl ⟨rfl, rfl⟩) he k v hv

/-- Non-vacuity: construct assembler 0 from basis object 5 (holding basis 7), set basis 9; the
client expects 9. -/
example : ∃ h, Heap.exec [.newContainer 0 5, .setBasis 0 9] (Heap.fresh fun _ => some 7) = .ok h ∧
    wantExec [.newContainer 0 5, .setBasis 0 9] (Heap.fresh fun _ => some 7) (fun _ => none) 0 =
      some (.value 9) ∧ h.discretisation 0 = .ok 9 := ⟨_, rfl, rfl, rfl⟩

/-- **C80** is violated: an assembler built with a material pointer keeps its old basis after
`setBasis`, for all bases; if the outside object dies, its space dangles. -/
theorem C80_pointer_violated (ext : ℕ → Option ℕ) (k j b b' : ℕ) (hj : ext j = some b) :
    (∃ h, Heap.exec [.newPointer k j, .setBasis k b'] (Heap.fresh ext) = .ok h ∧
      h.own k = some b' ∧ h.discretisation k = .ok b) ∧
    (∃ h, Heap.exec [.newPointer k j, .destroyExt j] (Heap.fresh ext) = .ok h ∧
      h.discretisation k = .ub) := by
  constructor <;>
    simp [Heap.exec, Heap.step, Heap.fresh, hj, Outcome.bind, upd, Heap.discretisation, Heap.deref]

/-- **C80** is violated: a copy of a container-built assembler uses the original's basis: `setBasis`
on the copy has no effect, `setBasis` on the original changes the copy, and after destruction of
the original the copy dangles. -/
theorem C80_copy_violated (ext : ℕ → Option ℕ) (j b b' : ℕ) (hj : ext j = some b) :
    (∃ h, Heap.exec [.newContainer 0 j, .copy 1 0, .setBasis 1 b'] (Heap.fresh ext) = .ok h ∧
      h.own 1 = some b' ∧ h.discretisation 1 = .ok b) ∧
    (∃ h, Heap.exec [.newContainer 0 j, .copy 1 0, .setBasis 0 b'] (Heap.fresh ext) = .ok h ∧
      h.own 1 = some b ∧ h.discretisation 1 = .ok b') ∧
    (∃ h, Heap.exec [.newContainer 0 j, .copy 1 0, .destroy 0] (Heap.fresh ext) = .ok h ∧
      h.own 1 = some b ∧ h.discretisation 1 = .ub) := by
  refine ⟨?_, ?_, ?_⟩ <;>
    simp [Heap.exec, Heap.step, Heap.fresh, hj, Outcome.bind, upd, Heap.discretisation, Heap.deref]

/-- Non-vacuity. -/
example : (fun _ : ℕ => some 7) 5 = some 7 := rfl

/-- **C80** (partial: the space refers to an outside basis) Moving an assembler to another one keeps
the basis in use, also after the moved-from assembler is destroyed. -/
theorem C80_move_partial (h h' : Heap) (k m e j : ℕ) (hk : k ≠ m) (hm : h.space m = .ext j)
    (hs : Heap.exec [.move k m e, .destroy m] h = .ok h') :
    h'.discretisation k = h.discretisation m ∧ h'.own k = h.own m := by
  simp only [Heap.exec, Heap.step] at hs
  cases ho : h.own m with
  | none => simp [ho, Outcome.bind] at hs
  | some b =>
    simp only [ho, Outcome.bind, Outcome.ok.injEq] at hs
    subst hs
    simp [Heap.discretisation, upd, hm, Heap.deref, hk]

/-- Non-vacuity: a pointer-built assembler is moved and destroyed. -/
example : ∃ h, Heap.exec [.newPointer 0 5] (Heap.fresh fun _ => some 7) = .ok h ∧
    h.space 0 = .ext 5 ∧ ∃ h', Heap.exec [.move 1 0 3, .destroy 0] h = .ok h' ∧
    h'.discretisation 1 = .ok 7 := ⟨_, rfl, rfl, _, rfl, rfl⟩

/-- **C80** is violated: an assembler moved from a container-built one uses what is left in the
moved-from object, and dangles when that is destroyed, as it is after a return by value or the growth
of a vector. -/
theorem C80_move_violated (ext : ℕ → Option ℕ) (j b e : ℕ) (hj : ext j = some b) :
    (∃ h, Heap.exec [.newContainer 0 j, .move 1 0 e] (Heap.fresh ext) = .ok h ∧
      wantExec [.newContainer 0 j, .move 1 0 e] (Heap.fresh ext) (fun _ => none) 1 = some (.value b) ∧
      h.own 1 = some b ∧ h.discretisation 1 = .ok e) ∧
    (∃ h, Heap.exec [.newContainer 0 j, .move 1 0 e, .destroy 0] (Heap.fresh ext) = .ok h ∧
      h.own 1 = some b ∧ h.discretisation 1 = .ub) := by
  refine ⟨?_, ?_⟩ <;>
    simp [Heap.exec, Heap.step, Heap.fresh, hj, Outcome.bind, upd, Heap.discretisation, Heap.deref,
      wantExec, wantStep]

/-- Non-vacuity. -/
example : (fun _ : ℕ => some 7) 5 = some 7 := rfl

end Verif.Assembler
