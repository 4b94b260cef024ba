import Verif.Lemmas.Threads

/-! # Property C138: evaluations of one material in several threads -/

namespace Verif.Threads

open Spec.Threads

variable {G P α : Type}

/-- **C138** With the option `Explicit` off, whatever the threads call and in whatever order their accesses
come: what a thread has computed is what it computes by itself, and the registered geometry stays. -/
theorem C138_independent (f : G → P → P → Outcome α) (fixed reg : Option G) (cache : Nat → List (G × P))
    (calls : Nat → List (Call P)) (σ : List Nat) :
    (run f fixed (start false reg cache calls) σ).reg = reg ∧
    ∀ i, (run f fixed (start false reg cache calls) σ).loc i
      = (run f fixed (start false reg cache fun j => if j = i then calls i else []) (σ.filter (· = i))).loc i :=
  ⟨run_reg _ (start_quiet _ _ _) _,
    fun i => run_own (start false reg cache calls) (start false reg cache fun j => if j = i then calls i else [])
      (start_quiet _ _ _) (start_quiet _ _ _) i rfl (by simp [start]) σ⟩

example : ((run (fun g q p => .ok (g + q + p)) none
    (start (α := Nat) false (some 5) (fun _ => []) fun i => if i = 0 then [.field [1]] else if i = 1 then [.evaluate [2, 3]] else [])
    [0, 1, 0, 1]).loc 1).out = [.ok [9, 11]] := by decide

/-- **C138** With the option off and a registered deformed geometry, a thread that has made its calls has got
the values at the points of these calls, whatever the other threads do and whatever was computed before. -/
theorem C138_values (f : G → P → P → α) (fixed : Option G) (g : G) (cache : Nat → List (G × P))
    (calls : Nat → List (Call P)) (σ : List Nat) (i : Nat)
    (h : ((run (fun g q p => .ok (f g q p)) fixed (start false (some g) cache calls) σ).loc i).prog = []) :
    ((run (fun g q p => .ok (f g q p)) fixed (start false (some g) cache calls) σ).loc i).out
      = (calls i).map (expected f g) := by
  have e := run_own (f := fun g q p => .ok (f g q p)) (fixed := fixed) (start (α := α) false (some g) cache calls) _
    (start_quiet _ _ _) (start_quiet _ _ _) i rfl rfl σ
  rw [e, filter_eq] at h ⊢
  rw [alone f (calls i) _ _ rfl rfl h]
  simp [start]

/-- Two threads, accesses alternating: finished. -/
example : ((run (fun g q p => .ok (g + q + p)) none
    (start (α := Nat) false (some 5) (fun _ => [(7, 7)]) fun i => if i < 2 then [.field [i], .evaluate [i + 1]] else [])
    [0, 1, 0, 1, 1, 0, 1, 0]).loc 1).prog = [] := by decide

/-- **C138** With the option off no two accesses of different threads conflict. -/
theorem C138_no_race (calls : Nat → List (Call P)) :
    ¬ Race fun i => (calls i).flatMap (Call.acts false) := by
  rintro ⟨i, _, _, a, ha, _, _, hw, _⟩
  have := start_quiet (G := Unit) (α := Unit) none (fun _ => []) calls i a ha
  rw [this] at hw
  exact absurd hw (by simp)

/-- The calls of two threads. -/
example : ((fun i => if i < 2 then [Call.field [i], .evaluate [i]] else []) : Nat → List (Call Nat)) 1 ≠ [] := by decide

/-- **C138** (violated) With the option on, a thread that computes a tension field races with every other
thread that evaluates the material: undefined behaviour. -/
theorem C138_race_violated (calls : Nat → List (Call P)) {i j : Nat} (hij : i ≠ j) {us : List P}
    (hi : .field us ∈ calls i) (hj : calls j ≠ []) :
    Race fun i => (calls i).flatMap (Call.acts true) := by
  obtain ⟨c, hc⟩ := List.exists_mem_of_ne_nil _ hj
  refine ⟨i, j, hij, .put, List.mem_flatMap.2 ⟨_, hi, by simp [Call.acts]⟩, ?_⟩
  cases c with
  | evaluate vs => exact ⟨.load vs, List.mem_flatMap.2 ⟨_, hc, by simp [Call.acts]⟩, rfl, Or.inr rfl⟩
  | field vs => exact ⟨.save, List.mem_flatMap.2 ⟨_, hc, by simp [Call.acts]⟩, rfl, Or.inr rfl⟩

example : Call.field [1] ∈ (fun _ => [Call.field [1]] : Nat → List (Call Nat)) 0
    ∧ (fun _ => [Call.field [1]] : Nat → List (Call Nat)) 1 ≠ [] := by simp

/-- Threads `0` and `1` compute a tension field each. -/
def two (us : List P) (i : Nat) : List (Call P) := if i < 2 then [.field us] else []

/-- **C138** (violated) Even if every access were atomic: two threads that compute a tension field can, both
without any error, leave the geometry of `updateDeformed` registered as the deformed one. -/
theorem C138_lost_violated (f : G → P → P → Outcome α) (g g0 : G) (cache : Nat → List (G × P)) (us : List P) :
    ∃ σ, Finished (run f (some g0) (start true (some g) cache (two us)) σ)
      ∧ (run f (some g0) (start true (some g) cache (two us)) σ).reg = some g0 := by
  refine ⟨[0, 0, 1, 1, 0, 0, 0, 1, 1, 1], fun i => ?_, ?_⟩
  · by_cases h0 : i = 0
    · subst h0; simp [run, step, exec, start, two, Call.acts]
    · by_cases h1 : i = 1
      · subst h1; simp [run, step, exec, start, two, Call.acts]
      · have h2 : ¬ i < 2 := by omega
        simp [run, step, exec, start, two, Call.acts, h0, h1, h2]
  · simp [run, step, exec, start, two, Call.acts]

/-- Both threads got their field, `5` is lost. -/
example : (run (fun g q p => .ok (g + q + p)) (some 1) (start (α := Nat) true (some 5) (fun _ => []) (two [2]))
    [0, 0, 1, 1, 0, 0, 0, 1, 1, 1]).reg = some 1 := by decide

/-- Thread `0` computes a tension field, thread `1` evaluates a stress. -/
def mixed (us vs : List P) (i : Nat) : List (Call P) :=
  if i = 0 then [.field us] else if i = 1 then [.evaluate vs] else []

/-- **C138** (violated) Likewise a stress that another thread evaluates meanwhile is that of the geometry of
`updateDeformed`. -/
theorem C138_stress_violated (f : G → P → P → α) (g g0 : G) (cache : Nat → List (G × P)) (us vs : List P)
    (h : (vs.map fun v => f g v v) ≠ vs.map fun v => f g0 v v) :
    ∃ σ s, s = run (fun g q p => .ok (f g q p)) (some g0) (start true (some g) cache (mixed us vs)) σ ∧
      Finished s ∧ s.reg = some g ∧ (s.loc 0).out = [expectedExplicit f g g0 (.field us)]
        ∧ (s.loc 1).out ≠ [expectedExplicit f g g0 (.evaluate vs)] := by
  refine ⟨[0, 0, 1, 1, 0, 0, 0], _, rfl, fun i => ?_, ?_, ?_, ?_⟩
  · by_cases h0 : i = 0
    · subst h0; simp [run, step, exec, start, mixed, Call.acts]
    · by_cases h1 : i = 1
      · subst h1; simp [run, step, exec, start, mixed, Call.acts]
      · simp [run, step, exec, start, mixed, Call.acts, h0, h1]
  · simp [run, step, exec, start, mixed, Call.acts]
  · simp [run, step, exec, start, mixed, Call.acts, Explicit.points, values_own, expectedExplicit]
  · simp [run, step, exec, start, mixed, Call.acts, Explicit.points, values_own, expectedExplicit, -List.map_inj_left]
    exact fun e => h e.symm

example : (List.map (fun v => (fun g q p : Nat => g + q + p) 5 v v) [2])
    ≠ List.map (fun v => (fun g q p : Nat => g + q + p) 1 v v) [2] := by decide

/-- **C138** (partial: one thread at a time) With the option on, calls that are not interrupted return what
they should in every thread, and the deformed geometry is registered again. -/
theorem C138_section_partial (f : G → P → P → α) (g g0 : G) (cache : Nat → List (G × P)) (blocks : List (Nat × Call P)) :
    let s := run (fun g q p => .ok (f g q p)) (some g0) (start true (some g) cache (callsOf blocks)) (oneByOne blocks)
    Finished s ∧ s.reg = some g ∧ ∀ i, (s.loc i).out = (callsOf blocks i).map (expectedExplicit f g g0) := by
  obtain ⟨h1, h2⟩ := blocks_run (g0 := g0) f blocks (start true (some g) cache (callsOf blocks)) rfl fun i => rfl
  exact ⟨fun i => (h2 i).1, h1, fun i => by rw [oneByOne, (h2 i).2]; simp [start]⟩

/-- Three calls of two threads. -/
example : ((run (fun g q p => .ok (g + q + p)) (some 1)
    (start (α := Nat) true (some 5) (fun _ => []) (callsOf [(0, .field [2]), (1, .evaluate [3]), (0, .evaluate [4])]))
    (oneByOne [(0, .field [2]), (1, .evaluate [3]), (0, .evaluate [4])])).loc 0).out = [.ok [5], .ok [13]] := by decide

end Verif.Threads
