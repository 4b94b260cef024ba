import Verif.Lemmas.Assembler
import Mathlib.Tactic.NormNum

/-! # Properties C67, C68, C69: right-hand side, status and registered loads -/

set_option linter.unusedSimpArgs false

namespace Verif.Assembler

open Verif.Loads

variable {P : Type}

/-- Client state before anything is registered. -/
def Registered.none : Registered P := ⟨Option.none, Option.none, []⟩

theorem agrees_new : Agrees (State.new : State P) Registered.none :=
  ⟨rfl, rfl, rfl, rfl, rfl, rfl⟩

/-- Example data: one free degree of freedom, one basis function. -/
def exM : Mapper := ⟨fun _ _ _ => 0, 1⟩
/-- See `exM`. -/
def exS : Space Unit := ⟨fun _ _ => [(0, 1)], true, fun _ p => p⟩
/-- A unit point load. -/
def exL : PointLoad Unit := ⟨0, (), true, [1]⟩
/-- Element terms: body force 10, pressure `f` gives `f`. -/
noncomputable def exE : Elem := ⟨fun _ => 10, fun f _ => f, fun _ _ => 0, true⟩

/-! ## C67 -/

/-- **C67** (partial: point loads are registered at the moment of the assembly) For every client
program, `rhs()` after a successful linear or nonlinear vector assembly is the vector of that
assembly with all registered loads. -/
theorem C67_loads_partial (d : ℕ) (m : Mapper) (S : Space P) (hS : S.understood = true)
    (ops : List (Op P)) (hop : ∀ op ∈ ops, ¬ op.reconfigures) (s : State P)
    (hs : exec d m S ops State.new = .ok s) (e : Elem) (he : e.ok = true)
    (hl : ∀ l ∈ (Registered.none.exec ops).points, d ≤ l.value.length)
    (hne : (Registered.none.exec ops).points ≠ []) (rt : Routine)
    (hrt : rt = .linear ∨ rt = .vector) :
    ∃ s', s.run d m S e rt = .ok s' ∧ s'.rhs = (Registered.none.exec ops).vector d m S e := by
  have hA := agrees_exec d m S ops hop _ s _ agrees_new hs
  obtain ⟨s', h1, _, h3, _⟩ := assembleVec_agrees d m S hS s _ hA e he hl
  refine ⟨s', ?_, ?_⟩
  · rcases hrt with rfl | rfl <;> simp only [State.run, getOptions_settled s hA.1, h1]
  · unfold State.rhs; rw [h3 hne]

theorem rhsOwn_none_run (d : ℕ) (m : Mapper) (S : Space P) (s s' : State P) (e : Elem)
    (r : Routine) (hc : s.cont = s.optCont) (hp : s.pLoads = []) (h0 : s.rhsOwn = none)
    (h : s.run d m S e r = .ok s') : s'.rhsOwn = none := by
  have key : ∀ s', s.assembleVec d m S e = .ok s' → s'.rhsOwn = none := by
    intro s' h
    unfold State.assembleVec at h
    cases h1 : active s.foundInd s.foundFun e.found with
    | ub => simp [h1, Outcome.bind] at h
    | throws => simp [h1, Outcome.bind] at h
    | ok vf =>
      cases h2 : active s.pressInd s.pressFun e.press with
      | ub => simp [h1, h2, Outcome.bind] at h
      | throws => simp [h1, h2, Outcome.bind] at h
      | ok vp =>
        simp only [h1, h2, Outcome.bind, hp] at h
        split_ifs at h with hok
        · cases h; exact h0
        · cases h; exact h0
  cases r with
  | linear => simp only [State.run, getOptions_settled s hc] at h; exact key s' h
  | vector => simp only [State.run, getOptions_settled s hc] at h; exact key s' h
  | matrix =>
    simp only [State.run, getOptions_settled s hc] at h
    cases h1 : active s.foundInd s.foundFun e.found with
    | ub => simp [h1, Outcome.bind] at h
    | throws => simp [h1, Outcome.bind] at h
    | ok vf =>
      cases h2 : active s.pressInd s.pressFun e.press with
      | ub => simp [h1, h2, Outcome.bind] at h
      | throws => simp [h1, h2, Outcome.bind] at h
      | ok vp =>
        simp only [h1, h2, Outcome.bind] at h
        cases h; exact h0
  | mass => simp only [State.run] at h; cases h; exact h0
  | foundation =>
    simp only [State.run] at h
    split at h
    · simp at h
    · cases h; exact h0
  | pressureMatrix f => simp only [State.run] at h; cases h; exact h0
  | pressureVector f => simp only [State.run] at h; cases h; exact h0
  | pressureVectorReg =>
    simp only [State.run] at h
    split at h
    · simp at h
    · cases h; exact h0
  | foundationVector f => simp only [State.run] at h; cases h; exact h0
  | foundationVectorReg =>
    simp only [State.run] at h
    split at h
    · simp at h
    · cases h; exact h0

/-- A client program that registers no point loads. -/
def NoPoints (ops : List (Op P)) : Prop :=
  ∀ op ∈ ops, ∀ l, op = .config (.setPointLoads l) → l = []

theorem noPoints_exec (d : ℕ) (m : Mapper) (S : Space P) (ops : List (Op P))
    (hop : ∀ op ∈ ops, ¬ op.reconfigures) (hn : NoPoints ops) (s s' : State P)
    (hc : s.cont = s.optCont) (hp : s.pLoads = []) (h0 : s.rhsOwn = none)
    (he : exec d m S ops s = .ok s') :
    s'.cont = s'.optCont ∧ s'.pLoads = [] ∧ s'.rhsOwn = none := by
  induction ops generalizing s with
  | nil => simp only [exec, Outcome.ok.injEq] at he; subst he; exact ⟨hc, hp, h0⟩
  | cons op ops ih =>
    have hop' : ∀ o ∈ ops, ¬ o.reconfigures := fun o ho => hop o (by simp [ho])
    have hn' : NoPoints ops := fun o ho => hn o (by simp [ho])
    have hr0 := hop op (by simp)
    have hn0 := hn op (by simp)
    cases op with
    | config c =>
      simp only [exec] at he
      cases c with
      | setPointLoads l =>
        exact ih hop' hn' (s.config (.setPointLoads l)) hc (hn0 l rfl) h0 he
      | setFoundation f => exact ih hop' hn' (s.config (.setFoundation f)) hc hp h0 he
      | setPressure f => exact ih hop' hn' (s.config (.setPressure f)) hc hp h0 he
      | setGeometry => simp [Op.reconfigures] at hr0
      | setBasis => simp [Op.reconfigures] at hr0
      | setSpaceBasis => simp [Op.reconfigures] at hr0
      | updateBCs =>
        simp only [State.config, getOptions_settled s hc] at he
        exact ih hop' hn' _ hc hp h0 he
      | optionContinuity c => simp [Op.reconfigures] at hr0
      | setOptions c => simp [Op.reconfigures] at hr0
    | call rt e =>
      simp only [exec] at he
      cases hr : s.run d m S e rt with
      | ub => simp [hr, Outcome.bind] at he
      | throws => simp [hr, Outcome.bind] at he
      | ok s1 =>
        simp only [hr, Outcome.bind] at he
        have hcore := run_core d m S s s1 e rt hc hr
        simp only [State.core, Core.mk.injEq] at hcore
        exact ih hop' hn' s1 (by rw [hcore.1, hcore.2.1, hc])
          (by rw [hcore.2.2.2.2.2.2, hp]) (rhsOwn_none_run d m S s s1 e rt hc hp h0 hr) he

/-- **C67** (partial: no point loads were ever registered) For every client program, `rhs()` after
a successful vector assembly is the vector of that assembly, and a pressure vector assembled
afterwards is added to it. -/
theorem C67_noloads_partial (d : ℕ) (m : Mapper) (S : Space P) (hS : S.understood = true)
    (ops : List (Op P)) (hop : ∀ op ∈ ops, ¬ op.reconfigures) (hn : NoPoints ops) (s : State P)
    (hs : exec d m S ops State.new = .ok s) (e : Elem) (he : e.ok = true) (rt : Routine)
    (hrt : rt = .linear ∨ rt = .vector) (f : ℕ) (e2 : Elem) (he2 : e2.ok = true) :
    ∃ s' s'', s.run d m S e rt = .ok s' ∧ s'.rhs = (Registered.none.exec ops).vector d m S e ∧
      s'.run d m S e2 (.pressureVector f) = .ok s'' ∧
      ∀ g, s''.rhs g = (Registered.none.exec ops).vector d m S e g + e2.press f g := by
  have hA := agrees_exec d m S ops hop _ s _ agrees_new hs
  obtain ⟨hc, hp, h0⟩ := noPoints_exec d m S ops hop hn _ s rfl rfl rfl hs
  have hpt : (Registered.none.exec ops).points = [] := by rw [← hA.2.2.2.2.2, hp]
  obtain ⟨s', h1, _, _, h4⟩ := assembleVec_agrees d m S hS s _ hA e he (by simp [hpt])
  obtain ⟨h5, h6⟩ := h4 hpt
  refine ⟨s', _, ?_, ?_, rfl, ?_⟩
  · rcases hrt with rfl | rfl <;> simp only [State.run, getOptions_settled s hA.1, h1]
  · unfold State.rhs; rw [h5, h0, h6]
  · intro g
    simp only [State.rhs, h5, h0, he2, if_true, h6]

/-- Non-vacuity: register a pressure and a point load, change the boundary conditions, assemble. -/
example : ∃ (ops : List (Op Unit)) (s : State Unit), ops ≠ [] ∧
    (∀ op ∈ ops, ¬ op.reconfigures) ∧ exec 1 exM exS ops State.new = .ok s ∧
    (Registered.none.exec ops).points ≠ [] :=
  ⟨[.config (.setPressure 3), .config (.setPointLoads [exL]), .config .updateBCs,
      .call .matrix exE], _, by simp, by simp [Op.reconfigures], rfl,
    by simp [Registered.exec, Registered.step]⟩

/-- **C67** is violated: once a vector with point loads has been assembled, every later assembly
without point loads leaves `rhs()` at the old value. -/
theorem C67_stale_violated :
    (∀ (d : ℕ) (m : Mapper) (S : Space Unit) (s s' : State Unit) (r : Vec) (e : Elem),
      s.cont = s.optCont → s.pLoads = [] → s.rhsOwn = some r →
      s.run d m S e .vector = .ok s' → s'.rhs = r) ∧
    ∃ (ops : List (Op Unit)) (s : State Unit),
      exec 1 exM exS ops State.new = .ok s ∧ (Registered.none.exec ops).points = [] ∧
      ∃ s', s.run 1 exM exS exE .vector = .ok s' ∧ s'.status = some .success ∧
        s'.rhs 0 = 11 ∧ (Registered.none.exec ops).vector 1 exM exS exE 0 = 10 := by
  have part1 : ∀ (d : ℕ) (m : Mapper) (S : Space Unit) (s s' : State Unit) (r : Vec) (e : Elem),
      s.cont = s.optCont → s.pLoads = [] → s.rhsOwn = some r →
      s.run d m S e .vector = .ok s' → s'.rhs = r := by
    intro d m S s s' r e hc hp h0 h
    simp only [State.run, getOptions_settled s hc] at h
    unfold State.assembleVec at h
    cases h1 : active s.foundInd s.foundFun e.found with
    | ub => simp [h1, Outcome.bind] at h
    | throws => simp [h1, Outcome.bind] at h
    | ok vf =>
      cases h2 : active s.pressInd s.pressFun e.press with
      | ub => simp [h1, h2, Outcome.bind] at h
      | throws => simp [h1, h2, Outcome.bind] at h
      | ok vp =>
        simp only [h1, h2, Outcome.bind, hp] at h
        split_ifs at h with hok
        · cases h; simp [State.rhs, h0]
        · cases h; simp [State.rhs, h0]
  refine ⟨part1, ?_⟩
  have hA := agrees_exec 1 exM exS [.config (.setPointLoads [exL])] (by simp [Op.reconfigures])
    State.new _ Registered.none agrees_new rfl
  obtain ⟨s1, h1, h2, h3, _⟩ := assembleVec_agrees 1 exM exS rfl _ _ hA exE rfl
    (by simp [Registered.exec, Registered.step, exL])
  have hrun : (State.new.config (.setPointLoads [exL])).run 1 exM exS exE .vector = .ok s1 := by
    simp only [State.run]; rw [getOptions_settled _ hA.1]; exact h1
  have h3' := h3 (by simp [Registered.exec, Registered.step])
  have hcore := run_core 1 exM exS _ s1 exE .vector hA.1 hrun
  simp only [State.core, Core.mk.injEq, State.config, State.new] at hcore
  let s2 : State Unit := s1.config (.setPointLoads [])
  have hA2 : Agrees s2 Registered.none := by
    refine ⟨?_, hcore.2.2.1, hcore.2.2.2.1, hcore.2.2.2.2.1, hcore.2.2.2.2.2.1, rfl⟩
    simp [s2, State.config, hcore.1, hcore.2.1]
  obtain ⟨s3, k1, k2, _, _⟩ := assembleVec_agrees 1 exM exS rfl s2 _ hA2 exE rfl
    (by simp [Registered.none])
  have hrun2 : s2.run 1 exM exS exE .vector = .ok s3 := by
    simp only [State.run]; rw [getOptions_settled _ hA2.1]; exact k1
  refine ⟨[.config (.setPointLoads [exL]), .call .vector exE, .config (.setPointLoads [])], s2,
    ?_, rfl, s3, hrun2, k2, ?_, ?_⟩
  · simp only [exec, hrun, Outcome.bind]; rfl
  · have := part1 1 exM exS s2 s3 _ exE hA2.1 rfl h3' hrun2
    rw [this]
    simp [Registered.vector, Registered.exec, Registered.step, Registered.none, optVec, nodalAll,
      nodal, shape, exM, exS, exL, exE, Space.acts]
    norm_num
  · simp [Registered.vector, Registered.exec, Registered.step, Registered.none, optVec, nodalAll,
      exE]

/-- **C67** is violated: with point loads, a pressure vector assembled afterwards does not appear
in `rhs()`. -/
theorem C67_pressure_violated (d : ℕ) (m : Mapper) (S : Space P) (s : State P) (r : Vec)
    (h0 : s.rhsOwn = some r) (f : ℕ) (e : Elem) :
    ∃ s', s.run d m S e (.pressureVector f) = .ok s' ∧ s'.rhs = r :=
  ⟨_, rfl, by simp [State.rhs, h0]⟩

/-- Non-vacuity: such a state arises from one assembly with a point load. -/
example : ∃ (s : State Unit) (r : Vec),
    exec 1 exM exS [.config (.setPointLoads [exL]), .call .vector exE] State.new = .ok s ∧
      s.rhsOwn = some r := by
  have hA := agrees_exec 1 exM exS [.config (.setPointLoads [exL])] (by simp [Op.reconfigures])
    State.new _ Registered.none agrees_new rfl
  obtain ⟨s1, h1, _, h3, _⟩ := assembleVec_agrees 1 exM exS rfl _ _ hA exE rfl
    (by simp [Registered.exec, Registered.step, exL])
  have hrun : (State.new.config (.setPointLoads [exL])).run 1 exM exS exE .vector = .ok s1 := by
    simp only [State.run]; rw [getOptions_settled _ hA.1]; exact h1
  exact ⟨s1, _, by simp only [exec, hrun, Outcome.bind],
    h3 (by simp [Registered.exec, Registered.step])⟩

/-! ## C68 -/

/-- **C68** (partial: all routines except the mass matrix and the two variants that take the
registered function) From every state, the returned status is `Success` exactly when the assembly
itself ran without exception. -/
theorem C68_partial (d : ℕ) (m : Mapper) (S : Space P) (hS : S.understood = true) (s s' : State P)
    (hl : ∀ l ∈ s.pLoads, d ≤ l.value.length) (e : Elem) (r : Routine)
    (hr : r ≠ .mass ∧ r ≠ .pressureVectorReg ∧ r ≠ .foundationVectorReg)
    (h : s.run d m S e r = .ok s') : Reports s'.statusOut e.ok := by
  have hout : ∀ b, (outcomeStatus b = .success ↔ b = true) := by
    intro b; cases b <;> simp [outcomeStatus]
  have hload : s.getOptions.pLoads = s.pLoads := by
    unfold State.getOptions State.drop; split_ifs <;> rfl
  have key : ∀ s', s.getOptions.assembleVec d m S e = .ok s' → Reports s'.statusOut e.ok := by
    intro s' h
    unfold State.assembleVec at h
    cases h1 : active s.getOptions.foundInd s.getOptions.foundFun e.found with
    | ub => simp [h1, Outcome.bind] at h
    | throws => simp [h1, Outcome.bind] at h
    | ok vf =>
      cases h2 : active s.getOptions.pressInd s.getOptions.pressFun e.press with
      | ub => simp [h1, h2, Outcome.bind] at h
      | throws => simp [h1, h2, Outcome.bind] at h
      | ok vp =>
        simp only [h1, h2, Outcome.bind, hload] at h
        split_ifs at h with hok
        · cases hp : s.pLoads with
          | nil =>
            simp only [hp] at h
            cases h; exact ⟨.success, rfl, by simp [hok]⟩
          | cons l ls =>
            simp only [hp] at h
            rw [applyLoads_eq d m S hS _ (by rw [← hp]; exact hl)] at h
            simp only at h
            cases h; exact ⟨.success, rfl, by simp [hok]⟩
        · cases h; exact ⟨.assemblyError, rfl, by simp [hok]⟩
  cases r with
  | linear => exact key s' h
  | vector => exact key s' h
  | matrix =>
    simp only [State.run] at h
    cases h1 : active s.getOptions.foundInd s.getOptions.foundFun e.found with
    | ub => simp [h1, Outcome.bind] at h
    | throws => simp [h1, Outcome.bind] at h
    | ok vf =>
      cases h2 : active s.getOptions.pressInd s.getOptions.pressFun e.press with
      | ub => simp [h1, h2, Outcome.bind] at h
      | throws => simp [h1, h2, Outcome.bind] at h
      | ok vp =>
        simp only [h1, h2, Outcome.bind] at h
        cases h; exact ⟨_, rfl, hout _⟩
  | mass => exact absurd rfl hr.1
  | foundation =>
    simp only [State.run] at h
    split at h
    · simp at h
    · cases h; exact ⟨_, rfl, hout _⟩
  | pressureMatrix f => simp only [State.run] at h; cases h; exact ⟨_, rfl, hout _⟩
  | pressureVector f => simp only [State.run] at h; cases h; exact ⟨_, rfl, hout _⟩
  | pressureVectorReg => exact absurd rfl hr.2.1
  | foundationVector f => simp only [State.run] at h; cases h; exact ⟨_, rfl, hout _⟩
  | foundationVectorReg => exact absurd rfl hr.2.2

/-- **C68** The combined assembly of matrix and vector succeeds exactly when both parts do. -/
theorem C68_full_partial (d : ℕ) (m : Mapper) (S : Space P) (hS : S.understood = true)
    (s s' : State P) (hl : ∀ l ∈ s.pLoads, d ≤ l.value.length) (e1 e2 : Elem)
    (h : s.full d m S e1 e2 = .ok s') : Reports s'.statusOut (e1.ok && e2.ok) := by
  unfold State.full at h
  cases h1 : s.run d m S e1 .matrix with
  | ub => simp [h1, Outcome.bind] at h
  | throws => simp [h1, Outcome.bind] at h
  | ok s1 =>
    simp only [h1, Outcome.bind] at h
    obtain ⟨st, hst, hiff⟩ := C68_partial d m S hS s s1 hl e1 .matrix (by simp) h1
    have hl1 : s1.pLoads = s.pLoads := by
      simp only [State.run] at h1
      cases k1 : active s.getOptions.foundInd s.getOptions.foundFun e1.found with
      | ub => simp [k1, Outcome.bind] at h1
      | throws => simp [k1, Outcome.bind] at h1
      | ok vf =>
        cases k2 : active s.getOptions.pressInd s.getOptions.pressFun e1.press with
        | ub => simp [k1, k2, Outcome.bind] at h1
        | throws => simp [k1, k2, Outcome.bind] at h1
        | ok vp =>
          simp only [k1, k2, Outcome.bind] at h1
          cases h1
          simp only
          unfold State.getOptions State.drop; split_ifs <;> rfl
    have hs1 : s1.status = some st := by
      unfold State.statusOut at hst
      split at hst
      · simp at hst
      · cases hst; assumption
    split_ifs at h with hsucc
    · have hok : e1.ok = true := by
        apply hiff.1; rw [hs1] at hsucc; exact Option.some.inj hsucc
      rw [hok, Bool.true_and]
      exact C68_partial d m S hS s1 s' (by rw [hl1]; exact hl) e2 .vector (by simp) h
    · cases h
      refine ⟨st, hst, ?_⟩
      have hne : st ≠ .success := fun hh => hsucc (by rw [hs1, hh])
      have : e1.ok = false := by
        cases hb : e1.ok with
        | false => rfl
        | true => exact absurd (hiff.2 hb) hne
      simp [this, hne]

/-- Non-vacuity: a failing and a succeeding matrix assembly from a fresh assembler. -/
example : ∃ s s' : State Unit, State.new.run 1 exM exS exE .matrix = .ok s ∧
    State.new.run 1 exM exS { exE with ok := false } .matrix = .ok s' ∧
    s.statusOut = .ok .success ∧ s'.statusOut = .ok .assemblyError :=
  ⟨_, _, rfl, rfl, rfl, rfl⟩

/-- **C68** (partial: mass matrix after a successful call) The mass matrix reports failures, and
success if the previous status was success. -/
theorem C68_mass_partial (d : ℕ) (m : Mapper) (S : Space P) (s : State P) (e : Elem)
    (h : s.status = some .success) :
    ∃ s', s.run d m S e .mass = .ok s' ∧ Reports s'.statusOut e.ok := by
  refine ⟨_, rfl, ?_⟩
  cases he : e.ok with
  | true => exact ⟨.success, by simp [State.statusOut, h], by simp⟩
  | false => exact ⟨.assemblyError, by simp [State.statusOut], by simp⟩

/-- Non-vacuity: the state after a matrix assembly. -/
example : ∃ s : State Unit, State.new.run 1 exM exS exE .matrix = .ok s ∧
    s.status = some .success := ⟨_, rfl, rfl⟩

/-- **C68** is violated: a mass matrix assembled successfully as the first call returns an
uninitialised status, and after a failed call it reports that failure. -/
theorem C68_mass_violated (d : ℕ) (m : Mapper) (S : Space P) (e : Elem) (he : e.ok = true) :
    (∃ s', (State.new : State P).run d m S e .mass = .ok s' ∧ s'.statusOut = .ub) ∧
    (∃ s s', (State.new : State P).run d m S { e with ok := false } .matrix = .ok s ∧
      s.run d m S e .mass = .ok s' ∧ s'.statusOut = .ok .assemblyError) := by
  refine ⟨⟨_, rfl, ?_⟩, ⟨_, _, rfl, rfl, ?_⟩⟩
  · simp [State.statusOut, he, State.new]
  · simp [State.statusOut, he, outcomeStatus]

/-- **C68** is violated: the pressure vector with the registered pressure reports `Success` in every
case, also when its assembly failed. -/
theorem C68_pressure_violated (d : ℕ) (m : Mapper) (S : Space P) (s : State P) (f : ℕ)
    (hf : s.pressFun = some f) (e : Elem) :
    ∃ s', s.run d m S e .pressureVectorReg = .ok s' ∧ s'.statusOut = .ok .success := by
  simp [State.run, hf, State.statusOut]

/-- **C68** is violated: likewise for the foundation vector. -/
theorem C68_foundation_violated (d : ℕ) (m : Mapper) (S : Space P) (s : State P) (f : ℕ)
    (hf : s.foundFun = some f) (e : Elem) :
    ∃ s', s.run d m S e .foundationVectorReg = .ok s' ∧ s'.statusOut = .ok .success := by
  simp [State.run, hf, State.statusOut]

/-- Non-vacuity: a registered pressure and an assembly that fails. -/
example : ((State.new : State Unit).config (.setPressure 3)).pressFun = some 3 ∧
    ({ exE with ok := false } : Elem).ok = false := ⟨rfl, rfl⟩

/-- **C68** is violated: the status of a copy of an assembler is uninitialised, whatever the
original reported. -/
theorem C68_copy_violated (s : State P) : s.copy.statusOut = .ub := rfl

/-! ## C69 -/

/-- **C69** (partial: geometry, basis and options are not changed) After every such client program
the active loads are exactly the registered ones, and the next assembled vector contains them. -/
theorem C69_partial (d : ℕ) (m : Mapper) (S : Space P) (hS : S.understood = true)
    (ops : List (Op P)) (hop : ∀ op ∈ ops, ¬ op.reconfigures) (s : State P)
    (hs : exec d m S ops State.new = .ok s)
    (hl : ∀ l ∈ (Registered.none.exec ops).points, d ≤ l.value.length) (e : Elem)
    (he : e.ok = true) :
    s.foundInd = (Registered.none.exec ops).found.isSome ∧
    s.pressInd = (Registered.none.exec ops).press.isSome ∧
    ∃ s', s.run d m S e .vector = .ok s' ∧
      ((Registered.none.exec ops).points = [] →
        s'.rhsAsm = (Registered.none.exec ops).vector d m S e) := by
  have hA := agrees_exec d m S ops hop _ s _ agrees_new hs
  obtain ⟨s', h1, _, _, h4⟩ := assembleVec_agrees d m S hS s _ hA e he hl
  refine ⟨hA.2.2.2.1, hA.2.2.2.2.1, s', ?_, fun h => (h4 h).2⟩
  simp only [State.run, getOptions_settled s hA.1, h1]

/-- **C69** (partial: options whose continuity is unchanged) Setting options keeps the loads. -/
theorem C69_options_partial (s : State P) : s.config (.setOptions s.optCont) = s := by
  simp [State.config]

/-- Non-vacuity: pressure, foundation, new boundary conditions and an assembly. -/
example : ∃ (ops : List (Op Unit)) (s : State Unit), (∀ op ∈ ops, ¬ op.reconfigures) ∧
    exec 1 exM exS ops State.new = .ok s ∧ s.pressInd = true :=
  ⟨[.config (.setPressure 3), .config (.setFoundation 4), .config .updateBCs, .call .matrix exE],
    _, by simp [Op.reconfigures], rfl, rfl⟩

/-- **C69** is violated: every change of geometry, basis or space basis switches the registered
loads off, from every state; the next vector lacks the pressure. -/
theorem C69_geometry_violated (s : State P) (c : Config P)
    (hc : c = .setGeometry ∨ c = .setBasis ∨ c = .setSpaceBasis) :
    (s.config c).foundInd = false ∧ (s.config c).pressInd = false := by
  rcases hc with rfl | rfl | rfl <;> exact ⟨rfl, rfl⟩

/-- **C69** is violated: the vector assembled after `setPressure`, `setGeometry` lacks the
pressure. -/
theorem C69_vector_violated :
    ∃ s : State Unit, exec 1 exM exS [.config (.setPressure 3), .config .setGeometry,
        .call .vector exE] State.new = .ok s ∧ s.status = some .success ∧ s.rhs 0 = 10 ∧
      (Registered.none.exec ([.config (.setPressure 3), .config .setGeometry] :
        List (Op Unit))).vector 1 exM exS exE 0 = 13 := by
  refine ⟨_, rfl, rfl, ?_, ?_⟩
  · simp [State.rhs, State.config, State.initialize, State.getOptions, State.drop, State.new, exE]
  · simp [Registered.vector, Registered.exec, Registered.step, Registered.none, optVec, nodalAll,
      exE]
    norm_num

/-- **C69** is violated: a changed continuity option switches the loads off at the next assembly,
from every state. -/
theorem C69_continuity_violated (s : State P) (c : ℤ) (hc : s.cont ≠ c) :
    ((s.config (.optionContinuity c)).getOptions).pressInd = false ∧
    ((s.config (.optionContinuity c)).getOptions).foundInd = false := by
  simp [State.config, State.getOptions, hc, State.drop]

/-- Non-vacuity: the default continuity is −1, a client sets 0. -/
example : (State.new : State Unit).cont ≠ 0 := by simp [State.new]

end Verif.Assembler
