import Verif.Spec.Assembler
import Verif.Lemmas.Loads

/-! # Helper lemmas on the assembler's state -/

set_option linter.unusedSimpArgs false

namespace Verif.Assembler

open Verif.Loads

variable {P : Type}

/-- The part of the state that the loads depend on. -/
structure Core (P : Type) where
  cont : ℤ
  optCont : ℤ
  foundFun : Option ℕ
  pressFun : Option ℕ
  foundInd : Bool
  pressInd : Bool
  pLoads : List (PointLoad P)

/-- See `Core`. -/
def State.core (s : State P) : Core P :=
  ⟨s.cont, s.optCont, s.foundFun, s.pressFun, s.foundInd, s.pressInd, s.pLoads⟩

/-- State in which the flags agree with the registered loads and the continuity is settled. -/
def Agrees (s : State P) (r : Registered P) : Prop :=
  s.cont = s.optCont ∧ s.foundFun = r.found ∧ s.pressFun = r.press ∧
    s.foundInd = r.found.isSome ∧ s.pressInd = r.press.isSome ∧ s.pLoads = r.points

theorem getOptions_settled (s : State P) (h : s.cont = s.optCont) : s.getOptions = s := by
  unfold State.getOptions; rw [if_neg (not_not.2 h)]

theorem assembleVec_core (d : ℕ) (m : Mapper) (S : Space P) (s s' : State P) (e : Elem)
    (h : s.assembleVec d m S e = .ok s') : s'.core = s.core := by
  unfold State.assembleVec at h
  cases h1 : active s.foundInd s.foundFun e.found with
  | ub => simp [h1, Outcome.bind] at h
  | throws => simp [h1, Outcome.bind] at h
  | ok vf =>
    cases h2 : active s.pressInd s.pressFun e.press with
    | ub => simp [h1, h2, Outcome.bind] at h
    | throws => simp [h1, h2, Outcome.bind] at h
    | ok vp =>
      simp only [h1, h2, Outcome.bind] at h
      split_ifs at h with hok
      · cases hl : s.pLoads with
        | nil =>
          simp only [hl] at h
          cases h; simp [State.core, hl]
        | cons l ls =>
          simp only [hl] at h
          split at h
          · cases h; simp [State.core, hl]
          · cases h; simp [State.core, hl]
          · simp at h
      · cases h; simp [State.core]

theorem run_core (d : ℕ) (m : Mapper) (S : Space P) (s s' : State P) (e : Elem) (r : Routine)
    (hc : s.cont = s.optCont) (h : s.run d m S e r = .ok s') : s'.core = s.core := by
  cases r with
  | linear =>
    simp only [State.run, getOptions_settled s hc] at h; exact assembleVec_core d m S s s' e h
  | vector =>
    simp only [State.run, getOptions_settled s hc] at h; exact assembleVec_core d m S s s' e h
  | matrix =>
    simp only [State.run, getOptions_settled s hc] at h
    cases h1 : active s.foundInd s.foundFun e.found with
    | ub => simp [h1, Outcome.bind] at h
    | throws => simp [h1, Outcome.bind] at h
    | ok vf =>
      cases h2 : active s.pressInd s.pressFun e.press with
      | ub => simp [h1, h2, Outcome.bind] at h
      | throws => simp [h1, h2, Outcome.bind] at h
      | ok vp =>
        simp only [h1, h2, Outcome.bind] at h
        cases h; rfl
  | mass => simp only [State.run] at h; cases h; rfl
  | foundation =>
    simp only [State.run] at h
    split at h
    · simp at h
    · cases h; rfl
  | pressureMatrix f => simp only [State.run] at h; cases h; rfl
  | pressureVector f => simp only [State.run] at h; cases h; rfl
  | pressureVectorReg =>
    simp only [State.run] at h
    split at h
    · simp at h
    · cases h; rfl
  | foundationVector f => simp only [State.run] at h; cases h; rfl
  | foundationVectorReg =>
    simp only [State.run] at h
    split at h
    · simp at h
    · cases h; rfl

theorem Agrees.of_core {s s' : State P} {r : Registered P} (h : Agrees s r)
    (e : s'.core = s.core) : Agrees s' r := by
  simp only [State.core, Core.mk.injEq] at e
  obtain ⟨e1, e2, e3, e4, e5, e6, e7⟩ := e
  obtain ⟨h1, h2, h3, h4, h5, h6⟩ := h
  exact ⟨by rw [e1, e2, h1], by rw [e3, h2], by rw [e4, h3], by rw [e5, h4], by rw [e6, h5],
    by rw [e7, h6]⟩

theorem agrees_exec (d : ℕ) (m : Mapper) (S : Space P) (ops : List (Op P))
    (hop : ∀ op ∈ ops, ¬ op.reconfigures) (s s' : State P) (r : Registered P) (h : Agrees s r)
    (he : exec d m S ops s = .ok s') : Agrees s' (r.exec ops) := by
  induction ops generalizing s r with
  | nil => simp only [exec, Outcome.ok.injEq] at he; subst he; exact h
  | cons op ops ih =>
    have hop' : ∀ o ∈ ops, ¬ o.reconfigures := fun o ho => hop o (by simp [ho])
    have h0 := hop op (by simp)
    cases op with
    | config c =>
      simp only [exec] at he
      refine ih hop' _ _ ?_ he
      obtain ⟨h1, h2, h3, h4, h5, h6⟩ := h
      cases c with
      | setPointLoads l => exact ⟨h1, h2, h3, h4, h5, rfl⟩
      | setFoundation f => exact ⟨h1, rfl, h3, rfl, h5, h6⟩
      | setPressure f => exact ⟨h1, h2, rfl, h4, rfl, h6⟩
      | setGeometry => simp [Op.reconfigures] at h0
      | setBasis => simp [Op.reconfigures] at h0
      | setSpaceBasis => simp [Op.reconfigures] at h0
      | updateBCs =>
        simp only [State.config, getOptions_settled s h1]
        exact ⟨h1, h2, h3, h4, h5, h6⟩
      | optionContinuity c => simp [Op.reconfigures] at h0
      | setOptions c => simp [Op.reconfigures] at h0
    | call rt e =>
      simp only [exec] at he
      cases hr : s.run d m S e rt with
      | ub => simp [hr, Outcome.bind] at he
      | throws => simp [hr, Outcome.bind] at he
      | ok s1 =>
        simp only [hr, Outcome.bind] at he
        exact ih hop' s1 _ (h.of_core (run_core d m S s s1 e rt h.1 hr)) he

theorem active_agrees (f : Option ℕ) (v : ℕ → Vec) :
    active f.isSome f v = .ok (optVec f v) := by
  cases f with
  | none => rfl
  | some f => rfl

/-- Vector assembly in an agreeing state. -/
theorem assembleVec_agrees (d : ℕ) (m : Mapper) (S : Space P) (hS : S.understood = true)
    (s : State P) (r : Registered P) (h : Agrees s r) (e : Elem) (he : e.ok = true)
    (hl : ∀ l ∈ r.points, d ≤ l.value.length) :
    ∃ s', s.assembleVec d m S e = .ok s' ∧ s'.status = some .success ∧
      (r.points ≠ [] → s'.rhsOwn = some (r.vector d m S e)) ∧
      (r.points = [] → s'.rhsOwn = s.rhsOwn ∧ s'.rhsAsm = r.vector d m S e) := by
  obtain ⟨h1, h2, h3, h4, h5, h6⟩ := h
  unfold State.assembleVec
  rw [h2, h3, h4, h5, active_agrees, active_agrees]
  simp only [Outcome.bind, he, if_true]
  cases hp : r.points with
  | nil =>
    rw [h6, hp]
    refine ⟨_, rfl, rfl, fun hh => absurd rfl hh, fun _ => ⟨rfl, ?_⟩⟩
    funext g
    simp [Registered.vector, hp, nodalAll]
  | cons l ls =>
    rw [h6, hp]
    simp only
    rw [applyLoads_eq d m S hS _ (by rw [← hp]; exact hl)]
    refine ⟨_, rfl, rfl, fun _ => ?_, fun hh => by simp at hh⟩
    dsimp only
    congr 1
    funext g
    simp [Registered.vector, hp]

end Verif.Assembler
