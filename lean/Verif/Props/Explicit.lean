import Verif.Lemmas.Explicit

/-! # Property C114: the explicit tension field -/

namespace Verif.Explicit

variable {G P α : Type}

/-- **C114** With the option on, after `updateDeformed g` the tension field is that of `g` at the
points asked for, whatever is called in between (other deformed geometries, evaluations at other
points, queries that fail), until the next `updateDeformed`. -/
theorem C114_explicit (f : G → P → P → Outcome α) (s : St G P) (g : G) (ops : List (Op G P))
    (h : ∀ op ∈ ops, KeepsFixed op) (us : List P) :
    (computeTF true f (run true f (updateDeformed s (some g)) ops) us).2 = fieldOf f g us := by
  have hf : (run true f (updateDeformed s (some g)) ops).fixed = some g := run_fixed _ _ _ _ h
  rw [← values_map]
  simp only [computeTF, if_true, hf, points]
  cases values f (us.map fun u => (g, u)) us <;> rfl

/-- **C114** With the option off the tension field is that of the last deformed geometry, whatever
else is called in between. -/
theorem C114_implicit (f : G → P → P → Outcome α) (s : St G P) (g : G) (ops : List (Op G P))
    (h : ∀ op ∈ ops, ∀ d, op ≠ .setDeformed d) (us : List P) :
    (computeTF false f (run false f (setDeformed s (some g)) ops) us).2 = fieldOf f g us := by
  have hi : ∀ (s : St G P), s.inner = some g → (run false f s ops).inner = some g := by
    induction ops with
    | nil => exact fun s hs => hs
    | cons op ops ih =>
      intro s hs
      refine ih (fun o ho => h o (List.mem_cons_of_mem _ ho)) (step false f s op) ?_
      cases op with
      | setDeformed d => exact absurd rfl (h _ (by simp) d)
      | updateDeformed d => exact hs
      | evaluate us => exact hs
      | field us => exact hs
  have := hi (setDeformed s (some g)) rfl
  simp only [computeTF, Bool.false_eq_true, if_false, evaluate, this, points, values_map]

/-- **C114** (partial: no query of the tension field fails) After any sequence of calls the wrapped
material has the deformed geometry of the wrapper: a query of the explicit field leaves no trace in
the registered geometries. -/
theorem C114_restored_partial (expl : Bool) (f : G → P → P → Outcome α) (s : St G P)
    (hs : s.inner = s.outer) (ops : List (Op G P)) (h : AllReturn expl f s ops) :
    (run expl f s ops).inner = (run expl f s ops).outer := by
  induction ops generalizing s with
  | nil => exact hs
  | cons op ops ih =>
    refine ih (step expl f s op) ?_ h.2
    cases op with
    | setDeformed d => rfl
    | updateDeformed d => exact hs
    | evaluate us => exact hs
    | field us =>
      obtain ⟨r, hr⟩ := h.1 us rfl
      cases expl
      · exact hs
      · simp only [step]
        simp only [computeTF, if_true] at hr ⊢
        cases hv : values f (points s.fixed s.cache us) us with
        | ok v => exact hs
        | throws => rw [hv] at hr; simp at hr
        | ub => rw [hv] at hr; simp at hr

/-- **C114** (partial) … so that an evaluation of the stress uses the geometry last set, at the
points asked for. -/
theorem C114_stress_partial (f sf : G → P → P → Outcome α) (s : St G P) (g : G)
    (ops : List (Op G P)) (h : ∀ op ∈ ops, ∀ d, op ≠ .setDeformed d)
    (hr : AllReturn true f (setDeformed s (some g)) ops) (us : List P) :
    (evaluate sf (run true f (setDeformed s (some g)) ops) us).2 = fieldOf sf g us := by
  have ho : ∀ (s : St G P), s.outer = some g → (run true f s ops).outer = some g := by
    clear hr
    induction ops with
    | nil => exact fun s hs => hs
    | cons op ops ih =>
      intro s hs
      refine ih (fun o ho => h o (List.mem_cons_of_mem _ ho)) (step true f s op) ?_
      cases op with
      | setDeformed d => exact absurd rfl (h _ (by simp) d)
      | updateDeformed d => exact hs
      | evaluate us => exact hs
      | field us =>
        simp only [step, computeTF, if_true]
        cases values f (points s.fixed s.cache us) us <;> exact hs
  have h1 := ho (setDeformed s (some g)) rfl
  have h2 := C114_restored_partial true f (setDeformed s (some g)) rfl ops hr
  rw [h1] at h2
  simp only [evaluate, h2, points, values_map]

/-- The field of the examples: geometry 9 cannot be evaluated. -/
def exField (g : ℕ) (q p : ℕ) : Outcome ℕ := if g = 9 then .throws else .ok (100 * g + 10 * q + p)

/-- Non-vacuity: the field stays that of geometry 1 while the deformed geometry changes. -/
example : (computeTF true exField (run true exField
      (updateDeformed ⟨some 4, some 4, none, []⟩ (some 1))
      [.setDeformed (some 2), .evaluate [7, 8], .field [5]]) [1, 2]).2 = .ok [111, 122] := by
  rw [C114_explicit _ _ _ _ (by intro op ho g; simp at ho; rcases ho with rfl | rfl | rfl <;> simp)]
  rfl

/-- Non-vacuity: a query that returns, then a stress evaluation. -/
example : (evaluate exField (run true exField
      (setDeformed ⟨some 4, some 4, some 1, []⟩ (some 2)) [.field [5]]) [1]).2 = .ok [211] := by
  have hr : AllReturn true exField (setDeformed ⟨some 4, some 4, some 1, []⟩ (some 2))
      [Op.field [5]] := ⟨by intro us h; cases h; exact ⟨_, rfl⟩, trivial⟩
  rw [C114_stress_partial exField exField _ _ _ (by intro op ho g; simp at ho; subst ho; simp) hr]
  rfl

/-- **C114** is violated: a query of the explicit field that throws leaves the wrapped material with
the geometry of the tension field, for every state … -/
theorem C114_not_restored_violated (f : G → P → P → Outcome α) (s : St G P) (us : List P)
    (h : (computeTF true f s us).2 = .throws) :
    (computeTF true f s us).1.inner = s.fixed ∧ (computeTF true f s us).1.outer = s.outer := by
  simp only [computeTF, if_true] at h ⊢
  cases hv : values f (points s.fixed s.cache us) us with
  | ok v => rw [hv] at h; simp at h
  | throws => exact ⟨rfl, rfl⟩
  | ub => rw [hv] at h; simp at h

/-- **C114** is violated: … after which the stress is evaluated on that geometry although another
one is set. -/
theorem C114_stress_violated :
    ∃ (f sf : ℕ → ℕ → ℕ → Outcome ℕ) (s : St ℕ ℕ),
      (computeTF true f s [0]).2 = .throws ∧ (computeTF true f s [0]).1.outer = some 2 ∧
      (evaluate sf (computeTF true f s [0]).1 [0]).2 = fieldOf sf 9 [0] ∧
      fieldOf sf 9 [0] ≠ fieldOf sf 2 [0] :=
  ⟨exField, fun g _ _ => .ok g, ⟨some 2, some 2, some 9, []⟩, rfl, rfl, rfl, by
    simp [fieldOf]⟩

/-- **C114** is violated: with the option on and no geometry registered by `updateDeformed` the
field is computed from whatever the wrapped material evaluated last: the same object in the same
configuration gives different answers, refuses, or reads out of bounds, depending on earlier
evaluations. -/
theorem C114_unregistered_violated :
    (computeTF true exField (run true exField ⟨some 2, some 2, none, []⟩ []) [1, 2]).2 = .throws ∧
    (computeTF true exField (run true exField ⟨some 2, some 2, none, []⟩ [.evaluate [1, 2]]) [1, 2]).2
      = .ok [211, 222] ∧
    (computeTF true exField (run true exField ⟨some 2, some 2, none, []⟩ [.evaluate [7, 8]]) [1, 2]).2
      = .ok [271, 282] ∧
    (computeTF true exField (run true exField ⟨some 2, some 2, none, []⟩ [.evaluate [7]]) [1, 2]).2
      = .ub := ⟨rfl, rfl, rfl, rfl⟩

/-- **C114** (partial: no geometry registered) The field is right if the evaluation before was at
the same points. -/
theorem C114_unregistered_partial (f sf : G → P → P → Outcome α) (s : St G P) (g : G)
    (hs : s.fixed = none) (hi : s.inner = some g) (us : List P) :
    (computeTF true f (evaluate sf s us).1 us).2 = fieldOf f g us := by
  rw [← values_map]
  simp only [computeTF, if_true, evaluate, hs, hi, points]
  cases values f (us.map fun u => (g, u)) us <;> rfl

end Verif.Explicit
