import Verif.Lemmas.Material

/-!
# Properties C04 – C06 and C10 – C12: state of materials and evaluators
-/

namespace Verif.Material

/-! ## C04 named parameters -/

/-- Specification: the value last assigned to name `n`, if any (independent of the model:
only looks at the sequence of assignments). -/
def lastAssigned {F : Type} (ops : List (Name × F)) (n : Name) : Option F :=
  ops.foldl (fun acc op => if op.1 = n then some op.2 else acc) none

/-- **C04** For every material model, initial parameter list and sequence of named
assignments: reading a supported name afterwards gives the value last assigned to that
name, or – if it was never assigned – the initial value (null or absent both count as
"unset"). -/
theorem C04_named_parameters {F : Type} (m : Model) (init : List (Option F))
    (ops : List (Name × F)) (n : Name) (i : Nat) (hn : slot m n = some i) :
    (runSetters m init ops)[i]?.join = (lastAssigned ops n).or (init[i]?.join) := by
  have key : ∀ (ops : List (Name × F)) (acc : List (Option F)) (last : Option F),
      acc[i]?.join = last.or (init[i]?.join) →
      (ops.foldl (fun p op => match setNamed m p op.1 op.2 with | .ok q => q | _ => p) acc)[i]?.join
        = (ops.foldl (fun acc op => if op.1 = n then some op.2 else acc) last).or (init[i]?.join) := by
    intro ops
    induction ops with
    | nil => intro acc last h; simpa using h
    | cons op r ih =>
      intro acc last h
      simp only [List.foldl_cons]
      apply ih
      unfold setNamed
      by_cases hop : op.1 = n
      · subst hop
        rw [hn]
        simp only [setParameterRef_getElem?]
        simp
      · cases hs : slot m op.1 with
        | none => simpa [hop] using h
        | some j =>
          simp only [setParameterRef_getElem?]
          have hij : i ≠ j := fun e => hop (slot_inj m op.1 n j hs (e ▸ hn))
          simp [hij, hop, h]
  exact key ops init none (by simp)

/-- **C04** Once a supported name was assigned, its getter returns the value without
undefined behaviour. -/
theorem C04_getter_safe {F : Type} (m : Model) (init : List (Option F)) (ops : List (Name × F))
    (n : Name) (i : Nat) (f : F) (hn : slot m n = some i) (hf : lastAssigned ops n = some f) :
    getNamed m (runSetters m init ops) n = .ok (some f) := by
  have h := C04_named_parameters m init ops n i hn
  rw [hf] at h
  simp only [Option.some_or] at h
  unfold getNamed getParameter
  rw [hn]
  cases hg : (runSetters m init ops)[i]? with
  | none => rw [hg] at h; simp at h
  | some p => rw [hg] at h; simp only [Option.join_some] at h; subst h; simp only [hg]

/-- Specification: the parameter list given to the constructor of an Ogden material (Young's
modulus, Poisson's ratio, then pairs of moduli and exponents) or of another material (a third
parameter is the ratio). -/
def parameterList {F : Type} (E nu : F) (rest : List F) : List (Option F) :=
  (E :: nu :: rest).map some

/-- **C04** The named getters read the positions of the constructor's parameter list: Young's
modulus first, Poisson's ratio second, the ratio third (Mooney–Rivlin), and the pairs of
modulus and exponent in order after the first two (Ogden). -/
theorem C04_positions {F : Type} (E nu : F) :
    (∀ m rest, getNamed m (parameterList E nu rest) .youngs = .ok (some E) ∧
      getNamed m (parameterList E nu rest) .poisson = .ok (some nu)) ∧
    (∀ c rest, getNamed .mooneyRivlin (parameterList E nu (c :: rest)) .ratio = .ok (some c)) ∧
    (∀ (pairs : List (F × F)) (i : Nat) (hi : i < pairs.length),
      getNamed .ogden (parameterList E nu (pairs.flatMap fun p => [p.1, p.2])) (.mu i)
        = .ok (some pairs[i].1) ∧
      getNamed .ogden (parameterList E nu (pairs.flatMap fun p => [p.1, p.2])) (.alpha i)
        = .ok (some pairs[i].2)) := by
  refine ⟨fun m rest => ?_, fun c rest => rfl, fun pairs i hi => ?_⟩
  · cases m <;> exact ⟨rfl, rfl⟩
  · have key : ∀ (pairs : List (F × F)) (i : Nat) (hi : i < pairs.length),
        (pairs.flatMap fun p => [p.1, p.2])[2 * i]? = some pairs[i].1 ∧
        (pairs.flatMap fun p => [p.1, p.2])[2 * i + 1]? = some pairs[i].2 := by
      intro pairs
      induction pairs with
      | nil => intro i hi; simp at hi
      | cons p ps ih =>
        intro i hi
        cases i with
        | zero => exact ⟨rfl, rfl⟩
        | succ i =>
          have := ih i (by simpa using hi)
          rw [List.flatMap_cons]
          exact this
    obtain ⟨h1, h2⟩ := key pairs i hi
    have e1 : 2 + 2 * i = 2 * i + 1 + 1 := by omega
    constructor
    · simp only [getNamed, slot, getParameter, parameterList, e1, List.map_cons,
        List.getElem?_cons_succ, List.getElem?_map, h1, Option.map_some]
    · simp only [getNamed, slot, getParameter, parameterList, e1, List.map_cons,
        List.getElem?_cons_succ, List.getElem?_map, h2, Option.map_some]

/-- **C04** A setter that is not implemented for the material model reports an error and
changes nothing; a setter that is implemented never fails. -/
theorem C04_setter_total {F : Type} (m : Model) (pars : List (Option F)) (n : Name) (f : F) :
    (slot m n = none ∧ setNamed m pars n f = .throws) ∨
    (∃ q, setNamed m pars n f = .ok q ∧ getNamed m q n = .ok (some f)) := by
  unfold setNamed getNamed
  cases h : slot m n with
  | none => left; simp
  | some i =>
    right
    refine ⟨_, rfl, ?_⟩
    have := setParameterRef_getElem? pars i i f
    simp only [getParameter]
    cases hg : (setParameterRef pars i f)[i]? with
    | none => rw [hg] at this; simp at this
    | some p => rw [hg] at this; simp at this; simp [this]

/-- **C04** The number of parameters never shrinks, and assigning slot `i` makes at least
`i+1` parameters. -/
theorem C04_size_grows {F : Type} (pars : List (Option F)) (i : Nat) (f : F) :
    (setParameterRef pars i f).length = max pars.length (i + 1) :=
  setParameterRef_length pars i f

/-- **C04** is violated by the pointer overload of the indexed setter: on an empty
parameter list, `setParameter(0, ptr)` is an out-of-bounds write, although the overload
taking a reference is fine. -/
theorem C04_pointer_setter_violated (F : Type) (f : F) :
    setParameterPtr ([] : List (Option F)) 0 (some f) = .ub ∧
    setParameterRef ([] : List (Option F)) 0 f = [some f] := by
  constructor
  · simp [setParameterPtr]
  · simp [setParameterRef]

/-- **C04** (partial: needs the slot to exist.) With an existing slot the pointer overload
replaces exactly that slot. -/
theorem C04_pointer_setter_partial {F : Type} (pars : List (Option F)) (i : Nat)
    (p : Option F) (hi : i < pars.length) :
    ∃ q, setParameterPtr pars i p = .ok q ∧ q.length = pars.length ∧ q[i]? = some p ∧
      ∀ j, j ≠ i → q[j]? = pars[j]? := by
  refine ⟨pars.set i p, by simp [setParameterPtr, hi], by simp, ?_, ?_⟩
  · rw [List.getElem?_set_self hi]
  · intro j hj; rw [List.getElem?_set_ne (Ne.symm hj)]

/-- Non-vacuity: an Ogden material, second pair assigned before the first. -/
example : getNamed .ogden
    (runSetters .ogden [some 210, some 3] [(.alpha 1, 9), (.mu 0, 4), (.alpha 1, 8)]) (.alpha 1)
    = .ok (some 8) ∧
    getNamed .ogden
      (runSetters .ogden [some 210, some 3] [(.alpha 1, 9), (.mu 0, 4), (.alpha 1, 8)]) .youngs
    = .ok (some 210) := by decide

/-! ## C05 hasUndeformed / hasDeformed -/

/-- Specification: the geometry last registered as deformed/undeformed, looking only at
the sequence of calls. -/
def lastDeformed {G : Type} (init : Option G) (ops : List (GeoOp G)) : Option G :=
  ops.foldl (fun acc op => match op with | .setDeformed g => g | .setUndeformed _ => acc) init

/-- See `lastDeformed`. -/
def lastUndeformed {G : Type} (init : Option G) (ops : List (GeoOp G)) : Option G :=
  ops.foldl (fun acc op => match op with | .setUndeformed g => g | .setDeformed _ => acc) init

theorem C05_registered {G F : Type} (s : State G F) (ops : List (GeoOp G)) :
    (s.run ops).undef = lastUndeformed s.undef ops ∧
    (s.run ops).defo = lastDeformed s.defo ops := by
  induction ops generalizing s with
  | nil => exact ⟨rfl, rfl⟩
  | cons op r ih =>
    cases op with
    | setUndeformed g => exact ih (s.setUndeformed g)
    | setDeformed g => exact ih (s.setDeformed g)

/-- **C05** (partial: only `hasDeformed`.)  After any sequence of calls `hasDeformed` is
true exactly when a deformed geometry is registered. -/
theorem C05_hasDeformed_partial {G F : Type} (s : State G F) (ops : List (GeoOp G)) :
    (s.run ops).hasDeformed = true ↔ lastDeformed s.defo ops ≠ none := by
  unfold State.hasDeformed
  rw [(C05_registered s ops).2]
  cases lastDeformed s.defo ops <;> simp

/-- **C05** is violated by `hasUndeformed`: it is false after registering an undeformed
geometry, and true after registering only a deformed one. -/
theorem C05_hasUndeformed_violated {G F : Type} (g : G) :
    ((State.empty : State G F).run [.setUndeformed (some g)]).hasUndeformed = false ∧
    lastUndeformed none [.setUndeformed (some g)] = some g ∧
    ((State.empty : State G F).run [.setDeformed (some g)]).hasUndeformed = true ∧
    lastUndeformed none [.setDeformed (some g)] = none := by
  refine ⟨rfl, rfl, rfl, rfl⟩

/-- **C05** (partial) `hasUndeformed` is right exactly in the states where both geometries
are registered or neither is. -/
theorem C05_hasUndeformed_partial {G F : Type} (s : State G F) :
    (s.hasUndeformed = true ↔ s.undef ≠ none) ↔ (s.undef ≠ none ↔ s.defo ≠ none) := by
  unfold State.hasUndeformed
  cases s.undef <;> cases s.defo <;> simp

/-- Non-vacuity of the partial statements. -/
example : ((State.empty : State Nat Nat).run
    [.setUndeformed (some 1), .setDeformed (some 2), .setDeformed (some 3)]).hasDeformed = true ∧
    lastDeformed none [.setUndeformed (some 1), .setDeformed (some 2), .setDeformed (some 3)] = some 3 := by
  decide

/-! ## C06 tension-field wrapper -/

/-- **C06** is violated: wrapping a material that has a reference geometry but no deformed
geometry gives a wrapper without reference geometry. -/
theorem C06_wrapper_violated {G F : Type} (g : G) (t : Option F) :
    (tftCtor (⟨some g, none, t⟩ : State G F)).1.undef = none := rfl

/-- **C06** (partial: needs a registered deformed geometry.)  Then the wrapper has the same
reference geometry, deformed geometry and thickness, and the wrapped material is left
unchanged. -/
theorem C06_wrapper_partial {G F : Type} (s : State G F) (h : s.defo ≠ none) :
    (tftCtor s).1 = s ∧ (tftCtor s).2 = s := by
  obtain ⟨u, d, t⟩ := s
  cases d with
  | none => exact absurd rfl h
  | some d => exact ⟨rfl, rfl⟩

/-- **C06** In every case the thickness is taken over and the wrapped material unchanged. -/
theorem C06_wrapper_inner {G F : Type} (s : State G F) :
    (tftCtor s).1.thickness = s.thickness ∧ (tftCtor s).2 = s := by
  obtain ⟨u, d, t⟩ := s
  cases d <;> exact ⟨rfl, rfl⟩

/-- Non-vacuity. -/
example : (tftCtor (⟨some 1, some 2, some 3⟩ : State Nat Nat)).1 = ⟨some 1, some 2, some 3⟩ :=
  (C06_wrapper_partial _ (by simp)).1

/-! ## C10 evaluators on a shared material -/

/-- **C10** is violated: of two evaluators built on one material for different geometries
the first one evaluates on the geometry of the second. -/
theorem C10_aliasing_violated {G F : Type} (w : World G F) (m : Nat) (d₁ d₂ : G) (h : d₁ ≠ d₂) :
    usedDeformed (buildAll w [⟨m, d₁⟩, ⟨m, d₂⟩]) ⟨m, d₁⟩ = some d₂ ∧
    usedDeformed (buildAll w [⟨m, d₁⟩, ⟨m, d₂⟩]) ⟨m, d₁⟩ ≠ some d₁ := by
  constructor
  · simp [usedDeformed, buildAll, build, ctorDef, State.setDeformed]
  · simp [usedDeformed, buildAll, build, ctorDef, State.setDeformed, Ne.symm h]

/-- **C10** (partial: the evaluator must be the last one built on its material, or all later
ones on that material must use the same geometry.)  Evaluators built later on other
materials do not matter. -/
theorem C10_last_built_partial {G F : Type} (w : World G F) (before after : List (Evaluator G))
    (e : Evaluator G) (h : ∀ e' ∈ after, e'.mat = e.mat → e'.asked = e.asked) :
    usedDeformed (buildAll w (before ++ e :: after)) e = some e.asked := by
  have key : ∀ (l : List (Evaluator G)) (w : World G F),
      (∀ e' ∈ l, e'.mat = e.mat → e'.asked = e.asked) →
      (w e.mat).defo = some e.asked → (buildAll w l e.mat).defo = some e.asked := by
    intro l
    induction l with
    | nil => intro w _ hw; exact hw
    | cons a r ih =>
      intro w hl hw
      apply ih (build w a) (fun e' he' => hl e' (by simp [he']))
      by_cases ham : a.mat = e.mat
      · simp [build, ham, ctorDef, State.setDeformed, hl a (by simp) ham]
      · simp [build, Function.update_of_ne (Ne.symm ham), hw]
  unfold usedDeformed
  have : buildAll w (before ++ e :: after) = buildAll (build (buildAll w before) e) after := by
    simp [buildAll, List.foldl_append]
  rw [this]
  apply key after _ h
  simp [build, ctorDef, State.setDeformed]

/-- **C10** Evaluators built for deformed geometries never change the reference geometry, the
thickness, the density or the parameters of any material. -/
theorem C10_reference {G F : Type} (w : World G F) (l : List (Evaluator G)) (m : Nat) :
    buildAll w l m = { w m with defo := (buildAll w l m).defo } := by
  induction l generalizing w with
  | nil => rfl
  | cons a r ih =>
    have h : buildAll w (a :: r) = buildAll (build w a) r := rfl
    rw [h, ih]
    by_cases ham : m = a.mat
    · subst ham; simp [build, ctorDef, State.setDeformed]
    · simp [build, Function.update_of_ne ham]

/-- Non-vacuity: two evaluators on a material with reference geometry 3. -/
example : (buildAll (fun _ => ({ (State.empty : State Nat Nat) with undef := some 3 }))
    [⟨0, 5⟩, ⟨0, 6⟩] 0).undef = some 3 := by rw [C10_reference]

/-- **C10** is violated by the mixed-integration-point stiffness: all its evaluators,
including the six asked to use the current geometry, use the previous one. -/
theorem C10_mip_violated {G F : Type} (w : World G F) (m : Nat) (deformed previous : G) :
    ∀ e ∈ mipEvaluators m deformed previous,
      usedDeformed (buildAll w (mipEvaluators m deformed previous)) e = some previous := by
  intro e he
  have hm : e.mat = m := by
    simp [mipEvaluators] at he
    rcases he with rfl | rfl <;> rfl
  have h2 := C10_last_built_partial w
    (List.replicate 6 (⟨m, deformed⟩ : Evaluator G)) (List.replicate 5 ⟨m, previous⟩)
    ⟨m, previous⟩ (by intro e' he' _; simp at he'; simp [he'])
  have e1 : mipEvaluators m deformed previous =
      List.replicate 6 (⟨m, deformed⟩ : Evaluator G) ++ ⟨m, previous⟩ :: List.replicate 5 ⟨m, previous⟩ := rfl
  rw [← e1] at h2
  simpa [usedDeformed, hm] using h2

/-- Non-vacuity: two evaluators, different materials – no interference. -/
example : usedDeformed (buildAll (fun _ => (State.empty : State Nat Nat)) [⟨0, 5⟩, ⟨1, 6⟩]) ⟨0, 5⟩ = some 5 :=
  C10_last_built_partial _ [] [⟨1, 6⟩] ⟨0, 5⟩ (by simp)

/-! ## C11 pointwise evaluator with both geometries -/

/-- **C11** is violated: the pointwise evaluator ignores the undeformed geometry and
registers the deformed one as reference; any quantity which is a difference of a metric
quantity of the deformed and the reference geometry is then zero. -/
theorem C11_eval_ctor_violated {G F : Type} (s : State G F) (u d : G) (h : u ≠ d) :
    (evalCtorBoth s u d).undef = some d ∧ (evalCtorBoth s u d).undef ≠ some u ∧
    ∀ metric : Option G → Int,
      metric (evalCtorBoth s u d).defo - metric (evalCtorBoth s u d).undef = 0 := by
  refine ⟨rfl, ?_, ?_⟩
  · simp [evalCtorBoth, State.setUndeformed, State.setDeformed, Ne.symm h]
  · intro metric; simp [evalCtorBoth, State.setUndeformed, State.setDeformed]

/-- **C11** (partial: the integrated evaluator and the pointwise evaluator without
undeformed geometry.)  They register what they are given. -/
theorem C11_other_ctors_partial {G F : Type} (s : State G F) (u d : G) :
    (integrateCtorBoth s u d).undef = some u ∧ (integrateCtorBoth s u d).defo = some d ∧
    (ctorDef s d).undef = s.undef ∧ (ctorDef s d).defo = some d :=
  ⟨rfl, rfl, rfl, rfl⟩

/-- Non-vacuity: two different geometries exist. -/
example : (evalCtorBoth (State.empty : State Nat Nat) 1 2).undef = some 2 :=
  (C11_eval_ctor_violated State.empty 1 2 (by decide)).1

/-! ## C12 pieces of integrated evaluators -/

/-- **C12** is violated: the constructor from one material and both geometries runs into
undefined behaviour for every geometry with two or more patches. -/
theorem C12_single_material_violated {M : Type} (m : M) (n : Nat) (hn : 2 ≤ n) :
    integrateFromOneBoth n m = .ub := by
  have hfold : ∀ (l : List Nat),
      l.foldl (fun (acc : Outcome (List (Option M) × List M)) p =>
        acc.bind fun cp =>
          let c := cp.1.set p (some m)
          (makePieces n c).bind fun ps => .ok (c, ps)) .ub = .ub := by
    intro l; induction l with
    | nil => rfl
    | cons a r ih => simpa [Outcome.bind] using ih
  obtain ⟨k, rfl⟩ : ∃ k, n = k + 2 := ⟨n - 2, by omega⟩
  have hp : makePieces (k + 2) ((List.replicate (k + 2) (none : Option M)).set 0 (some m)) = .ub := by
    unfold makePieces
    rw [List.range_succ_eq_map, List.range_succ_eq_map]
    simp [List.replicate_succ, consPiece, Outcome.bind]
  unfold integrateFromOneBoth
  rw [List.range_succ_eq_map]
  simp only [List.foldl_cons]
  have : (Outcome.ok (List.replicate (k + 2) (none : Option M), ([] : List M))).bind (fun cp =>
      let c := cp.1.set 0 (some m)
      (makePieces (k + 2) c).bind fun ps => .ok (c, ps)) = .ub := by
    simp only [Outcome.bind]; rw [hp]
  rw [this, hfold]
  rfl

/-- **C12** (partial: excludes the constructor above with two or more patches.)  The
constructor from one material without undeformed geometry gives one piece per patch, for
every number of patches, all with the given material. -/
theorem C12_single_material_partial {M : Type} (m : M) (n : Nat) :
    integrateFromOne n m = .ok (List.replicate n m) := by
  unfold integrateFromOne makePieces
  have := makePieces_foldr
    ((List.range n).foldl (fun c p => c.set p (some m)) (List.replicate n none)) (List.range n) m
    (by
      intro q hq
      rw [fill_getElem? m n _ (by simp)]
      simp at hq; simp [hq])
  simpa using this

/-- **C12** (partial) With at most one patch the faulty constructor works. -/
theorem C12_single_patch_partial {M : Type} (m : M) :
    integrateFromOneBoth 0 m = .ok [] ∧ integrateFromOneBoth 1 m = .ok [m] := ⟨rfl, rfl⟩

/-- **C12** The container constructors give one piece per patch when the container has at
least as many non-null entries as there are patches. -/
theorem C12_container {M : Type} (n : Nat) (c : List M) (h : n ≤ c.length) :
    integrateFromContainer n (c.map some) = .ok (c.take n) := by
  unfold integrateFromContainer
  induction n generalizing c with
  | zero => simp [makePieces]
  | succ n ih =>
    cases c with
    | nil => simp at h
    | cons a r =>
      rw [List.map_cons, makePieces_cons, ih r (by simpa using h)]
      rfl

/-- **C12** A container with fewer entries than patches is rejected with an error (not
undefined behaviour) if its present entries are non-null. -/
theorem C12_container_too_small {M : Type} (n : Nat) (c : List M) (h : c.length < n) :
    integrateFromContainer n (c.map some) = .throws := by
  unfold integrateFromContainer
  induction n generalizing c with
  | zero => simp at h
  | succ n ih =>
    cases c with
    | nil => rw [List.map_nil]; simp [makePieces, List.range_succ_eq_map, consPiece]
    | cons a r =>
      rw [List.map_cons, makePieces_cons, ih r (by simpa using h)]
      rfl

/-- Non-vacuity. -/
example : integrateFromContainer 2 ([7, 8, 9].map some) = .ok [7, 8] :=
  C12_container 2 [7, 8, 9] (by decide)

end Verif.Material
