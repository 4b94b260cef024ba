import Verif.Lemmas.DWRObject

/-!
# The error estimator as an object

C101: lifetime.  C102: configuration and numbering.  C103: the helper.
-/

namespace Verif.DWR

open V3 Verif.Geometry Verif.Variation

variable {α β γ : Type}

/-! ## C101 -/

/-- **C101** Programs that only construct estimators with arguments and destroy them never run into
undefined behaviour, and leave no assembler allocated once all estimators are destroyed. -/
theorem C101_plain_partial (ops : List LifeOp) (h : ∀ o ∈ ops, o.plain) :
    ∃ m, Mem.exec ops .start = .ok m ∧ ((∀ i, m.ptr i = none) → ∀ p, m.live p = false) := by
  obtain ⟨m, e, w⟩ := Mem.Wf.start.exec ops h
  refine ⟨m, e, fun hi p => ?_⟩
  by_contra hp
  obtain ⟨i, l, h, e, -⟩ := w.leak p (by simpa using hp)
  rw [hi] at e; cases e

/-- Non-vacuity: two estimators, destroyed in the order of construction. -/
example : ∃ m, Mem.exec [.construct 0, .construct 1, .destroy 0, .destroy 1] .start = .ok m ∧
    m.next = 4 := ⟨_, rfl, rfl⟩

/-- **C101** A copy shares the assemblers with its original; destroying both is a double delete. -/
theorem C101_copy_violated (i j : ℕ) (h : i ≠ j) :
    Mem.exec [.construct i, .copy j i, .destroy j, .destroy i] .start = .ub := by
  simp [Mem.exec, Mem.step, Mem.start, Outcome.bind, Assembler.upd, h, Ne.symm h, Mem.delete,
    Outcome.map]

/-- **C101** Destroying an estimator built by the empty constructor deletes uninitialised pointers. -/
theorem C101_empty_violated (i : ℕ) : Mem.exec [.empty i, .destroy i] .start = .ub := by
  simp [Mem.exec, Mem.step, Mem.start, Outcome.bind, Assembler.upd]

/-! ## C102 -/

/-- **C102** Whatever setters are called, the two assemblers have the same data, and the estimator's
own geometry and point loads are theirs.  Missing: boundary conditions. -/
theorem C102_data_partial (geo bcs : ℕ) (l : List Setter) :
    let x := configure (.new geo bcs) l
    x.L = x.H ∧ x.own.geo = x.L.geo ∧ x.own.loads = x.L.loads := by
  have key : ∀ x : Dwr, (x.L = x.H ∧ x.own.geo = x.L.geo ∧ x.own.loads = x.L.loads) →
      (let y := configure x l; y.L = y.H ∧ y.own.geo = y.L.geo ∧ y.own.loads = y.L.loads) := by
    induction l with
    | nil => exact fun x h => h
    | cons s l ih =>
      intro x ⟨h1, h2, h3⟩
      refine ih (x.set s) ⟨?_, ?_, ?_⟩
      · simp [Dwr.set, h1]
      · cases s <;> simp [Dwr.set, Part.set, h2]
        split <;> simp
      · cases s <;> simp [Dwr.set, Part.set, h3]
        split <;> simp
  exact key _ ⟨rfl, rfl, rfl⟩

/-- **C102** Without `updateBCs` the boundary conditions agree as well. -/
theorem C102_agree_partial (geo bcs : ℕ) (l : List Setter) (h : ∀ k, Setter.updateBCs k ∉ l) :
    Agree (configure (.new geo bcs) l) := by
  obtain ⟨h1, h2, h3⟩ := C102_data_partial geo bcs l
  refine ⟨h1, h2, h3, ?_⟩
  have key : ∀ x : Dwr, x.own.bcs = x.L.bcs →
      (configure x l).own.bcs = (configure x l).L.bcs := by
    induction l with
    | nil => exact fun x h => h
    | cons s l ih =>
      intro x hx
      refine ih (fun k hk => h k (by simp [hk])) (C102_data_partial geo bcs l).1
        (C102_data_partial geo bcs l).2.1 (C102_data_partial geo bcs l).2.2 (x.set s) ?_
      cases s with
      | updateBCs k => exact absurd (by simp) (h k)
      | options c => simp only [Dwr.set, Part.set]; split <;> exact hx
      | _ => exact hx
  exact key _ rfl

/-- Non-vacuity: new geometry, loads and options. -/
example : Agree (configure (.new 3 7) [.undeformed 5, .pointLoads 2, .options 0, .pressure 1]) :=
  C102_agree_partial _ _ _ (by simp)

/-- **C102** Both assemblers hold the point loads, boundary conditions and geometry set last; they hold
the pressure and the foundation set last if neither geometry nor options were set after them. -/
theorem C102_last_partial (geo bcs j : ℕ) (l l' : List Setter) (f : Dwr → Part)
    (hf : f = Dwr.L ∨ f = Dwr.H) :
    ((∀ k, Setter.pointLoads k ∉ l') →
      (f (configure (.new geo bcs) (l ++ .pointLoads j :: l'))).loads = j) ∧
    ((∀ k, Setter.updateBCs k ∉ l') →
      (f (configure (.new geo bcs) (l ++ .updateBCs j :: l'))).bcs = j) ∧
    ((∀ k, Setter.undeformed k ∉ l') →
      (f (configure (.new geo bcs) (l ++ .undeformed j :: l'))).geo = j) ∧
    ((∀ k, Setter.undeformed k ∉ l') → (∀ c, Setter.options c ∉ l') →
      ((∀ k, Setter.pressure k ∉ l') →
        (f (configure (.new geo bcs) (l ++ .pressure j :: l'))).press = some j) ∧
      ((∀ k, Setter.foundation k ∉ l') →
        (f (configure (.new geo bcs) (l ++ .foundation j :: l'))).found = some j)) := by
  have keep : ∀ {A : Type} (g : Part → A) (ok : Setter → Prop),
      (∀ s p, ok s → g (p.set s) = g p) → (∀ s ∈ l', ok s) → ∀ x : Dwr,
      g (f (configure x l')) = g (f x) := by
    intro A g ok hg
    induction l' with
    | nil => exact fun _ x => rfl
    | cons s l' ih =>
      intro ho x
      rw [show configure x (s :: l') = configure (x.set s) l' from rfl,
        ih (fun s hs => ho s (List.mem_cons_of_mem _ hs)) (x.set s)]
      rcases hf with rfl | rfl
      · exact hg s _ (ho s (by simp))
      · exact hg s _ (ho s (by simp))
  have split : ∀ s, configure (.new geo bcs) (l ++ s :: l')
      = configure ((configure (.new geo bcs) l).set s) l' := by
    intro s; simp [configure]
  simp only [split]
  refine ⟨fun h => ?_, fun h => ?_, fun h => ?_, fun h h' => ⟨fun h'' => ?_, fun h'' => ?_⟩⟩
  · rw [keep Part.loads (fun s => ∀ k, s ≠ .pointLoads k) (fun s p hs => by
      cases s with
      | pointLoads k => exact absurd rfl (hs k)
      | options c => simp only [Part.set]; split <;> rfl
      | _ => rfl) (fun s hs k e => h k (e ▸ hs))]
    rcases hf with rfl | rfl <;> rfl
  · rw [keep Part.bcs (fun s => ∀ k, s ≠ .updateBCs k) (fun s p hs => by
      cases s with
      | updateBCs k => exact absurd rfl (hs k)
      | options c => simp only [Part.set]; split <;> rfl
      | _ => rfl) (fun s hs k e => h k (e ▸ hs))]
    rcases hf with rfl | rfl <;> rfl
  · rw [keep Part.geo (fun s => ∀ k, s ≠ .undeformed k) (fun s p hs => by
      cases s with
      | undeformed k => exact absurd rfl (hs k)
      | options c => simp only [Part.set]; split <;> rfl
      | _ => rfl) (fun s hs k e => h k (e ▸ hs))]
    rcases hf with rfl | rfl <;> rfl
  · rw [keep Part.press (fun s => (∀ k, s ≠ .undeformed k) ∧ (∀ c, s ≠ .options c) ∧
        ∀ k, s ≠ .pressure k) (fun s p hs => by
      cases s with
      | undeformed k => exact absurd rfl (hs.1 k)
      | options c => exact absurd rfl (hs.2.1 c)
      | pressure k => exact absurd rfl (hs.2.2 k)
      | _ => rfl) (fun s hs => ⟨fun k e => h k (e ▸ hs), fun c e => h' c (e ▸ hs),
        fun k e => h'' k (e ▸ hs)⟩)]
    rcases hf with rfl | rfl <;> rfl
  · rw [keep Part.found (fun s => (∀ k, s ≠ .undeformed k) ∧ (∀ c, s ≠ .options c) ∧
        ∀ k, s ≠ .foundation k) (fun s p hs => by
      cases s with
      | undeformed k => exact absurd rfl (hs.1 k)
      | options c => exact absurd rfl (hs.2.1 c)
      | foundation k => exact absurd rfl (hs.2.2 k)
      | _ => rfl) (fun s hs => ⟨fun k e => h k (e ▸ hs), fun c e => h' c (e ▸ hs),
        fun k e => h'' k (e ▸ hs)⟩)]
    rcases hf with rfl | rfl <;> rfl

/-- Non-vacuity: a pressure set before loads and conditions. -/
example : (configure (.new 3 7) [.options 0, .pressure 4, .pointLoads 2, .updateBCs 1]).H.press
    = some 4 :=
  ((C102_last_partial 3 7 4 [.options 0] [.pointLoads 2, .updateBCs 1] Dwr.H (Or.inr rfl)).2.2.2
    (by simp) (by simp)).1 (by simp)

/-- **C102** A pressure is lost by both assemblers when the geometry is set after it. -/
theorem C102_pressure_violated (geo bcs k g : ℕ) :
    (configure (.new geo bcs) [.pressure k]).L.press = some k ∧
      (configure (.new geo bcs) [.pressure k, .undeformed g]).L.press = none ∧
      (configure (.new geo bcs) [.pressure k, .undeformed g]).H.press = none := ⟨rfl, rfl, rfl⟩

/-- **C102** After `updateBCs` with other conditions the estimator, which uses its own conditions for
the tractions and for the dual problem, keeps the old ones. -/
theorem C102_bcs_violated (geo bcs k : ℕ) (h : k ≠ bcs) :
    let x := configure (.new geo bcs) [.updateBCs k]
    x.own.bcs = bcs ∧ x.L.bcs = k ∧ x.H.bcs = k ∧ ¬ Agree x := by
  refine ⟨rfl, rfl, rfl, fun ha => h ha.2.2.2.symm⟩

/-- **C102** If the numbering with the estimator's conditions and continuity 0 is the one of the
assembler, the dual vector has in every place the sum of the contributions of the functions with that
number. -/
theorem C102_numbering_partial (num : ℕ → ℤ → Numbering) (own a : Part)
    (h : num own.bcs 0 = num a.bcs a.cont) (c : List (ℕ × ℝ)) :
    ∃ v, dualVector num own a c = .ok v ∧
      ∀ g, g < (num a.bcs a.cont).size → v g = collected (num a.bcs a.cont).glob c g := by
  obtain ⟨v, e, hv⟩ := scatter_spec (num own.bcs 0) (num a.bcs a.cont).size (by rw [h]) c fun _ => 0
  refine ⟨v, e, fun g hg => ?_⟩
  rw [hv, h, if_pos hg, zero_add]

/-- Numbering of two functions on either side of an interface: one number for continuity 0, two
without continuity; conditions number 1 fix both functions. -/
def ifcNum (b : ℕ) (c : ℤ) : Numbering :=
  if b = 1 then ⟨0, id⟩ else if c = 0 then ⟨1, fun _ => 0⟩ else ⟨2, id⟩

/-- Non-vacuity: continuity 0 in the options. -/
example : ∃ v, dualVector ifcNum (configure (.new 0 0) [.options 0]).own
    (configure (.new 0 0) [.options 0]).L [(0, 1), (1, 2)] = .ok v ∧ v 0 = 3 := by
  obtain ⟨v, e, hv⟩ := C102_numbering_partial ifcNum (configure (.new 0 0) [.options 0]).own
    (configure (.new 0 0) [.options 0]).L rfl [(0, 1), (1, 2)]
  refine ⟨v, e, ?_⟩
  rw [hv 0 (by simp [ifcNum, configure, Dwr.new, Dwr.set, Part.set])]
  simp [collected, ifcNum, configure, Dwr.new, Dwr.set, Part.set]
  norm_num

/-- **C102** With the default options the two sides of an interface have two numbers in the matrix,
but one in the dual vector: the first entry is the sum, the second is 0. -/
theorem C102_continuity_violated :
    ∃ (num : ℕ → ℤ → Numbering) (c : List (ℕ × ℝ)) (v : ℕ → ℝ),
      let x := Dwr.new 0 0
      (num x.L.bcs x.L.cont).size = 2 ∧
      collected (num x.L.bcs x.L.cont).glob c 0 = 1 ∧ collected (num x.L.bcs x.L.cont).glob c 1 = 2 ∧
      dualVector num x.own x.L c = .ok v ∧ v 0 = 3 ∧ v 1 = 0 := by
  refine ⟨ifcNum, [(0, 1), (1, 2)], _, ?_, ?_, ?_, rfl, ?_, ?_⟩
  · simp [ifcNum, Dwr.new]
  · simp [collected, ifcNum, Dwr.new]
  · simp [collected, ifcNum, Dwr.new]
  · simp [Assembler.upd, ifcNum, Dwr.new]; norm_num
  · simp [Assembler.upd, ifcNum, Dwr.new]

/-- **C102** After `updateBCs` with more conditions the dual vector is written outside its bounds. -/
theorem C102_bounds_violated :
    ∃ (num : ℕ → ℤ → Numbering) (c : List (ℕ × ℝ)),
      let x := configure (.new 0 0) [.options 0, .updateBCs 1]
      dualVector num x.own x.L c = .ub := by
  refine ⟨ifcNum, [(0, 1)], ?_⟩
  simp [dualVector, scatter, ifcNum, configure, Dwr.new, Dwr.set, Part.set]

/-! ## C103 -/

/-- **C103** The dual right-hand side of the helper is the derivative of the total goal: the sum of
the goals on the domain, on the given boundaries and at the given points. -/
theorem C103_rhs (interior : Bool) (nb np n : ℕ) (i : Fin n) (dI dB dP : Fin n → ℝ)
    (gI gB gP : ℝ → ℝ) (hI : HasDerivAt gI (dI i) 0) (hB : HasDerivAt gB (dB i) 0)
    (hP : HasDerivAt gP (dP i) 0) :
    HasDerivAt (fun t => (if interior then gI t else 0) + (if nb ≠ 0 then gB t else 0)
      + (if np ≠ 0 then gP t else 0)) (helperRhs interior nb np dI dB dP i) 0 := by
  have key : ∀ (p : Prop) [Decidable p] (g : ℝ → ℝ) (d : ℝ), HasDerivAt g d 0 →
      HasDerivAt (fun t => if p then g t else 0) (if p then d else 0) 0 := by
    intro p _ g d h
    by_cases hp : p
    · simpa [hp] using h
    · simpa [hp] using hasDerivAt_const (0 : ℝ) (0 : ℝ)
  exact ((key _ _ _ hI).add (key _ _ _ hB)).add (key _ _ _ hP)

/-- Non-vacuity: interior and points. -/
example : HasDerivAt (fun t : ℝ => (if true then 2 * t else 0) + (if (0 : ℕ) ≠ 0 then t else 0)
    + (if (1 : ℕ) ≠ 0 then 3 * t else 0))
    (helperRhs true 0 1 (fun _ : Fin 1 => 2) (fun _ => 1) (fun _ => 3) 0) 0 :=
  C103_rhs true 0 1 1 0 _ _ _ _ _ _ (by simpa using (hasDerivAt_id (0 : ℝ)).const_mul 2)
    (hasDerivAt_id 0) (by simpa using (hasDerivAt_id (0 : ℝ)).const_mul 3)

/-- **C103** For dead loads and symmetric tangents the estimate is the change of the goal that one
Newton step on the finer basis predicts, minus the one on the coarser basis; in particular, if the
deformed geometry solves the coarse problem, it is the predicted change on the finer basis. -/
theorem C103_newton_partial (f : Form) (wl : Bool) (D : Setup α β γ) (hp : DeadLoads D)
    (hr : f = .shell → RegularDef D) (hw : wl = true ∨ D.loads = [] ∧ (f = .shell → D.bdr = []))
    {n m : ℕ} (L : NewtonStep f D n) (H : NewtonStep f D m) (r : Result) :
    totalError false f wl D (comb L.z L.φ) (comb H.z H.φ) r = .ok (H.gain - L.gain) ∧
      ((∀ i, residual f D (L.φ i) = 0) →
        totalError false f wl D (comb L.z L.φ) (comb H.z H.φ) r = .ok H.gain) := by
  have h := C94_residual_partial f wl D (comb L.z L.φ) (comb H.z H.φ) r hp hr hw
  refine ⟨by rw [h, newton_work hp hr L, newton_work hp hr H], fun h0 => ?_⟩
  rw [h, newton_work hp hr H, residual_comb f D hp hr]
  simp [h0]

/-- Non-vacuity: no coarse functions, one fine function under a unit body force, stiffness 2, goal
the displacement. -/
example : ∃ (L : NewtonStep .linear (ex1 1 0 0 0 0 [[unitBox]]) 0)
    (H : NewtonStep .linear (ex1 1 0 0 0 0 [[unitBox]]) 1) (r : Result),
    totalError false .linear true (ex1 1 0 0 0 0 [[unitBox]]) (comb L.z L.φ) (comb H.z H.φ) r
      = .ok (1 / 2) := by
  have hd : DeadLoads (ex1 1 0 0 0 0 [[unitBox]]) := ⟨fun _ => rfl, fun _ => rfl⟩
  have hres : residual .linear (ex1 1 0 0 0 0 [[unitBox]]) (const1 1) = 1 := by
    have ha : ∀ q, area ((ex1 1 0 0 0 0 [[unitBox]]).ori q) = 1 := fun _ => sq1_area
    rw [residual_eq _ _ hd (fun h => by cases h)]
    simp only [total, ha]
    simp [ex1, const1, up, dot, resAt]
  let L : NewtonStep .linear (ex1 1 0 0 0 0 [[unitBox]]) 0 :=
    ⟨fun _ => const1 0, fun _ _ => 0, fun _ _ => rfl, fun _ => 0, fun _ => 0, fun _ => 0,
      fun i => i.elim0, fun i => i.elim0⟩
  let H : NewtonStep .linear (ex1 1 0 0 0 0 [[unitBox]]) 1 :=
    ⟨fun _ => const1 1, fun _ _ => 2, fun _ _ => rfl, fun _ => 1, fun _ => 1 / 2, fun _ => 1 / 2,
      fun i => by simp [hres], fun i => by simp⟩
  refine ⟨L, H, ⟨0, []⟩, ?_⟩
  rw [(C103_newton_partial .linear true _ hd (fun h => by cases h) (Or.inl rfl) L H _).1]
  simp [NewtonStep.gain, L, H]

/-- **C103** The dual is solved with the tangent instead of its transpose: for a non-symmetric tangent
(follower pressure) the dual does not predict the change of the goal. -/
theorem C103_transpose_violated :
    ∃ (K : Fin 2 → Fin 2 → ℝ) (J r δ z : Fin 2 → ℝ), (∀ i, ∑ j, K i j * δ j = r i) ∧
      (∀ i, ∑ j, K i j * z j = J i) ∧ ∑ i, z i * r i = 0 ∧ ∑ i, J i * δ i = -1 := by
  refine ⟨![![1, 1], ![0, 1]], ![1, 0], ![0, 1], ![-1, 1], ![1, 0], ?_, ?_, ?_, ?_⟩
  · intro i; rcases fin2_cases i with rfl | rfl <;> simp
  · intro i; rcases fin2_cases i with rfl | rfl <;> simp
  · simp
  · simp

/-- **C103** With prescribed displacements other than zero the duals carry them too
(`constructMultiPatch` fills in the Dirichlet data): without any free function the estimate should be
0, but it is the residual of the difference of the two extensions of the data. -/
theorem C103_dirichlet_violated (wl : Bool) :
    ∃ (D : Setup Unit Unit Unit) (liftL liftH : Disc Unit Unit Unit)
      (L H : NewtonStep .linear D 0), DeadLoads D ∧ H.gain - L.gain = 0 ∧
      ∀ r, totalError false .linear wl D ((comb L.z L.φ).add liftL) ((comb H.z H.φ).add liftH) r
        = .ok 1 := by
  have hd : DeadLoads (ex1 1 0 0 0 0 [[unitBox]]) := ⟨fun _ => rfl, fun _ => rfl⟩
  have hm : ∀ q, Variation.measure ((ex1 1 0 0 0 0 [[unitBox]]).ori q) = 1 := fun _ => sq1_measure
  let N : NewtonStep .linear (ex1 1 0 0 0 0 [[unitBox]]) 0 :=
    ⟨fun _ => const1 0, fun _ _ => 0, fun _ _ => rfl, fun _ => 0, fun _ => 0, fun _ => 0,
      fun i => i.elim0, fun i => i.elim0⟩
  refine ⟨ex1 1 0 0 0 0 [[unitBox]], const1 0, const1 1, N, N, hd, by simp, fun r => ?_⟩
  have hI : integral false .linear (ex1 1 0 0 0 0 [[unitBox]])
      ((comb N.z N.φ).add (const1 0)) ((comb N.z N.φ).add (const1 1)) = 1 := by
    have e : (ex1 1 0 0 0 0 [[unitBox]]).elems = [[()]] := rfl
    simp only [integral, e, List.map_cons, List.map_nil, elemError, integrand, hm]
    simp [exprAt, ex1, comb, Disc.add, const1, up, dot]
  have hN : neumann (ex1 1 0 0 0 0 [[unitBox]])
      ((comb N.z N.φ).add (const1 0)) ((comb N.z N.φ).add (const1 1)) = 0 := by
    simp [neumann, ex1, dot]
  have hL : loadSum (ex1 1 0 0 0 0 [[unitBox]])
      ((comb N.z N.φ).add (const1 0)) ((comb N.z N.φ).add (const1 1)) = 0 := by
    simp [loadSum, loadVal, ex1, dot]
  simp [totalError, estimate, Outcome.map, hI, hN, hL]

/-- **C103** If the element errors add up to an estimate other than zero, the normalised errors are
numbers, not negative, and add up to at least 1. -/
theorem C103_normalised_partial (h : Helper) (e : ℝ) (he : h.error = some e) (h0 : e ≠ 0)
    (hs : h.errors.sum = e) :
    ∃ l : List ℝ, h.getErrors true = .ok (l.map some) ∧ h.getAbs true = .ok (l.map some) ∧
      l.length = h.errors.length ∧ (∀ x ∈ l, 0 ≤ x) ∧ 1 ≤ l.sum := by
  have h0' : |e| ≠ 0 := abs_ne_zero.2 h0
  have hne : h.errors ≠ [] := by rintro hn; rw [hn] at hs; exact h0 (by simpa using hs.symm)
  have hf : ∀ x : ℝ, fdiv |x| |e| = some (|x| / |e|) := fun x => by simp [fdiv, h0]
  refine ⟨h.errors.map fun x => |x| / |e|, ?_, ?_, by simp, ?_, ?_⟩
  · simp [Helper.getErrors, hne, Helper.getError, he, Outcome.map, hf]
  · simp [Helper.getAbs, hne, Helper.getError, he, Outcome.map, hf]
  · intro x hx
    obtain ⟨y, -, rfl⟩ := List.mem_map.1 hx
    positivity
  · have hdiv : ∀ l : List ℝ, (l.map fun x => |x| / |e|).sum = (l.map abs).sum / |e| := by
      intro l
      induction l with
      | nil => simp
      | cons a l ih => simp [ih, add_div]
    have habs : ∀ l : List ℝ, |l.sum| ≤ (l.map abs).sum := by
      intro l
      induction l with
      | nil => simp
      | cons a l ih =>
        simp only [List.sum_cons, List.map_cons]
        exact (abs_add_le _ _).trans (by linarith)
    rw [hdiv, le_div_iff₀ (abs_pos.2 h0), one_mul, ← hs]
    exact habs _

/-- Non-vacuity: errors 3 and -1. -/
example : ∃ l : List ℝ, (Helper.mk (some 2) [3, -1] []).getErrors true = .ok (l.map some) ∧
    l.sum = 2 := by
  refine ⟨[3 / 2, 1 / 2], ?_, by norm_num⟩
  simp [Helper.getErrors, Helper.getError, Outcome.map, fdiv]

/-- **C103** Normalised errors, plain and squared, do not change if the goal is multiplied with a
number other than zero. -/
theorem C103_scale (h : Helper) (c : ℝ) (hc : c ≠ 0) :
    let h' : Helper := ⟨h.error.map (c * ·), h.errors.map (c * ·), h.sqerrors.map (c ^ 2 * ·)⟩
    h'.getErrors true = h.getErrors true ∧ h'.getAbs true = h.getAbs true ∧
      h'.getSq true = h.getSq true := by
  have h1 : ∀ x e : ℝ, fdiv |c * x| |c * e| = fdiv |x| |e| := by
    intro x e
    by_cases he : e = 0
    · simp [fdiv, he]
    · have : |c| ≠ 0 := abs_ne_zero.2 hc
      simp [fdiv, he, hc, abs_mul, mul_div_mul_left _ _ this]
  have h2 : ∀ x e : ℝ, fdiv |c ^ 2 * x| ((c * e) ^ 2) = fdiv |x| (e ^ 2) := by
    intro x e
    by_cases he : e = 0
    · simp [fdiv, he]
    · have : c ^ 2 ≠ 0 := pow_ne_zero 2 hc
      simp [fdiv, he, hc, abs_mul, mul_pow, mul_div_mul_left _ _ this]
  obtain ⟨e, l, s⟩ := h
  refine ⟨?_, ?_, ?_⟩ <;> cases e <;>
    simp only [Helper.getErrors, Helper.getAbs, Helper.getSq, Helper.getError, Outcome.map, h1, h2,
      Function.comp_def, List.map_eq_nil_iff, List.map_map, Option.map_some, Option.map_none] <;> rfl

/-- Non-vacuity: doubling the goal. -/
example : (Helper.mk (some 4) [6, -2] [1]).getErrors true
    = (Helper.mk (some 2) [3, -1] [1]).getErrors true := by
  have := (C103_scale ⟨some 2, [3, -1], [1]⟩ 2 (by norm_num)).1
  have e1 : (2 : ℝ) * 2 = 4 := by norm_num
  have e2 : (2 : ℝ) * 3 = 6 := by norm_num
  simpa [Helper.getErrors, Helper.getError, e1, e2] using this

/-- **C103** If the estimate is zero, all normalised errors are not finite. -/
theorem C103_zero_violated (h : Helper) (he : h.error = some 0) (hne : h.errors ≠ []) :
    h.getErrors true = .ok (h.errors.map fun _ => none) := by
  simp [Helper.getErrors, hne, Helper.getError, he, Outcome.map, fdiv]

/-- Non-vacuity: errors of opposite sign. -/
example : (Helper.mk (some 0) [1, -1] []).getErrors true = .ok [none, none] :=
  C103_zero_violated _ rfl (by simp)

/-- **C103** Asking for the error before it has been computed reads an uninitialised number. -/
theorem C103_uninitialised_violated : Helper.new.getError = .ub := rfl

end Verif.DWR
