import Verif.Lemmas.DWRError

/-!
# Error estimates of the goal-oriented error estimator

C94: the estimate is the residual of the dual difference.  C95: element errors add up to the
estimate.  C96: distribution of point loads.  C97: squared errors.  C98: function-wise errors and
dependence on earlier calls.
-/

namespace Verif.DWR

open V3 Verif.Geometry Verif.Variation

variable {α β γ : Type}

/-! ## C94 -/

/-- **C94** With `withLoads` (or, without it, if there are no loads that it drops), without pressure
and foundation, the estimate is the residual of the finer dual minus the residual of the coarser
one.  Missing: pressure, foundation; loads without the flag. -/
theorem C94_residual_partial (f : Form) (wl : Bool) (D : Setup α β γ) (zL zH : Disc α β γ) (r : Result)
    (hp : DeadLoads D) (hr : f = .shell → RegularDef D)
    (hw : wl = true ∨ D.loads = [] ∧ (f = .shell → D.bdr = [])) :
    totalError false f wl D zL zH r = .ok (residual f D zH - residual f D zL) := by
  have h1 : totalError false f wl D zL zH r
      = .ok (integral false f D zL zH + loadSum D zL zH + neumann D zL zH) := by
    rcases hw with rfl | ⟨h, h'⟩
    · cases f <;> rfl
    · have e1 : loadSum D zL zH = 0 := by simp [loadSum, h]
      cases f with
      | shell =>
        have e2 : neumann D zL zH = 0 := by simp [neumann, h' rfl]
        cases wl <;> simp [totalError, estimate, Outcome.map, usesNeumann, e1, e2]
      | _ => cases wl <;> simp [totalError, estimate, Outcome.map, usesNeumann, e1]
  rw [h1, integral_eq, loadSum_eq, neumann_eq, residual, residual, otherWork_zero D hp,
    otherWork_zero D hp, deadWork, deadWork, ← intWork_eq f D hr, ← intWork_eq f D hr]
  congr 1
  ring

/-- Non-vacuity: body force 2, traction 3, load 5; dual difference 1. -/
example : totalError false .shell true (ex1 2 3 5 0 0 [[unitBox]]) (const1 0) (const1 1) ⟨0, []⟩
    = .ok 10 := by
  have h := C94_residual_partial .shell true (ex1 2 3 5 0 0 [[unitBox]]) (const1 0) (const1 1) ⟨0, []⟩
    ⟨fun _ => rfl, fun _ => rfl⟩ (fun _ q _ => sq1_indep) (Or.inl rfl)
  rw [h]
  have ha : ∀ q, area ((ex1 2 3 5 0 0 [[unitBox]]).ori q) = 1 := fun _ => sq1_area
  simp only [residual, deadWork, otherWork, intWork, total, ha]
  simp [ex1, const1, up, dot]
  norm_num

/-- **C94** For linear problems with symmetric matrices the estimate is exact: it is the goal of the
finer primal solution minus the goal of the coarser one. -/
theorem C94_exact_partial (D : Setup α β γ) (hp : DeadLoads D) (wl : Bool)
    (hw : wl = true ∨ D.loads = []) {n m : ℕ} (L : Galerkin D n) (H : Galerkin D m) (r : Result) :
    totalError false .linear wl D (comb L.z L.φ) (comb H.z H.φ) r = .ok (H.goal - L.goal) := by
  rw [C94_residual_partial .linear wl D _ _ r hp (fun h => by cases h)
    (hw.imp id fun h => ⟨h, fun h => by cases h⟩)]
  have e : ∀ z, intWork .linear D z = 0 := by
    intro z
    rw [intWork, total]
    apply List.sum_eq_zero
    intro x hx
    obtain ⟨q, -, rfl⟩ := List.mem_map.1 hx
    simp
  simp only [residual, otherWork_zero D hp, e, galerkin_work, add_zero, sub_zero]

/-- Non-vacuity: one function with stiffness 2 and load 10 against no function at all; the goal is
three times the coefficient. -/
example : totalError false .linear true (ex1 2 3 5 0 0 [[unitBox]])
    (comb (n := 0) (fun _ => 0) fun _ => const1 1)
    (comb (n := 1) (fun _ => 3 / 2) fun _ => const1 1) ⟨0, []⟩ = .ok 15 := by
  have ha : ∀ q, area ((ex1 2 3 5 0 0 [[unitBox]]).ori q) = 1 := fun _ => sq1_area
  have hd : deadWork (ex1 2 3 5 0 0 [[unitBox]]) (const1 1) = 10 := by
    simp only [deadWork, total, ha]
    simp [ex1, const1, up, dot]
    norm_num
  let L : Galerkin (ex1 2 3 5 0 0 [[unitBox]]) 0 :=
    { φ := fun _ => const1 1, K := fun _ _ => 0, symm := fun _ _ => rfl, J := fun _ => 0,
      u := fun _ => 0, z := fun _ => 0, primal := fun i => i.elim0, dual := fun i => i.elim0 }
  let H : Galerkin (ex1 2 3 5 0 0 [[unitBox]]) 1 :=
    { φ := fun _ => const1 1, K := fun _ _ => 2, symm := fun _ _ => rfl, J := fun _ => 3,
      u := fun _ => 5, z := fun _ => 3 / 2, primal := fun i => by simp [hd]; norm_num,
      dual := fun i => by norm_num }
  have h := C94_exact_partial _ ⟨fun _ => rfl, fun _ => rfl⟩ true (Or.inl rfl) L H ⟨0, []⟩
  refine h.trans ?_
  simp [Galerkin.goal, L, H]
  norm_num

/-- **C94** Without `withLoads`, which is the default, the point loads of the primal problem are
missing in all three estimates. -/
theorem C94_loads_violated (f : Form) :
    ∃ (D : Setup Unit Unit Unit) (zL zH : Disc Unit Unit Unit), DeadLoads D ∧ RegularDef D ∧
      residual f D zH - residual f D zL = 1 ∧ ∀ r, totalError false f false D zL zH r = .ok 0 := by
  have ha : ∀ q, area ((ex1 0 0 1 0 0 [[unitBox]]).ori q) = 1 := fun _ => sq1_area
  refine ⟨ex1 0 0 1 0 0 [[unitBox]], const1 0, const1 1, ⟨fun _ => rfl, fun _ => rfl⟩,
    fun q _ => sq1_indep, ?_, fun r => ?_⟩
  · simp only [residual, deadWork, otherWork, intWork, total, ha]
    cases f <;> simp [ex1, const1, up, dot]
  · have h := C94_residual_partial f true (ex1 0 0 0 0 0 [[unitBox]]) (const1 0) (const1 1) r
      ⟨fun _ => rfl, fun _ => rfl⟩ (fun _ q _ => sq1_indep) (Or.inl rfl)
    have e : totalError false f false (ex1 0 0 1 0 0 [[unitBox]]) (const1 0) (const1 1) r
        = totalError false f true (ex1 0 0 0 0 0 [[unitBox]]) (const1 0) (const1 1) r := by
      cases f <;> simp [totalError, estimate, Outcome.map, usesNeumann, loadSum, loadVal, ex1, const1,
        dot, neumann, integral, elemError, integrand, exprAt, up, dotV]
    have ha' : ∀ q, area ((ex1 0 0 0 0 0 [[unitBox]]).ori q) = 1 := fun _ => sq1_area
    rw [e, h]
    simp only [residual, deadWork, otherWork, intWork, total, ha']
    cases f <;> simp [ex1, const1, up, dot]

/-- **C94** For shells the boundary tractions are missing as well without `withLoads`; for the same
data the estimates of membranes and of linear problems contain them. -/
theorem C94_neumann_violated :
    ∃ (D : Setup Unit Unit Unit) (zL zH : Disc Unit Unit Unit), DeadLoads D ∧ RegularDef D ∧
      D.loads.map (fun k => (D.load k).value) = [0] ∧
      residual .shell D zH - residual .shell D zL = 1 ∧
      (∀ r, totalError false .shell false D zL zH r = .ok 0) ∧
      ∀ r, totalError false .membrane false D zL zH r = .ok 1 := by
  have ha : ∀ q, area ((ex1 0 1 0 0 0 [[unitBox]]).ori q) = 1 := fun _ => sq1_area
  refine ⟨ex1 0 1 0 0 0 [[unitBox]], const1 0, const1 1, ⟨fun _ => rfl, fun _ => rfl⟩,
    fun q _ => sq1_indep, by
      simp only [ex1, List.map_cons, List.map_nil, List.cons.injEq, and_true]
      ext <;> simp, ?_, fun r => ?_, fun r => ?_⟩
  · simp only [residual, deadWork, otherWork, intWork, total, ha]
    simp [ex1, const1, up, dot]
  all_goals simp [totalError, estimate, Outcome.map, usesNeumann, ex1, const1,
    dot, neumann, integral, elemError, integrand, exprAt, up, dotV]

/-- **C94** A pressure is part of the primal problem but of no estimate. -/
theorem C94_pressure_violated (f : Form) (wl : Bool) :
    ∃ (D : Setup Unit Unit Unit) (zL zH : Disc Unit Unit Unit), RegularDef D ∧
      deadWork D zH = 0 ∧ deadWork D zL = 0 ∧
      residual f D zH - residual f D zL = 1 ∧ ∀ r, totalError false f wl D zL zH r = .ok 0 := by
  have ha : ∀ q, area ((ex1 0 0 0 1 0 [[unitBox]]).ori q) = 1 := fun _ => sq1_area
  have hn : unitNormal (sq1.a 0) (sq1.a 1) = up := by
    ext <;> simp [unitNormal, sq1, up, cross, dot]
  have hd : ∀ c, deadWork (ex1 0 0 0 1 0 [[unitBox]]) (const1 c) = 0 := by
    intro c
    simp only [deadWork, total, ha]
    simp [ex1, const1, up, dot]
  refine ⟨ex1 0 0 0 1 0 [[unitBox]], const1 0, const1 1, fun q _ => sq1_indep, hd 1, hd 0, ?_,
    fun r => ?_⟩
  · simp only [residual, hd, otherWork, intWork, total, ha]
    simp only [ex1, hn]
    cases f <;> simp [const1, up, dot]
  · cases f <;> cases wl <;> simp [totalError, estimate, Outcome.map, usesNeumann, ex1, const1,
      dot, neumann, integral, elemError, integrand, exprAt, up, dotV, loadSum, loadVal]

/-! ## C95 -/

/-- **C95** The element errors add up to the total estimate, plain or squared, which is also the error
reported by the element-wise computation, if no boundary tractions enter and every load lies in some
element. -/
theorem C95_sum_partial (sq : Bool) (f : Form) (wl : Bool) (D : Setup α β γ) (zL zH : Disc α β γ)
    (r r' : Result) (hn : D.bdr = [] ∨ sq = false ∧ f = .shell ∧ wl = false)
    (hl : wl = true → Located D ∧ Matching D) :
    BothOk (totalError sq f wl D zL zH r) (estimate .elements sq f wl D zL zH r')
      fun t s => s.errors.length = D.elems.length ∧ s.errors.sum = t ∧ s.error = t := by
  have ht : totalError sq f wl D zL zH r
      = .ok (integral sq f D zL zH + if wl then loadSum D zL zH else 0) := by
    rcases hn with h | ⟨rfl, rfl, rfl⟩
    · have e : neumann D zL zH = 0 := by simp [neumann, h]
      simp [totalError, estimate, Outcome.map, e]
    · simp [totalError, estimate, Outcome.map, usesNeumann]
  cases wl with
  | false =>
    exact ⟨_, _, ht, rfl, by simp, by simp [integral], by simp⟩
  | true =>
    obtain ⟨h1, h2⟩ := hl rfl
    obtain ⟨e', h3, h4, h5⟩ := spread_spec D zL zH D.loads (D.elems.map (elemError sq f D zL zH))
      (by rw [h2]; simp) h1
    refine ⟨_, ⟨integral sq f D zL zH + loadSum D zL zH, e'⟩, ht, ?_, by simpa using h4, ?_, by simp⟩
    · simp [estimate, Outcome.bind, h3]
    · show e'.sum = _
      rw [h5]; simp [integral, loadSum]

/-- Non-vacuity: a load on the only element. -/
example : BothOk (totalError false .linear true
      { ex1 2 3 5 0 0 [[unitBox]] with bdr := [] } (const1 0) (const1 1) ⟨0, []⟩)
    (estimate .elements false .linear true
      { ex1 2 3 5 0 0 [[unitBox]] with bdr := [] } (const1 0) (const1 1) ⟨0, []⟩)
    fun t s => s.errors.length = 1 ∧ s.errors.sum = t ∧ s.error = t :=
  C95_sum_partial false .linear true _ _ _ _ _ (Or.inl rfl) fun _ =>
    ⟨fun _ _ => ⟨_, List.mem_singleton.2 rfl, unitBox, List.mem_singleton.2 rfl, fun i => by
      constructor <;> norm_num [unitBox, ex1]⟩, rfl⟩

/-- **C95** Boundary tractions enter the total estimate but no element error, and not the error
reported by the element-wise computation. -/
theorem C95_neumann_violated (sq : Bool) (f : Form) :
    ∃ (D : Setup Unit Unit Unit) (zL zH : Disc Unit Unit Unit), Located D ∧ Matching D ∧
      ∀ r, totalError sq f true D zL zH r = .ok 1 ∧
        estimate .elements sq f true D zL zH r = .ok ⟨0, [0]⟩ := by
  have hf : found (fun _ => (1 / 2 : ℝ)) 0 [] [[unitBox]] = [0] := by
    have : unitBox.has (fun _ => (1 / 2 : ℝ)) := fun i => by constructor <;> norm_num [unitBox]
    simp only [found, hits, if_pos this]; rfl
  have hz : elemError sq f (ex1 0 1 0 0 0 [[unitBox]]) (const1 0) (const1 1) [()] = 0 := by
    cases f <;> cases sq <;> simp [ex1, const1, dot, elemError, integrand, exprAt, up, dotV]
  have hi : integral sq f (ex1 0 1 0 0 0 [[unitBox]]) (const1 0) (const1 1) = 0 := by
    simp only [integral]
    show (List.map _ [[()]]).sum = 0
    simp [hz]
  have hn : neumann (ex1 0 1 0 0 0 [[unitBox]]) (const1 0) (const1 1) = 1 := by
    simp [neumann, ex1, const1, up, dot]
  have hl : loadSum (ex1 0 1 0 0 0 [[unitBox]]) (const1 0) (const1 1) = 0 := by
    simp [loadSum, loadVal, ex1, const1, up, dot]
  refine ⟨ex1 0 1 0 0 0 [[unitBox]], const1 0, const1 1,
    fun _ _ => ⟨_, List.mem_singleton.2 rfl, unitBox, List.mem_singleton.2 rfl, fun i => by
      constructor <;> norm_num [unitBox, ex1]⟩, rfl, fun r => ⟨?_, ?_⟩⟩
  · cases f <;> simp [totalError, estimate, Outcome.map, usesNeumann, hi, hn, hl]
  · have hs : spread (ex1 0 1 0 0 0 [[unitBox]]) (const1 0) (const1 1) [()] [0] = .ok [0] := by
      simp only [spread]
      show Outcome.bind (addAll _ (found (fun _ => (1 / 2 : ℝ)) 0 [] [[unitBox]]) [0]) _ = _
      rw [show (ex1 0 1 0 0 0 [[unitBox]]).boxes = [[unitBox]] from rfl,
        show ((ex1 0 1 0 0 0 [[unitBox]]).load ()).pt = fun _ => (1 / 2 : ℝ) from rfl, hf]
      simp [addAll, Outcome.bind, loadVal, ex1, const1, up, dot]
    simp only [estimate, if_true, hi, hl, add_zero]
    show Outcome.bind (spread _ _ _ [()] (List.map _ [[()]])) _ = _
    simp only [List.map_cons, List.map_nil, hz, hs]
    rfl

/-! ## C96 -/

open Classical in
/-- **C96** A load whose parametric point lies in elements of its own patch only is shared equally by
those elements; all other elements keep their error.  Missing: points that also lie in an element of
another patch. -/
theorem C96_own_patch_partial (D : Setup α β γ) (zL zH : Disc α β γ) (k : γ) (e : List ℝ)
    (pre post : List (List Box)) (P : List Box) (hb : D.boxes = pre ++ P :: post)
    (hp : (D.load k).patch = pre.length) (he : D.boxes.flatten.length = e.length)
    (ho : ∀ Q ∈ pre ++ post, ∀ b ∈ Q, ¬ Covers b (D.load k).pt) (n : ℕ) (hn : 0 < n)
    (hc : P.countP (fun b => Covers b (D.load k).pt) = n) :
    ∃ e', spread D zL zH [k] e = .ok e' ∧ e'.length = e.length ∧
      ∀ j (hj : j < e.length) (hj' : j < e'.length),
        ((∃ i : Fin P.length, j = (D.boxes.take (D.load k).patch).flatten.length + i ∧
            Covers P[i] (D.load k).pt) →
          e'[j] = e[j] + dot (zH.l k - zL.l k) (D.load k).value / n) ∧
        ((¬ ∃ i : Fin P.length, j = (D.boxes.take (D.load k).patch).flatten.length + i ∧
            Covers P[i] (D.load k).pt) → e'[j] = e[j]) := by
  simp only [show ∀ (b : Box) x, Covers b x = b.has x from fun _ _ => rfl] at ho hc ⊢
  have htake : D.boxes.take (D.load k).patch = pre := by rw [hb, hp]; simp
  rw [htake]
  set x := (D.load k).pt with hx
  have ho1 : ∀ Q ∈ pre, ∀ b ∈ Q, ¬ b.has x := fun Q hQ => ho Q (List.mem_append_left _ hQ)
  have ho2 : ∀ Q ∈ post, ∀ b ∈ Q, ¬ b.has x := fun Q hQ => ho Q (List.mem_append_right _ hQ)
  have hf := found_own x pre post P 0 ho1 ho2
  rw [← hb, Nat.zero_add] at hf
  have hlen : (hits x pre.flatten.length P).length = n := by
    rw [hits_length, ← hc]
  obtain ⟨e', h1, h2, h3⟩ := addAll_spec (loadVal D zL zH k / (found x 0 [] D.boxes).length)
    (found x 0 [] D.boxes) e (fun j hj => by
      have := found_range x D.boxes 0 [] (by simp) j hj
      omega)
  refine ⟨e', by simp [spread, ← hx, h1, Outcome.bind], h2, fun j hj hj' => ⟨?_, ?_⟩⟩
  · rintro ⟨i, rfl, hi⟩
    rw [h3 _ hj hj', (hf _).1, (hf 0).2, hits_count x P pre.flatten.length i i.2, if_pos (show P[(i : ℕ)].has x from hi), hlen]
    have hn' : (n : ℝ) ≠ 0 := by exact_mod_cast hn.ne'
    have hq : ((post.length : ℝ) + 1) ≠ 0 := by positivity
    push_cast
    rw [loadVal]
    field_simp
  · intro hno
    rw [h3 _ hj hj', (hf _).1]
    have : (hits x pre.flatten.length P).count j = 0 := by
      rw [List.count_eq_zero]
      intro hmem
      have hr := hits_range x P pre.flatten.length j hmem
      have hi : j - pre.flatten.length < P.length := by omega
      refine hno ⟨⟨j - pre.flatten.length, hi⟩, by
        show j = pre.flatten.length + (j - pre.flatten.length); omega, ?_⟩
      have hcnt := hits_count x P pre.flatten.length (j - pre.flatten.length) hi
      rw [show pre.flatten.length + (j - pre.flatten.length) = j by omega] at hcnt
      by_contra hh
      rw [if_neg (show ¬ P[j - pre.flatten.length].has x from hh), List.count_eq_zero] at hcnt
      exact hcnt hmem
    rw [this]; simp

/-- Non-vacuity: a load on the second of two patches, outside the elements of the first. -/
example : ∃ e', spread (ex1 0 0 1 0 1 [[⟨fun _ => 2, fun _ => 3⟩], [unitBox]]) (const1 0) (const1 1)
    [()] [0, 0] = .ok e' ∧ e'.length = 2 ∧ ∃ h : 1 < e'.length, e'[1] = 1 := by
  classical
  obtain ⟨e', h1, h2, h3⟩ := C96_own_patch_partial
    (ex1 0 0 1 0 1 [[⟨fun _ => 2, fun _ => 3⟩], [unitBox]]) (const1 0) (const1 1) () [0, 0]
    [[⟨fun _ => 2, fun _ => 3⟩]] [] [unitBox] rfl rfl rfl (by
      intro Q hQ b hb h
      obtain rfl : Q = [⟨fun _ => 2, fun _ => 3⟩] := by simpa using hQ
      obtain rfl := List.mem_singleton.1 hb
      have := (h 0).1
      norm_num [ex1] at this) 1 one_pos (by
      have : Covers unitBox ((ex1 0 0 1 0 1 [[⟨fun _ => 2, fun _ => 3⟩], [unitBox]]).load ()).pt :=
        unitBox_mid
      simp [this])
  refine ⟨e', h1, h2, by rw [h2]; norm_num, ?_⟩
  rw [(h3 1 (by norm_num) (by rw [h2]; norm_num)).1 ⟨0, rfl, unitBox_mid⟩]
  simp [ex1, const1, up, dot]

/-- **C96** Two patches with one element each, a load on the second patch: the element of the first
patch gets two thirds of it. -/
theorem C96_violated :
    ∃ (D : Setup Unit Unit Unit) (zL zH : Disc Unit Unit Unit) (k : Unit),
      D.boxes = [[unitBox], [unitBox]] ∧ (D.load k).patch = 1 ∧
      dot (zH.l k - zL.l k) (D.load k).value = 1 ∧
      spread D zL zH [k] [0, 0] = .ok [2 / 3, 1 / 3] := by
  have hf : found (fun _ => (1 / 2 : ℝ)) 0 [] [[unitBox], [unitBox]] = [0, 0, 1] := by
    simp only [found, hits, if_pos unitBox_mid]; rfl
  refine ⟨ex1 0 0 1 0 1 [[unitBox], [unitBox]], const1 0, const1 1, (), rfl, rfl, ?_, ?_⟩
  · simp [ex1, const1, up, dot]
  · have hv : loadVal (ex1 0 0 1 0 1 [[unitBox], [unitBox]]) (const1 0) (const1 1) () = 1 := by
      simp [loadVal, ex1, const1, up, dot]
    simp only [spread, hv]
    rw [show (ex1 0 0 1 0 1 [[unitBox], [unitBox]]).boxes = [[unitBox], [unitBox]] from rfl,
        show ((ex1 0 0 1 0 1 [[unitBox], [unitBox]]).load ()).pt = fun _ => (1 / 2 : ℝ) from rfl, hf]
    simp [addAll, Outcome.bind]
    norm_num

/-! ## C97 -/

/-- **C97** With non-negative weights, squared errors are not negative, if neither tractions nor
loads enter. -/
theorem C97_nonneg_partial (f : Form) (wl : Bool) (D : Setup α β γ) (zL zH : Disc α β γ) (r : Result)
    (hw : ∀ q, 0 ≤ D.wt q) (hb : D.bdr = []) (hl : wl = true → D.loads = []) :
    BothOk (totalError true f wl D zL zH r) (listError .elements true f wl D zL zH r)
      fun t e => 0 ≤ t ∧ ∀ x ∈ e, 0 ≤ x := by
  have hel : ∀ e, 0 ≤ elemError true f D zL zH e := by
    intro e
    apply List.sum_nonneg
    intro x hx
    obtain ⟨q, -, rfl⟩ := List.mem_map.1 hx
    refine mul_nonneg (hw q) ?_
    simp only [integrand, if_true]
    exact mul_nonneg (sq_nonneg _) (Real.sqrt_nonneg _)
  have hi : 0 ≤ integral true f D zL zH := by
    apply List.sum_nonneg
    intro x hx
    obtain ⟨q, -, rfl⟩ := List.mem_map.1 hx
    exact hel q
  have e0 : neumann D zL zH = 0 := by simp [neumann, hb]
  refine ⟨integral true f D zL zH, D.elems.map (elemError true f D zL zH), ?_, ?_, hi, ?_⟩
  · cases wl with
    | false => simp [totalError, estimate, Outcome.map, e0]
    | true => simp [totalError, estimate, Outcome.map, e0, loadSum, hl rfl]
  · cases wl with
    | false => simp [listError, estimate, Outcome.map, Outcome.bind]
    | true => simp [listError, estimate, Outcome.map, Outcome.bind, hl rfl, spread]
  · intro x hx
    obtain ⟨q, -, rfl⟩ := List.mem_map.1 hx
    exact hel q

/-- Non-vacuity. -/
example : BothOk (totalError true .shell false { ex1 2 3 5 0 0 [[unitBox]] with bdr := [] }
      (const1 0) (const1 1) ⟨0, []⟩)
    (listError .elements true .shell false { ex1 2 3 5 0 0 [[unitBox]] with bdr := [] }
      (const1 0) (const1 1) ⟨0, []⟩) fun t e => 0 ≤ t ∧ ∀ x ∈ e, 0 ≤ x :=
  C97_nonneg_partial .shell false _ _ _ _ (fun _ => zero_le_one) rfl (fun h => by cases h)

/-- **C97** Tractions are added to the squared estimate without being squared: it can be negative,
also without `withLoads`. -/
theorem C97_neumann_violated (f : Form) :
    ∃ (D : Setup Unit Unit Unit) (zL zH : Disc Unit Unit Unit), (∀ q, 0 ≤ D.wt q) ∧
      ∀ r, totalError true f false D zL zH r = .ok (-1) := by
  refine ⟨ex1 0 (-1) 0 0 0 [[unitBox]], const1 0, const1 1, fun _ => zero_le_one, fun r => ?_⟩
  cases f <;> simp [totalError, estimate, Outcome.map, usesNeumann, ex1, const1,
    dot, neumann, integral, elemError, integrand, exprAt, up, dotV]

/-- **C97** The same for point loads, in the total and in the element errors. -/
theorem C97_loads_violated (f : Form) :
    ∃ (D : Setup Unit Unit Unit) (zL zH : Disc Unit Unit Unit), (∀ q, 0 ≤ D.wt q) ∧
      ∀ r, totalError true f true D zL zH r = .ok (-1) ∧
        listError .elements true f true D zL zH r = .ok [-1] := by
  have hf : found (fun _ => (1 / 2 : ℝ)) 0 [] [[unitBox]] = [0] := by
    simp only [found, hits, if_pos unitBox_mid]; rfl
  have hz : elemError true f (ex1 0 0 (-1) 0 0 [[unitBox]]) (const1 0) (const1 1) [()] = 0 := by
    cases f <;> simp [ex1, const1, dot, elemError, integrand, exprAt, up, dotV]
  have hi : integral true f (ex1 0 0 (-1) 0 0 [[unitBox]]) (const1 0) (const1 1) = 0 := by
    simp only [integral]
    show (List.map _ [[()]]).sum = 0
    simp [hz]
  have hn : neumann (ex1 0 0 (-1) 0 0 [[unitBox]]) (const1 0) (const1 1) = 0 := by
    simp [neumann, ex1, const1, up, dot]
  have hv : loadVal (ex1 0 0 (-1) 0 0 [[unitBox]]) (const1 0) (const1 1) () = -1 := by
    simp [loadVal, ex1, const1, up, dot]
  refine ⟨ex1 0 0 (-1) 0 0 [[unitBox]], const1 0, const1 1, fun _ => zero_le_one,
    fun r => ⟨?_, ?_⟩⟩
  · have hl : loadSum (ex1 0 0 (-1) 0 0 [[unitBox]]) (const1 0) (const1 1) = -1 := by
      show (List.map _ [()]).sum = -1
      simp [hv]
    cases f <;> simp [totalError, estimate, Outcome.map, usesNeumann, hi, hn, hl]
  · have hs : spread (ex1 0 0 (-1) 0 0 [[unitBox]]) (const1 0) (const1 1) [()] [0] = .ok [-1] := by
      simp only [spread, hv]
      rw [show (ex1 0 0 (-1) 0 0 [[unitBox]]).boxes = [[unitBox]] from rfl,
        show ((ex1 0 0 (-1) 0 0 [[unitBox]]).load ()).pt = fun _ => (1 / 2 : ℝ) from rfl, hf]
      simp [addAll, Outcome.bind]
    simp only [listError, estimate, if_true]
    show Outcome.map _ (Outcome.bind (spread _ _ _ [()] (List.map _ [[()]])) _) = _
    simp only [List.map_cons, List.map_nil, hz, hs]
    rfl

/-! ## C98 -/

/-- **C98** Total and element-wise estimates do not depend on what was computed before. -/
theorem C98_history_partial (sq : Bool) (f : Form) (wl : Bool) (D : Setup α β γ) (zL zH : Disc α β γ)
    (r r' : Result) :
    totalError sq f wl D zL zH r = totalError sq f wl D zL zH r' ∧
      listError .elements sq f wl D zL zH r = listError .elements sq f wl D zL zH r' :=
  ⟨rfl, rfl⟩

/-- **C98** The function-wise errors, and the error reported with them, are those of the last
element-wise computation (or the initial ones): they depend on earlier calls, have the wrong number,
and after a computation with another dual do not add up to the estimate. -/
theorem C98_dofs_violated (sq : Bool) :
    ∃ (D : Setup Unit Unit Unit) (zL zH zH' : Disc Unit Unit Unit) (r1 : Result),
      estimate .elements sq .linear false D zL zH' ⟨0, []⟩ = .ok r1 ∧
      totalError sq .linear false D zL zH ⟨0, []⟩ = .ok 1 ∧
      estimate .dofs sq .linear false D zL zH ⟨0, []⟩ = .ok ⟨0, []⟩ ∧
      estimate .dofs sq .linear false D zL zH r1
        = .ok ⟨if sq then 4 else 2, [if sq then 4 else 2]⟩ := by
  have hm : ∀ q, Variation.measure ((ex1 1 0 0 0 0 [[unitBox]]).ori q) = 1 := fun _ => sq1_measure
  have hz : ∀ c : ℝ, elemError sq .linear (ex1 1 0 0 0 0 [[unitBox]]) (const1 0) (const1 c) [()]
      = if sq then c ^ 2 else c := by
    intro c
    simp only [elemError, integrand, hm]
    cases sq <;> simp [ex1, const1, dot, exprAt, up]
  refine ⟨ex1 1 0 0 0 0 [[unitBox]], const1 0, const1 1, const1 2,
    ⟨if sq then 4 else 2, [if sq then 4 else 2]⟩, ?_, ?_, rfl, rfl⟩
  · simp only [estimate]
    show Outcome.bind (.ok (List.map _ [[()]])) _ = _
    have hi : integral sq .linear (ex1 1 0 0 0 0 [[unitBox]]) (const1 0) (const1 2)
        = if sq then 4 else 2 := by
      simp only [integral]
      show (List.map _ [[()]]).sum = _
      rw [List.map_singleton, hz]
      cases sq <;> norm_num
    simp only [List.map_cons, List.map_nil, hz, hi, Outcome.bind]
    cases sq <;> norm_num
  · have hi : integral sq .linear (ex1 1 0 0 0 0 [[unitBox]]) (const1 0) (const1 1) = 1 := by
      simp only [integral]
      show (List.map _ [[()]]).sum = _
      rw [List.map_singleton, hz]
      cases sq <;> norm_num
    have hn : neumann (ex1 1 0 0 0 0 [[unitBox]]) (const1 0) (const1 1) = 0 := by
      simp [neumann, ex1, const1, up, dot]
    simp [totalError, estimate, Outcome.map, hi, hn]

end Verif.DWR
