import Verif.Lemmas.Solution
import Verif.Props.StrainVariation
import Mathlib.Tactic.NormNum
import Mathlib.Tactic.Linarith

/-! # Properties C76-C78: solution vector, deformed geometry, boundary forces -/

set_option linter.unusedSimpArgs false

namespace Verif.Solution

/-! ## C76 -/

/-- **C76** For every complete numbering the displacement of a solution vector has the entries of
the vector at the free functions and the Dirichlet data at the eliminated ones. -/
theorem C76_field (m : Mapper) (d : ℕ) (ddofs sol : List ℝ) (h : Complete m d ddofs sol.length) :
    ∃ u, constructDisplacement m d ddofs sol = .ok u ∧ u.n = m.nPatches ∧
      (∀ p c k, IsDof m d p c k → m.glob p c k < m.freeSize →
        sol[m.glob p c k]? = some (u.coef p c k)) ∧
      (∀ p c k, IsDof m d p c k → m.freeSize ≤ m.glob p c k →
        ddofs[m.glob p c k - m.freeSize]? = some (u.coef p c k)) := by
  obtain ⟨f, hf, hv⟩ := displacement_ok m d ddofs sol h
  refine ⟨_, hf, rfl, fun p c k hd hg => ?_, fun p c k hd hg => ?_⟩
  · have hl : m.glob p c k < sol.length := by rw [h.length]; exact hg
    change _ = some (f p c k)
    rw [hv p c k hd]
    unfold valueOf
    rw [if_pos hg, List.getElem?_eq_getElem hl]; rfl
  · have hb := h.bound p c k hd
    have hl : m.glob p c k - m.freeSize < ddofs.length := by omega
    change _ = some (f p c k)
    rw [hv p c k hd]
    unfold valueOf
    rw [if_neg (by omega), List.getElem?_eq_getElem hl]; rfl

/-- **C76** Extracting the solution vector from its displacement field returns the vector. -/
theorem C76_roundtrip (m : Mapper) (d : ℕ) (ddofs sol : List ℝ)
    (h : Complete m d ddofs sol.length) :
    ∃ u r, constructDisplacement m d ddofs sol = .ok u ∧ constructSolutionVector m d u = .ok r ∧
      ∀ g, g < m.freeSize → r g = sol[g]? := by
  obtain ⟨f, hf, hv⟩ := displacement_ok m d ddofs sol h
  obtain ⟨r, hr, hr2⟩ := collect_ok m ⟨m.nPatches, fun p => m.size p 0, f⟩ (valueOf m ddofs sol)
    (triples m m.nPatches d)
    (fun t ht => by
      obtain ⟨_, h2, h3⟩ := (mem_triples m _ d t.1 t.2.1 t.2.2).1 ht
      rw [h.same t.1 t.2.1 h2] at h3; exact h3)
    (fun t ht _ => hv t.1 t.2.1 t.2.2 ((mem_triples m _ d t.1 t.2.1 t.2.2).1 ht)) (fun _ => none)
  refine ⟨_, r, hf, hr, fun g hg => ?_⟩
  obtain ⟨p, c, k, hd, e⟩ := h.onto g hg
  rw [hr2 g hg ⟨(p, c, k), (mem_triples m _ d p c k).2 hd, e⟩]
  have hl : g < sol.length := by rw [h.length]; exact hg
  unfold valueOf
  rw [if_pos hg, List.getElem?_eq_getElem hl]; rfl

/-- **C76** Conversely, every field that respects the numbering is the displacement field of the
solution vector extracted from it. -/
theorem C76_inverse (m : Mapper) (d : ℕ) (ddofs : List ℝ) (u : Field)
    (h : Complete m d ddofs m.freeSize) (hu : Respects m d ddofs u) :
    ∃ r, constructSolutionVector m d ⟨m.nPatches, fun p => m.size p 0, u⟩ = .ok r ∧
      ∀ sol : List ℝ, sol.length = m.freeSize → (∀ g, g < m.freeSize → sol[g]? = r g) →
        ∃ u', constructDisplacement m d ddofs sol = .ok u' ∧
          ∀ p c k, IsDof m d p c k → u'.coef p c k = u p c k := by
  classical
  let v : ℕ → ℝ := fun g => if hg : ∃ p c k, IsDof m d p c k ∧ m.glob p c k = g then
    u hg.choose hg.choose_spec.choose hg.choose_spec.choose_spec.choose else 0
  have hv : ∀ p c k, IsDof m d p c k → v (m.glob p c k) = u p c k := by
    intro p c k hd
    have hg : ∃ p' c' k', IsDof m d p' c' k' ∧ m.glob p' c' k' = m.glob p c k := ⟨p, c, k, hd, rfl⟩
    have hs := hg.choose_spec.choose_spec.choose_spec
    simp only [v]
    rw [dif_pos hg]
    exact hu.1 _ _ _ _ _ _ hs.1 hd hs.2
  obtain ⟨r, hr, hr2⟩ := collect_ok m ⟨m.nPatches, fun p => m.size p 0, u⟩ v
    (triples m m.nPatches d)
    (fun t ht => by
      obtain ⟨_, h2, h3⟩ := (mem_triples m _ d t.1 t.2.1 t.2.2).1 ht
      rw [h.same t.1 t.2.1 h2] at h3; exact h3)
    (fun t ht _ => (hv t.1 t.2.1 t.2.2 ((mem_triples m _ d t.1 t.2.1 t.2.2).1 ht)).symm)
    (fun _ => none)
  refine ⟨r, hr, fun sol hl hs => ?_⟩
  obtain ⟨u', hu', _, h1, h2⟩ := C76_field m d ddofs sol (hl ▸ h)
  refine ⟨u', hu', fun p c k hd => ?_⟩
  by_cases hg : m.glob p c k < m.freeSize
  · have e := h1 p c k hd hg
    rw [hs _ hg, hr2 _ hg ⟨(p, c, k), (mem_triples m _ d p c k).2 hd, rfl⟩, hv p c k hd] at e
    exact (Option.some.inj e).symm
  · have e := h2 p c k hd (by omega)
    rw [hu.2 p c k hd (by omega)] at e
    exact (Option.some.inj e).symm

/-- **C76** The deformed geometry is the undeformed geometry plus the displacement, if the geometry
has as many coefficients as the solution space. -/
theorem C76_geometry_partial (m : Mapper) (d : ℕ) (ddofs sol : List ℝ)
    (h : Complete m d ddofs sol.length) (mp : MultiPatch) (hn : mp.n = m.nPatches)
    (hr : ∀ p, p < m.nPatches → mp.rows p = m.size p 0) :
    ∃ u w, constructDisplacement m d ddofs sol = .ok u ∧ constructSolution m d ddofs mp sol = .ok w ∧
      w.n = mp.n ∧ ∀ p c k, p < mp.n → w.coef p c k = mp.coef p c k + u.coef p c k := by
  obtain ⟨f, hf, -⟩ := displacement_ok m d ddofs sol h
  refine ⟨_, ⟨mp.n, mp.rows, fun p c k => if p < m.nPatches then mp.coef p c k + f p c k
    else mp.coef p c k⟩, hf, ?_, rfl, fun p c k hp => ?_⟩
  · unfold constructSolution constructSolutionFrom
    rw [hf]
    change addCoefs mp _ = _
    unfold addCoefs
    rw [if_pos (fun p hp => ⟨hn ▸ hp, hr p hp⟩)]
  · rw [hn] at hp
    change (if p < m.nPatches then _ else _) = _
    rw [if_pos hp]

/-- A patch with three functions per component, 3 components, the first function fixed in every
component and the last two coupled. -/
def sampleMapper : Mapper := ⟨1, fun _ _ => 3, fun _ c k => if k = 0 then 3 + c else c, 3⟩

/-- Non-vacuity of `C76_field`, `C76_roundtrip`, `C76_inverse` and `C76_geometry_partial`: a complete
numbering with coupled and eliminated functions, and a field that respects it. -/
example : Complete sampleMapper 3 [5, 6, 7] 3 ∧
    Respects sampleMapper 3 [5, 6, 7] (fun _ c k => if k = 0 then 5 + (c : ℝ) else c) := by
  have hs : ∀ p c k, IsDof sampleMapper 3 p c k ↔ p < 1 ∧ c < 3 ∧ k < 3 := fun _ _ _ => Iff.rfl
  refine ⟨⟨rfl, fun g hg => ?_, fun p c k hd => ?_, fun p c _ => rfl⟩, ?_, ?_⟩
  · exact ⟨0, g, 1, (hs _ _ _).2 ⟨by omega, hg, by omega⟩, rfl⟩
  · have := (hs _ _ _).1 hd
    change (if k = 0 then 3 + c else c) < 3 + 3
    split_ifs <;> omega
  · intro p c k p' c' k' hd hd' e
    have h1 := (hs _ _ _).1 hd
    have h2 := (hs _ _ _).1 hd'
    change (if k = 0 then 3 + c else c) = (if k' = 0 then 3 + c' else c') at e
    split_ifs at e with a b b
    · have : c = c' := by omega
      simp [a, b, this]
    · omega
    · omega
    · simp [a, b, e]
  · intro p c k hd hg
    have h1 := (hs _ _ _).1 hd
    change 3 ≤ (if k = 0 then 3 + c else c) at hg
    split_ifs at hg with a
    · have e : sampleMapper.glob p c k - sampleMapper.freeSize = c := by
        change (if k = 0 then 3 + c else c) - 3 = c
        rw [if_pos a]; omega
      rw [e]
      obtain ⟨-, hc, -⟩ := h1
      have : c = 0 ∨ c = 1 ∨ c = 2 := by omega
      rcases this with rfl | rfl | rfl <;> simp [a] <;> norm_num
    · omega

/-- **C76** is violated for geometries on another basis than the solution: the coefficient matrices
have different sizes, which only an assertion checks. -/
theorem C76_basis_violated (m : Mapper) (d : ℕ) (ddofs sol : List ℝ)
    (h : Complete m d ddofs sol.length) (mp : MultiPatch) (p : ℕ) (hp : p < m.nPatches)
    (hr : mp.rows p ≠ m.size p 0) : constructSolution m d ddofs mp sol = .ub := by
  obtain ⟨f, hf, -⟩ := displacement_ok m d ddofs sol h
  unfold constructSolution constructSolutionFrom
  rw [hf]
  change addCoefs mp _ = _
  unfold addCoefs
  rw [if_neg (fun hh => hr (hh p hp).2)]

/-- **C76** (partial: mapped bases, one patch, nothing eliminated or coupled) The vector extracted
from the displacement field contains the local coefficients, i.e. the image of the solution under
the map from global to local coefficients, instead of the solution. -/
theorem C76_mapped_partial (m : Mapper) (b : Mapped) (d : ℕ) (sol : List ℝ) (h1 : m.nPatches = 1)
    (hs : ∀ c, m.size 0 c = b.nGlobal) (hl : sol.length = m.freeSize)
    (hb : ∀ c k, c < d → k < b.nGlobal → m.glob 0 c k < m.freeSize)
    (hinj : ∀ c k c' k', c < d → k < b.nGlobal → c' < d → k' < b.nGlobal →
      m.glob 0 c k = m.glob 0 c' k' → c = c' ∧ k = k')
    (hrows : b.nGlobal ≤ b.rows 0) :
    ∃ u r, constructMapped m b d [] sol = .ok u ∧ constructSolutionVector m d u = .ok r ∧
      ∀ c k, c < d → k < b.nGlobal → r (m.glob 0 c k)
        = some (∑ i ∈ Finset.range b.nGlobal, b.W 0 k i * (sol[m.glob 0 c i]?).getD 0) := by
  have hmem : ∀ t ∈ triples m m.nPatches d, t.1 = 0 ∧ t.2.1 < d ∧ t.2.2 < b.nGlobal := by
    intro t ht
    obtain ⟨a1, a2, a3⟩ := (mem_triples m _ d t.1 t.2.1 t.2.2).1 ht
    have e : t.1 = 0 := by omega
    rw [e, hs] at a3
    exact ⟨e, a2, a3⟩
  obtain ⟨f, hf, hv⟩ := fill_ok m [] sol (valueOf m [] sol) (triples m m.nPatches d)
    (fun t ht => by
      obtain ⟨e, a2, a3⟩ := hmem t ht
      refine dofValue_ok m [] sol _ hl ?_
      rw [e]; exact Nat.lt_add_right _ (hb _ _ a2 a3)) (fun _ _ _ => 0)
  have hfind : ∀ i c, i < b.nGlobal →
      (List.range m.nPatches).reverse.find? (fun q => decide (i < m.size q c)) = some 0 := by
    intro i c hi
    rw [h1]
    have : decide (i < m.size 0 c) = true := by rw [hs]; exact decide_eq_true hi
    simp [List.range_succ, this]
  let u : MultiPatch := ⟨m.nPatches, b.rows, fun p c k =>
      ∑ i ∈ Finset.range b.nGlobal, b.W p k i *
        (match (List.range m.nPatches).reverse.find? (fun q => i < m.size q c) with
          | some q => f q c i
          | none => 0)⟩
  have hu : ∀ c k, c < d → u.coef 0 c k
      = ∑ i ∈ Finset.range b.nGlobal, b.W 0 k i * (sol[m.glob 0 c i]?).getD 0 := by
    intro c k hc
    simp only [u]
    refine Finset.sum_congr rfl (fun i hi => ?_)
    have hi' := Finset.mem_range.1 hi
    beta_reduce
    rw [hfind i c hi']
    have hm : (0, c, i) ∈ triples m m.nPatches d :=
      (mem_triples m _ d 0 c i).2 ⟨by omega, hc, by rw [hs]; exact hi'⟩
    change _ * f 0 c i = _
    rw [hv, if_pos hm]
    unfold valueOf
    rw [if_pos (hb c i hc hi')]
  classical
  let v : ℕ → ℝ := fun g => if hg : ∃ c k, c < d ∧ k < b.nGlobal ∧ m.glob 0 c k = g then
    u.coef 0 hg.choose hg.choose_spec.choose else 0
  have hvv : ∀ c k, c < d → k < b.nGlobal → v (m.glob 0 c k) = u.coef 0 c k := by
    intro c k hc hk
    have hg : ∃ c' k', c' < d ∧ k' < b.nGlobal ∧ m.glob 0 c' k' = m.glob 0 c k :=
      ⟨c, k, hc, hk, rfl⟩
    have hsp := hg.choose_spec.choose_spec
    simp only [v]
    rw [dif_pos hg]
    obtain ⟨e1, e2⟩ := hinj _ _ _ _ hsp.1 hsp.2.1 hc hk hsp.2.2
    rw [e2]
    exact congrFun (congrArg (u.coef 0) e1) k
  obtain ⟨r, hr, hr2⟩ := collect_ok m u v (triples m u.n d)
    (fun t ht => by
      obtain ⟨e, _, a3⟩ := hmem t ht
      rw [e]; exact lt_of_lt_of_le a3 hrows)
    (fun t ht _ => by
      obtain ⟨e, a2, a3⟩ := hmem t ht
      rw [e]; exact (hvv _ _ a2 a3).symm) (fun _ => none)
  refine ⟨u, r, ?_, hr, fun c k hc hk => ?_⟩
  · unfold constructMapped
    rw [if_neg, hf]
    · rfl
    · rintro ⟨t, ht, hle⟩
      exact absurd (hmem t ht).2.2 (not_lt.2 hle)
  · rw [hr2 _ (hb c k hc hk) ⟨(0, c, k), (mem_triples m _ d 0 c k).2
      ⟨by change 0 < m.nPatches; omega, hc, by rw [hs]; exact hk⟩, rfl⟩, hvv c k hc hk, hu c k hc]

/-- A mapped basis of two global functions on three local ones: the middle local coefficient is the
mean. -/
noncomputable def meanBasis : Mapped := ⟨2, fun _ => 3, fun _ k i =>
  if k = 0 then (if i = 0 then 1 else 0) else if k = 1 then 1 / 2 else (if i = 1 then 1 else 0)⟩

/-- Its mapper with two components, nothing eliminated. -/
def meanMapper : Mapper := ⟨1, fun _ _ => 2, fun _ c k => 2 * c + k, 4⟩

/-- **C76** is violated for mapped bases: the round trip of the vector (0, 2, 0, 0) gives 1 instead
of 2 at the second entry. -/
theorem C76_mapped_violated : ∃ (m : Mapper) (b : Mapped) (sol : List ℝ) (u : MultiPatch)
    (r : ℕ → Option ℝ), sol.length = m.freeSize ∧ constructMapped m b 2 [] sol = .ok u ∧
    constructSolutionVector m 2 u = .ok r ∧ r 1 = some 1 ∧ sol[1]? = some 2 := by
  obtain ⟨u, r, hu, hr, h⟩ := C76_mapped_partial meanMapper meanBasis 2 [0, 2, 0, 0] rfl
    (fun _ => rfl) rfl
    (fun c k hc hk => by
      change k < 2 at hk
      change 2 * c + k < 4; omega)
    (fun c k c' k' hc hk hc' hk' e => by
      change k < 2 at hk
      change k' < 2 at hk'
      change 2 * c + k = 2 * c' + k' at e
      omega)
    (by change 2 ≤ 3; omega)
  refine ⟨_, _, _, u, r, rfl, hu, hr, ?_, rfl⟩
  have := h 0 1 (by omega) (by change 1 < 2; omega)
  change r 1 = _ at this
  rw [this]
  simp [meanBasis, meanMapper, Finset.sum_range_succ]

/-- **C76** is violated for mapped bases: if a patch has fewer local coefficients than the mapper
has functions, the extraction reads outside the coefficient matrix. -/
theorem C76_mapped_ub_violated : ∃ (m : Mapper) (u : MultiPatch), u.n = m.nPatches ∧
    (∀ p, p < u.n → 0 < u.rows p) ∧ constructSolutionVector m 1 u = .ub := by
  refine ⟨⟨2, fun p _ => if p = 1 then 3 else 0, fun _ _ k => k, 3⟩, ⟨2, fun _ => 2, fun _ _ _ => 0⟩,
    rfl, fun _ _ => by norm_num, ?_⟩
  simp [constructSolutionVector, triples, collect, List.range_succ]

/-! ## C77 -/

/-- **C77** (partial: the geometry passed in has the coefficients of the undeformed one) The result
is the geometry passed in plus the displacement. -/
theorem C77_partial (m : Mapper) (d : ℕ) (ddofs sol : List ℝ)
    (h : Complete m d ddofs sol.length) (patches mp : MultiPatch) (hn : patches.n = m.nPatches)
    (hr : ∀ p, p < m.nPatches → patches.rows p = m.size p 0) (he : mp = patches) :
    ∃ u w, constructDisplacement m d ddofs sol = .ok u ∧
      updateMultiPatch m d ddofs patches sol mp = .ok w ∧
      ∀ p c k, p < mp.n → w.coef p c k = mp.coef p c k + u.coef p c k := by
  subst he
  obtain ⟨u, w, h1, h2, _, h3⟩ := C76_geometry_partial m d ddofs sol h mp hn hr
  exact ⟨u, w, h1, h2, h3⟩

/-- **C77** is violated: the geometry passed in is ignored. For every other geometry the result
differs from that geometry plus the displacement, at every coefficient that differs from the
undeformed one. -/
theorem C77_violated (m : Mapper) (d : ℕ) (ddofs sol : List ℝ)
    (h : Complete m d ddofs sol.length) (patches mp : MultiPatch) (hn : patches.n = m.nPatches)
    (hr : ∀ p, p < m.nPatches → patches.rows p = m.size p 0) (p c k : ℕ) (hp : p < m.nPatches)
    (hne : mp.coef p c k ≠ patches.coef p c k) :
    ∃ u w, constructDisplacement m d ddofs sol = .ok u ∧
      updateMultiPatch m d ddofs patches sol mp = .ok w ∧
      w.coef p c k ≠ mp.coef p c k + u.coef p c k := by
  obtain ⟨u, w, h1, h2, _, h3⟩ := C76_geometry_partial m d ddofs sol h patches hn hr
  refine ⟨u, w, h1, h2, fun e => hne ?_⟩
  rw [h3 p c k (hn ▸ hp)] at e
  linarith

/-- Non-vacuity of `C77_violated`: a deformed geometry. -/
example : (⟨1, fun _ => 3, fun _ _ _ => 1⟩ : MultiPatch).coef 0 0 0
    ≠ (⟨1, fun _ => 3, fun _ _ _ => 0⟩ : MultiPatch).coef 0 0 0 := by norm_num

/-! ## C78 -/

/-- **C78** The force is the sum of the nodal forces over the union of the functions on the sides:
every function counts once. -/
theorem C78_union (glob : ℕ → ℕ → ℕ → ℕ) (rhs : ℕ → ℝ) (sides : List Side) (c : ℕ) (S : Finset ℕ)
    (hS : ∀ g, g ∈ S ↔ OnSides glob c sides g) :
    boundaryForce glob rhs sides c = ∑ g ∈ S, rhs g := by
  unfold boundaryForce
  refine Finset.sum_congr (Finset.ext fun g => ?_) (fun _ _ => rfl)
  rw [mem_indices, hS]

/-- **C78** Order and repetition of sides do not matter. -/
theorem C78_order (glob : ℕ → ℕ → ℕ → ℕ) (rhs : ℕ → ℝ) (l l' : List Side) (c : ℕ)
    (h : ∀ s, s ∈ l ↔ s ∈ l') : boundaryForce glob rhs l c = boundaryForce glob rhs l' c := by
  refine C78_union glob rhs l c _ (fun g => ?_)
  rw [mem_indices]
  unfold OnSides
  simp only [h]

/-- **C78** Corner functions are counted once: the force over two lists of sides is the sum of the
forces minus the force of the shared functions. -/
theorem C78_overlap (glob : ℕ → ℕ → ℕ → ℕ) (rhs : ℕ → ℝ) (l l' : List Side) (c : ℕ) :
    boundaryForce glob rhs (l ++ l') c + ∑ g ∈ indices glob c l ∩ indices glob c l', rhs g
      = boundaryForce glob rhs l c + boundaryForce glob rhs l' c := by
  have e : boundaryForce glob rhs (l ++ l') c
      = ∑ g ∈ indices glob c l ∪ indices glob c l', rhs g := by
    refine C78_union glob rhs _ c _ (fun g => ?_)
    rw [Finset.mem_union, mem_indices, mem_indices]
    unfold OnSides
    simp only [List.mem_append, or_and_right, exists_or]
  rw [e]
  exact Finset.sum_union_inter

/-- **C78** Sides without common functions add up. -/
theorem C78_disjoint (glob : ℕ → ℕ → ℕ → ℕ) (rhs : ℕ → ℝ) (l l' : List Side) (c : ℕ)
    (h : ∀ g, OnSides glob c l g → ¬ OnSides glob c l' g) :
    boundaryForce glob rhs (l ++ l') c
      = boundaryForce glob rhs l c + boundaryForce glob rhs l' c := by
  rw [← C78_overlap]
  have : indices glob c l ∩ indices glob c l' = ∅ := by
    refine Finset.eq_empty_of_forall_notMem (fun g hg => ?_)
    rw [Finset.mem_inter, mem_indices, mem_indices] at hg
    exact h g hg.1 hg.2
  rw [this, Finset.sum_empty, add_zero]

/-- **C78** Balance: if the interior nodal forces vanish and the basis functions sum to a constant,
the force over all sides together is zero, in each component, for every deformed surface, stress and
quadrature rule. -/
theorem C78_balance {ι : Type} (Q : Finset ι) (wt μ : ι → ℝ) (s : ι → Geometry.Surf)
    (N M : ι → Voigt) (c : Fin 3) (gr : ℕ → ι → Fin 2 → ℝ) (he : ℕ → ι → Voigt)
    (glob : ℕ → ℕ → ℕ → ℕ) (sides : List Side) (G : Finset ℕ)
    (hG : ∀ g, OnSides glob c sides g → g ∈ G)
    (hint : ∀ g ∈ G, ¬ OnSides glob c sides g →
      forceVector Q wt μ s N M (fun g q => Variation.basisField c (gr g q) (he g q)) g = 0)
    (h1 : ∀ q ∈ Q, ∀ i, ∑ g ∈ G, gr g q i = 0) (h2 : ∀ q ∈ Q, ∀ k, ∑ g ∈ G, he g q k = 0) :
    boundaryForce glob (forceVector Q wt μ s N M
      (fun g q => Variation.basisField c (gr g q) (he g q))) sides c = 0 := by
  have e : ∑ g ∈ G, forceVector Q wt μ s N M
      (fun g q => Variation.basisField c (gr g q) (he g q)) g = 0 := by
    unfold forceVector
    rw [Finset.sum_comm]
    refine Finset.sum_eq_zero (fun q hq => ?_)
    rw [← Finset.mul_sum, ← Finset.sum_mul,
      internalForce_sum (s q) (N q) (M q) c G (fun g => gr g q) (fun g => he g q) (h1 q hq) (h2 q hq)]
    ring
  rw [← e]
  unfold boundaryForce
  refine Finset.sum_subset (fun g hg => hG g ((mem_indices _ _ _ _).1 hg)) (fun g hg hn => ?_)
  exact hint g hg (fun hs => hn ((mem_indices _ _ _ _).2 hs))

/-- **C78** Sign: every nodal force is minus the derivative of the stored energy when the control
point moves, for every stored energy with the resultants `N`, `M`. -/
theorem C78_energy {ι : Type} [Fintype ι] (wt : ι → ℝ) (ori s : ι → Geometry.Surf)
    (h : ∀ q, Geometry.Indep ((s q).a 0) ((s q).a 1))
    (ψ : ι → (Fin 3 → ℝ) × (Fin 3 → ℝ) → ℝ)
    (L : ι → ((Fin 3 → ℝ) × (Fin 3 → ℝ)) →L[ℝ] ℝ) (N M : ι → Voigt)
    (hψ : ∀ q, HasFDerivAt (ψ q) (L q)
      (Variation.voigtMembrane (ori q) (s q), Variation.voigtBending (ori q) (s q)))
    (hL : ∀ q e k, L q (e, k) = ∑ i, (N q i * e i + M q i * k i)) (φ : ℕ → ι → Geometry.Surf)
    (g : ℕ) :
    HasDerivAt (fun t => ∑ q, wt q * ψ q
        (Variation.voigtMembrane (ori q) (Variation.shift (s q) (φ g q) t),
          Variation.voigtBending (ori q) (Variation.shift (s q) (φ g q) t)))
      (-forceVector Finset.univ wt (fun _ => 1) s N M φ g) 0 := by
  refine (Variation.C66_force wt ori s (φ g) h ψ L N M hψ hL).congr_deriv ?_
  unfold forceVector
  simp only [mul_one]

/-- Two sides of a patch with four functions sharing the corner function 0. -/
example : boundaryForce (fun _ _ k => k) (fun g => (g : ℝ) + 1) [⟨0, [0, 1]⟩, ⟨0, [0, 2]⟩] 0 = 6 := by
  rw [C78_union _ _ _ _ {0, 1, 2} (fun g => by
    simp only [Finset.mem_insert, Finset.mem_singleton, OnSides, List.mem_cons, List.not_mem_nil,
      or_false, exists_eq_or_imp, exists_eq_left]
    omega)]
  norm_num

/-- Non-vacuity of `C78_disjoint` and of the hypotheses of `C78_balance`: opposite sides; two
functions whose derivatives cancel. -/
example : (∀ g, OnSides (fun _ _ k => k) 0 [⟨0, [0, 1]⟩] g → ¬ OnSides (fun _ _ k => k) 0
    [⟨0, [2, 3]⟩] g) ∧ ∑ g ∈ ({0, 1} : Finset ℕ), (if g = 0 then (2 : ℝ) else -2) = 0 := by
  refine ⟨fun g h1 h2 => ?_, by norm_num⟩
  simp only [OnSides, List.mem_cons, List.not_mem_nil, or_false, exists_eq_or_imp,
    exists_eq_left] at h1 h2
  omega

end Verif.Solution
