import Verif.Lemmas.Loads
import Mathlib.Algebra.BigOperators.Group.Finset.Piecewise
import Mathlib.Tactic.NormNum

/-! # Properties C79, C82: point loads and point masses -/

namespace Verif.Loads

variable {P : Type}

/-- Example data: one patch, two functions with the values 1/4 and 3/4, two components, all four
degrees of freedom free. -/
def exMapper : Mapper := ⟨fun _ j i => 2 * j + i, 4⟩
/-- See `exMapper`. -/
noncomputable def exSpace : Space Unit := ⟨fun _ _ => [(0, 1 / 4), (1, 3 / 4)], true, fun _ p => p⟩
/-- See `exMapper`. -/
noncomputable def exLoad : PointLoad Unit := ⟨0, (), true, [5, 7]⟩

/-! ## C79 -/

/-- **C79** Every entry of the vector grows by the sum of the nodal forces of the loads: basis
value times load value on free degrees of freedom. -/
theorem C79_exact (d : ℕ) (m : Mapper) (S : Space P) (hS : S.understood = true)
    (ls : List (PointLoad P)) (hl : ∀ l ∈ ls, d ≤ l.value.length) (r : Vec) :
    applyLoads d m S ls r = .ok (fun g => r g + nodalAll d m S ls g) :=
  applyLoads_eq d m S hS ls hl r

/-- **C79** The contribution of a list is the sum of the contributions of its parts. -/
theorem C79_additive (d : ℕ) (m : Mapper) (S : Space P) (hS : S.understood = true)
    (l1 l2 : List (PointLoad P)) (hl : ∀ l ∈ l1 ++ l2, d ≤ l.value.length) (r : Vec) :
    ∃ v1 v2 : Vec, applyLoads d m S l1 (fun _ => 0) = .ok v1 ∧
      applyLoads d m S l2 (fun _ => 0) = .ok v2 ∧
      applyLoads d m S (l1 ++ l2) r = .ok (fun g => r g + v1 g + v2 g) := by
  refine ⟨_, _, applyLoads_eq d m S hS l1 (fun l h => hl l (by simp [h])) _,
    applyLoads_eq d m S hS l2 (fun l h => hl l (by simp [h])) _, ?_⟩
  rw [applyLoads_eq d m S hS _ hl]
  congr 1
  funext g
  simp [nodalAll]; ring

/-- **C79** The order of the loads does not matter. -/
theorem C79_order (d : ℕ) (m : Mapper) (S : Space P) (hS : S.understood = true)
    (l1 l2 : List (PointLoad P)) (hp : l1.Perm l2) (hl : ∀ l ∈ l1, d ≤ l.value.length) (r : Vec) :
    applyLoads d m S l1 r = applyLoads d m S l2 r := by
  rw [applyLoads_eq d m S hS l1 hl, applyLoads_eq d m S hS l2 (fun l h => hl l (hp.mem_iff.2 h))]
  congr 1
  funext g
  unfold nodalAll
  rw [(hp.map (fun l => nodal d m S l g)).sum_eq]

/-- **C79** Eliminated degrees of freedom receive nothing. -/
theorem C79_eliminated (d : ℕ) (m : Mapper) (S : Space P) (hS : S.understood = true)
    (ls : List (PointLoad P)) (hl : ∀ l ∈ ls, d ≤ l.value.length) (r : Vec) (g : ℕ)
    (hg : m.freeSize ≤ g) :
    ∃ v : Vec, applyLoads d m S ls r = .ok v ∧ v g = r g := by
  refine ⟨_, applyLoads_eq d m S hS ls hl r, ?_⟩
  have hs : ∀ (p j : ℕ) (acts : List (ℕ × ℝ)), shape m p j acts g = 0 := by
    intro p j acts
    unfold shape
    apply List.sum_eq_zero
    intro x hx
    obtain ⟨a, _, rfl⟩ := List.mem_map.1 hx
    rw [if_neg (fun h => absurd h.2 (by omega))]
  have : nodalAll d m S ls g = 0 := by
    unfold nodalAll
    apply List.sum_eq_zero
    intro x hx
    obtain ⟨l, _, rfl⟩ := List.mem_map.1 hx
    simp [nodal, hs]
  simp [this]

/-- **C79** If the basis functions sum to one and none of the degrees of freedom of component `c`
is eliminated, the nodal forces on the set `D` of the degrees of freedom of that component add up
to the applied value. -/
theorem C79_total (d : ℕ) (m : Mapper) (S : Space P) (hS : S.understood = true)
    (l : PointLoad P) (hl : d ≤ l.value.length) (c : ℕ) (hc : c < d) (D : Finset ℕ)
    (hD : ∀ a ∈ S.acts l, m.glob l.patch c a.1 ∈ D ∧ m.glob l.patch c a.1 < m.freeSize)
    (hO : ∀ j, j ≠ c → ∀ a ∈ S.acts l, m.glob l.patch j a.1 ∉ D)
    (h1 : ((S.acts l).map Prod.snd).sum = 1) (r : Vec) :
    ∃ v : Vec, applyLoads d m S [l] r = .ok v ∧
      ∑ g ∈ D, (v g - r g) = (l.value[c]?).getD 0 := by
  refine ⟨_, applyLoads_eq d m S hS [l] (by simpa using hl) r, ?_⟩
  have hn : ∀ g, nodalAll d m S [l] g = nodal d m S l g := fun g => by simp [nodalAll]
  simp only [add_sub_cancel_left, hn, nodal]
  rw [Finset.sum_comm]
  simp only [← Finset.mul_sum]
  have key : ∀ j, ∑ g ∈ D, shape m l.patch j (S.acts l) g = if j = c then 1 else 0 := by
    intro j
    have hs : ∀ as : List (ℕ × ℝ), (∀ a ∈ as, a ∈ S.acts l) →
        ∑ g ∈ D, shape m l.patch j as g = if j = c then (as.map Prod.snd).sum else 0 := by
      intro as
      induction as with
      | nil => intro _; simp [shape]
      | cons a rest ih =>
        intro ha
        have hr := ih (fun b hb => ha b (by simp [hb]))
        have ha0 := ha a (by simp)
        have hcons : ∀ g, shape m l.patch j (a :: rest) g
            = (if m.glob l.patch j a.1 = g ∧ g < m.freeSize then a.2 else 0)
              + shape m l.patch j rest g := fun g => by simp [shape]
        simp only [hcons, Finset.sum_add_distrib, hr]
        have hone : ∑ g ∈ D, (if m.glob l.patch j a.1 = g ∧ g < m.freeSize then a.2 else 0)
            = if j = c then a.2 else 0 := by
          by_cases hj : j = c
          · subst hj
            obtain ⟨hm, hf⟩ := hD a ha0
            rw [Finset.sum_eq_single (m.glob l.patch j a.1)]
            · simp [hf]
            · intro g _ hg
              rw [if_neg (fun h => hg h.1.symm)]
            · intro h; exact absurd hm h
          · rw [if_neg hj]
            apply Finset.sum_eq_zero
            intro g hg
            rw [if_neg]
            rintro ⟨rfl, _⟩
            exact hO j hj a ha0 hg
        rw [hone]
        by_cases hj : j = c <;> simp [hj]
    rw [hs _ (fun _ h => h), h1]
  simp only [key]
  simp [hc]

/-- **C79** Virtual work: for every discrete displacement (coefficients `u`, zero on the eliminated
indices) the nodal forces of a load do the work of the load at the point where it is applied, value
times displacement at `ξ`.  The point `ξ` is the given one if the load is parametric and the point
whose image under the geometry `G` is the given one otherwise (`invertPoints` is assumed to be the
inverse of `G`). -/
theorem C79_work (d : ℕ) (m : Mapper) (S : Space P) (hS : S.understood = true) (G : ℕ → P → P)
    (hG : ∀ p ξ, S.invert p (G p ξ) = ξ) (l : PointLoad P) (hl : d ≤ l.value.length) (ξ : P)
    (hξ : l.point = if l.parametric then ξ else G l.patch ξ) (u : ℕ → ℝ)
    (hu : ∀ g, m.freeSize ≤ g → u g = 0) (r : Vec) :
    ∃ v : Vec, applyLoads d m S [l] r = .ok v ∧
      ∑ g ∈ Finset.range m.freeSize, (v g - r g) * u g
        = ∑ c ∈ Finset.range d, (l.value[c]?).getD 0 *
            ((S.active l.patch ξ).map fun a => a.2 * u (m.glob l.patch c a.1)).sum := by
  refine ⟨_, applyLoads_eq d m S hS [l] (by simpa using hl) r, ?_⟩
  have hacts : S.acts l = S.active l.patch ξ := by
    unfold Space.acts
    rw [hξ]
    by_cases hp : l.parametric = true <;> simp [hp, hG]
  have hn : ∀ g, nodalAll d m S [l] g = nodal d m S l g := fun g => by simp [nodalAll]
  simp only [add_sub_cancel_left, hn, nodal, hacts, Finset.sum_mul]
  rw [Finset.sum_comm]
  refine Finset.sum_congr rfl fun c _ => ?_
  simp only [mul_assoc, ← Finset.mul_sum]
  congr 1
  generalize S.active l.patch ξ = as
  induction as with
  | nil => simp [shape]
  | cons a rest ih =>
    have hcons : ∀ g, shape m l.patch c (a :: rest) g
        = (if m.glob l.patch c a.1 = g ∧ g < m.freeSize then a.2 else 0)
          + shape m l.patch c rest g := fun g => by simp [shape]
    simp only [hcons, add_mul, Finset.sum_add_distrib, ih, List.map_cons, List.sum_cons]
    congr 1
    by_cases hf : m.glob l.patch c a.1 < m.freeSize
    · rw [Finset.sum_eq_single (m.glob l.patch c a.1)]
      · simp [hf]
      · intro g _ hg
        rw [if_neg (fun h => hg h.1.symm), zero_mul]
      · intro h; exact absurd (Finset.mem_range.2 hf) h
    · rw [hu _ (not_lt.1 hf), mul_zero]
      apply Finset.sum_eq_zero
      intro g hg
      rw [if_neg, zero_mul]
      rintro ⟨rfl, h⟩
      exact hf h

/-- Non-vacuity: a load given by the physical point 6 of the patch `ξ ↦ 2 ξ`. -/
example : ∃ (S : Space ℝ) (G : ℕ → ℝ → ℝ) (l : PointLoad ℝ), S.understood = true ∧
    (∀ p ξ, S.invert p (G p ξ) = ξ) ∧ l.parametric = false ∧
    l.point = (if l.parametric then 3 else G l.patch 3) ∧ S.acts l = [(0, 1 - 3), (1, 3)] :=
  ⟨⟨fun _ x => [(0, 1 - x), (1, x)], true, fun _ x => x / 2⟩, fun _ x => 2 * x,
    ⟨0, 6, false, [5, 7]⟩, rfl, fun _ ξ => by simp, rfl, by norm_num, by
      simp only [Space.acts]; norm_num⟩

/-- **C79** A load with fewer values than components is read out of bounds (the size is only
checked by a debug assertion). -/
theorem C79_short (d : ℕ) (m : Mapper) (S : Space P) (hS : S.understood = true)
    (l : PointLoad P) (ls : List (PointLoad P)) (hl : l.value.length < d) (r : Vec) :
    applyLoads d m S (l :: ls) r = .ub := by
  unfold applyLoads
  rw [if_pos hS]
  have key : ∀ (js : List ℕ) (r : Vec), l.value.length ∈ js →
      addComps m l.patch l.value (S.acts l) js r = .ub := by
    intro js
    induction js with
    | nil => intro r h; simp at h
    | cons j js ih =>
      intro r h
      unfold addComps
      cases hv : l.value[j]? with
      | none => rfl
      | some v =>
        have hne : l.value.length ≠ j := by
          rintro rfl
          simp at hv
        rw [List.mem_cons] at h
        exact ih _ (h.resolve_left hne)
  rw [key _ r (List.mem_range.2 hl)]
  rfl

/-- Non-vacuity: a load on the example space; half of its parts on each node as the values say. -/
example : applyLoads 2 exMapper exSpace [exLoad] (fun _ => 0)
      = .ok (fun g => 0 + nodalAll 2 exMapper exSpace [exLoad] g) ∧
    nodalAll 2 exMapper exSpace [exLoad] 3 = 21 / 4 := by
  refine ⟨C79_exact 2 _ _ rfl _ (by simp [exLoad]) _, ?_⟩
  simp [nodalAll, nodal, shape, exLoad, exSpace, exMapper, Space.acts, Finset.sum_range_succ]
  norm_num

/-- Non-vacuity of the total: the hypotheses hold for the second component. -/
example : (∀ a ∈ exSpace.acts exLoad, exMapper.glob exLoad.patch 1 a.1 ∈ ({2, 3} : Finset ℕ) ∧
      exMapper.glob exLoad.patch 1 a.1 < exMapper.freeSize) ∧
    (∀ a ∈ exSpace.acts exLoad, exMapper.glob exLoad.patch 0 a.1 ∉ ({2, 3} : Finset ℕ)) ∧
    ((exSpace.acts exLoad).map Prod.snd).sum = 1 := by
  refine ⟨?_, ?_, ?_⟩
  · simp [exSpace, exLoad, exMapper, Space.acts]
  · simp [exSpace, exLoad, exMapper, Space.acts]
  · simp [exSpace, exLoad, Space.acts]; norm_num

/-! ## C82 -/

/-- **C82** (partial: masses of zero value) The mass matrix is the element mass matrix plus the
contribution of the point masses. -/
theorem C82_partial (d : ℕ) (m : Mapper) (S : Space P) (elem : Mat) (ms : List (PointLoad P))
    (h0 : ∀ l ∈ ms, (l.value[0]?).getD 0 = 0) (g h : ℕ) :
    assembleMass elem ms g h = elem g h + nodalMassAll d m S ms g h := by
  have : nodalMassAll d m S ms g h = 0 := by
    unfold nodalMassAll
    apply List.sum_eq_zero
    intro x hx
    obtain ⟨l, hl, rfl⟩ := List.mem_map.1 hx
    simp [nodalMass, h0 l hl]
  simp [this, assembleMass]

/-- Non-vacuity: a mass of value zero. -/
example : ∀ l ∈ ([⟨0, (), true, [0]⟩] : List (PointLoad Unit)), (l.value[0]?).getD 0 = 0 := by
  simp

/-- **C82** The routine that would add the masses is right, but it is not called. -/
theorem C82_apply_partial (d : ℕ) (m : Mapper) (S : Space P) (ms : List (PointLoad P))
    (hl : ∀ l ∈ ms, 1 ≤ l.value.length) (M : Mat) :
    applyMass d m S ms M = .ok (fun g h => M g h + nodalMassAll d m S ms g h) :=
  applyMass_eq d m S ms hl M

/-- Non-vacuity: a mass of value 5 on the example space. -/
example : ∀ l ∈ [exLoad], 1 ≤ l.value.length := by simp [exLoad]

/-- **C82** is violated: whatever the element mass matrix, every registered point mass is ignored;
the matrix misses exactly its contribution, which is not zero. -/
theorem C82_violated :
    (∀ (d : ℕ) (m : Mapper) (S : Space Unit) (elem : Mat) (ms : List (PointLoad Unit)) (g h : ℕ),
      (elem g h + nodalMassAll d m S ms g h) - assembleMass elem ms g h
        = nodalMassAll d m S ms g h) ∧
    nodalMassAll 2 exMapper exSpace [exLoad] 0 1 = 15 / 16 := by
  constructor
  · intro d m S elem ms g h; simp [assembleMass]
  · simp [nodalMassAll, nodalMass, shape, exLoad, exSpace, exMapper, Space.acts]
    norm_num

end Verif.Loads
