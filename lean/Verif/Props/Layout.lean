import Verif.Lemmas.Layout

/-! # Properties C09 and C89: layout of point/height results -/

namespace Verif.Layout

/-- **C09** Different (point, height) pairs have different columns, for all numbers of
points and heights. -/
theorem C09_injective (n : Nat) (j j' k k' : Nat) (hk : k < n) (hk' : k' < n)
    (h : colIdx n j k = colIdx n j' k') : j = j' ∧ k = k' := by
  unfold colIdx at h
  have h1 := div_idx (j := j) hk
  have h2 := div_idx (j := j') hk'
  rw [h] at h1
  exact ⟨h1.1.symm.trans h2.1, h1.2.symm.trans h2.2⟩

/-- **C09** (partial: the transformations, `theta` and `gamma` are excluded.)  The evaluation
over `n` points and `m` heights per point writes inside the result only, the result has
`n*m` columns, and column `c` is the value at point `c % n` and at the `c / n`-th height of
that point; no column stays unwritten. -/
theorem C09_values_partial {α H : Type} (q : Quantity) (n : Nat) (z : ZMat H) (f : Nat → H → α)
    (hq : q ∉ [Quantity.spec2cov, .spec2con, .cov2cart, .con2cart, .theta, .gamma])
    (hz : z.cols = n) :
    ∃ r, run q n z f = .ok r ∧ r.length = n * z.rows ∧
      ∀ c, c < n * z.rows → r[c]? = some (some (f (c % n) (z.val (c / n) (c % n)))) := by
  have ha : allocated q n z.rows = n * z.rows := by
    cases q <;> simp_all [allocated]
  obtain ⟨r, h1, h2, h3, -⟩ := fold_body n z f (fun c => f (c % n) (z.val (c / n) (c % n)))
    (n * z.rows) (pairs n z.rows)
    (fun p hp => by rw [mem_pairs] at hp; rw [hz]; exact ⟨hp.2, hp.1⟩)
    (fun p hp => by rw [mem_pairs] at hp; exact idx_lt hp.2 hp.1)
    (fun p hp => by
      rw [mem_pairs] at hp
      obtain ⟨e1, e2⟩ := div_idx (j := p.2) hp.1
      rw [e1, e2])
    (fun j k => rfl)
    (List.replicate (allocated q n z.rows) none) (by rw [List.length_replicate, ha])
  refine ⟨r, h1, h2, fun c hc => h3 c ?_⟩
  have hn : 0 < n := by
    rcases Nat.eq_zero_or_pos n with h | h
    · subst h; simp at hc
    · exact h
  refine ⟨(c % n, c / n), ?_, ?_⟩
  · rw [mem_pairs]
    exact ⟨Nat.mod_lt _ hn, Nat.div_lt_of_lt_mul hc⟩
  · have := Nat.div_add_mod c n
    rw [Nat.mul_comm] at this
    exact this

/-- **C09** is violated for the basis transformations and the tension-field angle and
factor: as soon as there are two heights, the evaluation writes out of bounds, for every
number of points and all values. -/
theorem C09_transform_violated {α H : Type} (q : Quantity) (n : Nat) (z : ZMat H) (f : Nat → H → α)
    (hq : q ∈ [Quantity.spec2cov, .spec2con, .cov2cart, .con2cart, .theta, .gamma])
    (hm : 2 ≤ z.rows) (hn : 1 ≤ n) (hz : z.cols = n) :
    run q n z f = .ub := by
  have ha : allocated q n z.rows = n := by
    simp at hq
    rcases hq with rfl | rfl | rfl | rfl | rfl | rfl <;> rfl
  unfold run
  apply foldl_fail (fun r kj => body n z f r kj) (fun r => r.length = n)
    (fun r kj r' h1 h2 => by rw [body_length n z f r r' kj h2, h1])
    (fun r kj => body_throws n z f r kj) (pairs n z.rows) (0, 1)
    (by rw [mem_pairs]; simp; omega)
  · intro r hr
    simp only [body, ZMat.read, writeCol, colIdx, hr]
    rw [if_pos ⟨by omega, by omega⟩]
    simp [Outcome.bind]
  · rw [List.length_replicate, ha]

/-- **C09** (partial: a single height.)  With one height all quantities are evaluated
correctly: one column per point. -/
theorem C09_single_height_partial {α H : Type} (q : Quantity) (n : Nat) (z : ZMat H)
    (f : Nat → H → α) (hm : z.rows = 1) (hz : z.cols = n) :
    ∃ r, run q n z f = .ok r ∧ r.length = n ∧
      ∀ k, k < n → r[k]? = some (some (f k (z.val 0 k))) := by
  by_cases hq : q ∈ [Quantity.spec2cov, .spec2con, .cov2cart, .con2cart, .theta, .gamma]
  · have hr : run q n z f = run .strain n z f := by
      simp at hq
      rcases hq with rfl | rfl | rfl | rfl | rfl | rfl <;> simp [run, allocated, hm]
    rw [hr]
    obtain ⟨r, h1, h2, h3⟩ := C09_values_partial .strain n z f (by simp) hz
    refine ⟨r, h1, by rw [h2, hm, Nat.mul_one], fun k hk => ?_⟩
    rw [h3 k (by rw [hm, Nat.mul_one]; exact hk), Nat.mod_eq_of_lt hk, Nat.div_eq_of_lt hk]
  · obtain ⟨r, h1, h2, h3⟩ := C09_values_partial q n z f hq hz
    refine ⟨r, h1, by rw [h2, hm, Nat.mul_one], fun k hk => ?_⟩
    rw [h3 k (by rw [hm, Nat.mul_one]; exact hk), Nat.mod_eq_of_lt hk, Nat.div_eq_of_lt hk]

/-- Non-vacuity: three points, two heights; the strain is well, the angle is not. -/
example :
    run .strain 3 ⟨2, 3, fun j k => (10 * j + k : Nat)⟩ (fun k h => (k, h))
      = .ok [some (0, 0), some (1, 1), some (2, 2), some (0, 10), some (1, 11), some (2, 12)] ∧
    run .theta 3 ⟨2, 3, fun j k => (10 * j + k : Nat)⟩ (fun k h => (k, h)) = .ub ∧
    run .theta 3 ⟨1, 3, fun j k => (10 * j + k : Nat)⟩ (fun k h => (k, h))
      = .ok [some (0, 0), some (1, 1), some (2, 2)] := by
  decide

/-! ## C89 principal stretches on the mid-surface -/

/-- **C89** is violated: for compressible materials the principal stretches (and their
directions) on the mid-surface read outside the 1×1 matrix of heights for any two or more
points, whatever the material. -/
theorem C89_violated {α β H : Type} (zero : H) (n : Nat) (f : Nat → H → α) (g : Nat → α → β) (hn : 2 ≤ n) :
    midsurface zero n f g = .ub := by
  have h : run .thicknessStretch n ⟨1, 1, fun _ _ => zero⟩ f = .ub := by
    unfold run
    apply foldl_fail (fun r kj => body n ⟨1, 1, fun _ _ => zero⟩ f r kj) (fun _ => True)
      (fun _ _ _ _ _ => trivial) (fun r kj => body_throws n _ f r kj) (pairs n 1) (1, 0)
      (by rw [mem_pairs]; simp; omega)
    · intro r _
      simp [body, ZMat.read, Outcome.bind]
    · trivial
  unfold midsurface
  rw [h]
  rfl

/-- **C89** (partial: a single point.)  For one point the result is the value of that point
at height zero. -/
theorem C89_partial {α β H : Type} (zero : H) (f : Nat → H → α) (g : Nat → α → β) :
    midsurface zero 1 f g = .ok [g 0 (f 0 zero)] := rfl

/-- Non-vacuity: one point and two points. -/
example : midsurface (0 : Int) 1 (fun k h => (k, h)) (fun i a => (i, a)) = .ok [(0, (0, 0))] ∧
    midsurface (0 : Int) 2 (fun k h => (k, h)) (fun i a => (i, a)) = .ub := by
  decide

end Verif.Layout
