import Verif.Lemmas.RootFind

/-! # C41, C42: the scalar root finders -/

namespace Verif.RootFind

/-- C41 (violated, soundness): the function has no zero at all, the bracket is regular, and
success is reported for every iteration limit of at least one. -/
theorem C41_sound_violated : ∃ (f : ℝ → ℝ) (A B t : ℝ), A < B ∧ 0 < t ∧ (∀ z, 0 < f z) ∧
    ∀ n : ℕ, 1 ≤ n → (bisection f A B t n).1 = true := by
  refine ⟨fun _ => 1, -1, 1, 1, by norm_num, by norm_num, fun _ => by norm_num, ?_⟩
  intro n hn
  obtain ⟨m, rfl⟩ : ∃ m, n = m + 1 := ⟨n - 1, by omega⟩
  have h := bisectLoop_closed (fun _ => (1 : ℝ)) 1 ((1 - -1) / 2) (-1) 1 m
    (by rw [abs_of_pos] <;> norm_num) (by norm_num)
  unfold bisection
  dsimp only
  rw [h]
  norm_num

/-- C41 (violated, bracket): success with a returned point outside the bracket although the
function changes sign on it. -/
theorem C41_bracket_violated : ∃ (f : ℝ → ℝ) (A B t : ℝ), A < B ∧ 0 < t ∧ f A < 0 ∧ 0 < f B ∧
    ∀ n : ℕ, (bisection f A B t n).1 = true ∧ (bisection f A B t n).2 < A := by
  refine ⟨fun z => z - 5 / 2, 2, 3, 2, by norm_num, by norm_num, by norm_num, by norm_num, ?_⟩
  intro n
  have h : bisectLoop (fun z => z - 5 / 2) 2 ((3 - 2) / 2) n 2 3 = (2, 3) := by
    cases n with
    | zero => rfl
    | succ n => rw [bisectLoop, if_neg (by norm_num)]
  unfold bisection
  dsimp only
  rw [h]
  norm_num

/-- C41 (violated, completeness): a function changing sign on the bracket for which no
iteration limit leads to success. -/
theorem C41_complete_violated : ∃ (f : ℝ → ℝ) (A B t : ℝ), A < B ∧ 0 < t ∧ f A < 0 ∧ 0 < f B ∧
    Continuous f ∧ ∀ n : ℕ, (bisection f A B t n).1 = false := by
  refine ⟨fun z => z - 1 / 4, 0, 1, 1 / 10, by norm_num, by norm_num, by norm_num, by norm_num,
    by fun_prop, ?_⟩
  intro n
  have h : bisectLoop (fun z => z - 1 / 4) (1 / 10) ((1 - 0) / 2) n 0 1
      = if n = 0 then (0, 1) else (0, 1 / 2) := by
    cases n with
    | zero => rfl
    | succ n =>
      rw [bisectLoop_closed _ _ _ _ _ _ (by norm_num) (by norm_num), if_pos (by norm_num),
        if_neg (Nat.succ_ne_zero n)]
      norm_num
  unfold bisection
  dsimp only
  rw [h]
  split_ifs with h1 h2 <;> norm_num at *

/-- C41 (partial): what remains true of success.  If the function changes sign between the
ends and the bracket is longer than the tolerance, then after success the returned point is
within the tolerance of one end, with a sign change in between.  Missing: success is (almost)
never reached, see the negative results. -/
theorem C41_success_partial (f : ℝ → ℝ) (A B t : ℝ) (n : ℕ) (hs : f A * f B < 0)
    (hl : t < |B - A|) (h : (bisection f A B t n).1 = true) :
    ∃ y, (y = A ∨ y = B) ∧ |y - (bisection f A B t n).2| < t ∧
      f y * f (bisection f A B t n).2 < 0 := by
  have hx : (bisection f A B t n).2 = (B - A) / 2 := rfl
  rw [hx]
  have h1 : |(bisectLoop f t ((B - A) / 2) n A B).2
      - (bisectLoop f t ((B - A) / 2) n A B).1| < t := by
    by_contra hc
    unfold bisection at h
    dsimp only at h
    rw [if_neg hc] at h
    exact absurd h (by decide)
  generalize (B - A) / 2 = c at h1 ⊢
  cases n with
  | zero => exact absurd h1 (not_lt.2 hl.le)
  | succ n =>
    by_cases hc : f c = 0
    · rw [bisectLoop, if_pos hl, if_pos hc] at h1
      exact absurd h1 (not_lt.2 hl.le)
    · rw [bisectLoop_closed f t c A B n hl hc] at h1
      split_ifs at h1 with h2
      · refine ⟨A, Or.inl rfl, ?_, ?_⟩
        · rw [abs_sub_comm]; exact h1
        · rw [mul_comm]; exact h2
      · refine ⟨B, Or.inr rfl, h1, ?_⟩
        have hA : f A ≠ 0 := fun h0 => by rw [h0, zero_mul] at hs; exact lt_irrefl _ hs
        rcases lt_or_gt_of_ne hA with h3 | h3 <;> rcases lt_or_gt_of_ne hc with h4 | h4
        · nlinarith
        · exact absurd (mul_neg_of_pos_of_neg h4 h3) h2
        · exact absurd (mul_neg_of_neg_of_pos h4 h3) h2
        · nlinarith

/-- The hypotheses of `C41_success_partial` are satisfiable, with a successful run. -/
example : ∃ (f : ℝ → ℝ) (A B t : ℝ) (n : ℕ), f A * f B < 0 ∧ t < |B - A| ∧
    (bisection f A B t n).1 = true := by
  refine ⟨fun z => z - 1 / 4, 0, 1, 3 / 4, 1, by norm_num, by norm_num, ?_⟩
  have h := bisectLoop_closed (fun z : ℝ => z - 1 / 4) (3 / 4) ((1 - 0) / 2) 0 1 0 (by norm_num)
    (by norm_num)
  unfold bisection
  dsimp only
  rw [h]
  norm_num

/-- C42: without a sign change failure is reported. -/
theorem C42_no_sign_change (f : ℝ → ℝ) (eps a b t : ℝ) (n : ℕ) (h : 0 ≤ f a * f b) :
    brent f eps a b t n = .ok none := by
  rw [brent, if_pos h]

example : (0 : ℝ) ≤ (fun z : ℝ => z ^ 2 + 1) 0 * (fun z : ℝ => z ^ 2 + 1) 3 := by norm_num

/-- C42: failure is reported only without a sign change; and the code never divides by
zero. -/
theorem C42_outcomes (f : ℝ → ℝ) (eps a b t : ℝ) (n : ℕ) (h : f a * f b < 0) :
    brent f eps a b t n = .throws ∨ ∃ x, brent f eps a b t n = .ok (some x) := by
  rw [brent, if_neg (not_le.2 h)]
  have := brentLoop_safe f eps t n (brentInit f a b)
  rcases hb : brentLoop f eps t n (brentInit f a b) with x | _ | _
  · exact Or.inr ⟨x, rfl⟩
  · exact Or.inl rfl
  · exact absurd hb this

example : (fun z : ℝ => z - 1) 0 * (fun z : ℝ => z - 1) 3 < 0 := by norm_num

/-- C42 (partial, continuous functions which are negative at the left end and positive at the
right end): on success the returned point lies in the bracket, and the function vanishes there
or has a zero in the bracket within twice the tolerance of it.  Missing: the other orientation,
which is wrong. -/
theorem C42_increasing_partial (f : ℝ → ℝ) (hf : Continuous f) (eps a b t : ℝ) (n : ℕ)
    (he : 0 ≤ eps) (ht : 0 ≤ t) (hab : a ≤ b) (ha : f a < 0) (hb : 0 < f b) (x : ℝ)
    (h : brent f eps a b t n = .ok (some x)) :
    x ∈ Set.Icc a b ∧
      ∃ z ∈ Set.Icc a b, f z = 0 ∧ (z = x ∨ |z - x| ≤ 2 * (2 * eps * |x| + t)) :=
  brent_increasing f hf eps a b t n he ht hab ha hb x h

/-- The hypotheses of `C42_increasing_partial` with a successful run: the zero of `z` on
`[-1,1]` with tolerance 1. -/
example : brent (fun z => z) 0 (-1) 1 1 1 = .ok (some 1) := by
  rw [brent, if_neg (by norm_num)]
  have h1 : brentInit (fun z : ℝ => z) (-1) 1 = ⟨-1, 1, -1, 2, 2, -1, 1, -1⟩ := by
    unfold brentInit; norm_num
  have h2 : bSwap ⟨-1, 1, -1, 2, 2, -1, 1, -1⟩ = ⟨-1, 1, -1, 2, 2, -1, 1, -1⟩ := by
    unfold bSwap; norm_num
  rw [h1, brentLoop]
  rw [h2, if_pos (Or.inl (by unfold bM bTol; norm_num))]
  rfl

/-- C42 (violated): for the decreasing function `7/8 - z` on `[0,1]` success is reported at
`0`, whose distance to the only zero is more than ten times the tolerance. -/
theorem C42_decreasing_violated : ∃ (f : ℝ → ℝ) (a b t x : ℝ), Continuous f ∧ a < b ∧ 0 < t ∧
    0 < f a ∧ f b < 0 ∧
    (∀ (eps : ℝ) (n : ℕ), 2 ≤ n → brent f eps a b t n = .ok (some x)) ∧
    ∀ z, f z = 0 → 10 * t < |z - x| := by
  refine ⟨fun z => 7 / 8 - z, 0, 1, 1 / 16, 0, by fun_prop, by norm_num, by norm_num,
    by norm_num, by norm_num, ?_, ?_⟩
  · intro eps n hn
    obtain ⟨m, rfl⟩ : ∃ m, n = m + 2 := ⟨n - 2, by omega⟩
    rw [brent, if_neg (by norm_num)]
    have h1 : brentInit (fun z : ℝ => 7 / 8 - z) 0 1
        = ⟨0, 1, 0, 1, 1, -1 / 8, 7 / 8, -1 / 8⟩ := by
      unfold brentInit; norm_num
    have h2 : bSwap ⟨0, 1, 0, 1, 1, -1 / 8, 7 / 8, -1 / 8⟩
        = ⟨1, 0, 1, 1, 1, 7 / 8, -1 / 8, 7 / 8⟩ := by
      unfold bSwap
      dsimp only
      rw [if_pos]
      rw [abs_of_neg, abs_of_pos] <;> norm_num
    have hM : bM ⟨1, 0, 1, 1, 1, 7 / 8, -1 / 8, 7 / 8⟩ = 1 / 2 := by unfold bM; norm_num
    have hT : bTol eps (1 / 16) ⟨1, 0, 1, 1, 1, 7 / 8, -1 / 8, 7 / 8⟩ = 1 / 16 := by
      unfold bTol; norm_num
    have hI : bInterp ⟨1, 0, 1, 1, 1, 7 / 8, -1 / 8, 7 / 8⟩ = .ok (-1 / 7, 8 / 7) := by
      unfold bInterp
      dsimp only
      rw [if_neg (by norm_num), if_pos rfl, hM]
      norm_num
    have hS : bStep (1 / 16) ⟨1, 0, 1, 1, 1, 7 / 8, -1 / 8, 7 / 8⟩ = .ok (1, 1 / 8) := by
      unfold bStep
      dsimp only
      rw [if_neg, hI]
      · change (if _ then _ else _) = _
        rw [if_neg (show ¬ (0 : ℝ) < -1 / 7 by norm_num),
          if_neg (show ¬ (0 : ℝ) < -1 / 7 by norm_num), hM, if_pos, if_neg (by norm_num)]
        · norm_num
        · constructor
          · rw [abs_of_pos] <;> norm_num
          · rw [abs_of_pos] <;> norm_num
      · push Not
        constructor
        · rw [abs_of_pos] <;> norm_num
        · rw [abs_of_neg, abs_of_pos] <;> norm_num
    have hA : bAdvance (fun z : ℝ => 7 / 8 - z) (1 / 16) 1 (1 / 8)
        ⟨1, 0, 1, 1, 1, 7 / 8, -1 / 8, 7 / 8⟩
        = ⟨0, 1 / 8, 0, 1 / 8, 1 / 8, -1 / 8, 3 / 4, -1 / 8⟩ := by
      have hN : bNext (1 / 16) (1 / 8) ⟨1, 0, 1, 1, 1, 7 / 8, -1 / 8, 7 / 8⟩ = 1 / 8 := by
        unfold bNext
        rw [if_pos]
        · norm_num
        · rw [abs_of_pos] <;> norm_num
      unfold bAdvance
      dsimp only
      rw [hN, if_pos (Or.inl (by norm_num))]
      norm_num
    have h3 : bSwap ⟨0, 1 / 8, 0, 1 / 8, 1 / 8, -1 / 8, 3 / 4, -1 / 8⟩
        = ⟨1 / 8, 0, 1 / 8, 1 / 8, 1 / 8, 3 / 4, -1 / 8, 3 / 4⟩ := by
      unfold bSwap
      dsimp only
      rw [if_pos]
      rw [abs_of_neg, abs_of_pos] <;> norm_num
    rw [h1, brentLoop]
    rw [h2, hT, hM, if_neg, hS]
    · change (brentLoop _ _ _ (m + 1) _).map some = _
      rw [hA, brentLoop]
      rw [h3, if_pos]
      · rfl
      · left
        unfold bM bTol
        dsimp only
        rw [abs_of_pos] <;> norm_num
    · push Not
      constructor
      · rw [abs_of_pos] <;> norm_num
      · norm_num
  · intro z hz
    have : z = 7 / 8 := by
      have : (7 : ℝ) / 8 - z = 0 := hz
      linarith
    rw [this, abs_of_pos] <;> norm_num

end Verif.RootFind
