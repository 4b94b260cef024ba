import Verif.Model.Layout

/-! # Helper lemmas for the layout of point/height results -/

namespace Verif.Layout

theorem foldl_ub {α β : Type} (g : β → α → Outcome β) (l : List α) :
    l.foldl (fun acc x => Outcome.bind acc fun r => g r x) (.ub : Outcome β) = .ub := by
  induction l with
  | nil => rfl
  | cons a l ih => simpa [Outcome.bind] using ih

/-- Writing pairs whose columns are in bounds; every written column `c` gets `v c`. -/
theorem fold_body {α H : Type} (n : Nat) (z : ZMat H) (f : Nat → H → α) (v : Nat → α)
    (N : Nat) (l : List (Nat × Nat))
    (hz : ∀ p ∈ l, p.2 < z.rows ∧ p.1 < z.cols)
    (hb : ∀ p ∈ l, p.2 * n + p.1 < N)
    (hv : ∀ p ∈ l, f p.1 (z.val p.2 p.1) = v (p.2 * n + p.1))
    (hc : ∀ j k, colIdx n j k = j * n + k) :
    ∀ r : List (Option α), r.length = N →
    ∃ r', l.foldl (fun acc kj => Outcome.bind acc fun r => body n z f r kj) (.ok r) = .ok r' ∧
      r'.length = N ∧
      (∀ c, (∃ p ∈ l, p.2 * n + p.1 = c) → r'[c]? = some (some (v c))) ∧
      (∀ c, (∀ p ∈ l, p.2 * n + p.1 ≠ c) → r'[c]? = r[c]?) := by
  induction l with
  | nil => intro r hr; exact ⟨r, rfl, hr, by simp, by simp⟩
  | cons a l ih =>
    intro r hr
    have ha := hz a (by simp)
    have hba := hb a (by simp)
    have hva := hv a (by simp)
    have hstep : body n z f r a = .ok (r.set (a.2 * n + a.1) (some (v (a.2 * n + a.1)))) := by
      simp [body, ZMat.read, ha, Outcome.bind, writeCol, hc, hr, hba, hva]
    obtain ⟨r', h1, h2, h3, h4⟩ := ih (fun p hp => hz p (by simp [hp]))
      (fun p hp => hb p (by simp [hp])) (fun p hp => hv p (by simp [hp]))
      (r.set (a.2 * n + a.1) (some (v (a.2 * n + a.1)))) (by simpa using hr)
    refine ⟨r', ?_, h2, ?_, ?_⟩
    · simp only [List.foldl_cons, Outcome.bind, hstep]
      exact h1
    · intro c hcc
      by_cases hl : ∃ p ∈ l, p.2 * n + p.1 = c
      · exact h3 c hl
      · rw [h4 c (fun p hp he => hl ⟨p, hp, he⟩)]
        obtain ⟨p, hp, he⟩ := hcc
        simp only [List.mem_cons] at hp
        rcases hp with rfl | hp
        · rw [← he, List.getElem?_set_self (by omega)]
        · exact absurd ⟨p, hp, he⟩ hl
    · intro c hcc
      rw [h4 c (fun p hp => hcc p (by simp [hp])),
        List.getElem?_set_ne (hcc a (by simp))]

theorem mem_pairs (n m : Nat) (p : Nat × Nat) : p ∈ pairs n m ↔ p.1 < n ∧ p.2 < m := by
  rcases p with ⟨k, j⟩
  simp [pairs]

theorem idx_lt {n m j k : Nat} (hj : j < m) (hk : k < n) : j * n + k < n * m := by
  have : (j + 1) * n ≤ m * n := Nat.mul_le_mul_right n hj
  rw [Nat.mul_comm n m]
  rw [Nat.add_mul, Nat.one_mul] at this
  omega

theorem div_idx {n j k : Nat} (hk : k < n) : (j * n + k) / n = j ∧ (j * n + k) % n = k := by
  have hn : 0 < n := by omega
  rw [Nat.add_comm, Nat.mul_comm]
  constructor
  · rw [Nat.add_mul_div_left _ _ hn, Nat.div_eq_of_lt hk]; omega
  · rw [Nat.add_mul_mod_self_left, Nat.mod_eq_of_lt hk]

/-- A list of operations containing one that always fails, fails. -/
theorem foldl_fail {α β : Type} (g : β → α → Outcome β) (P : β → Prop)
    (hP : ∀ b a b', P b → g b a = .ok b' → P b') (hthrow : ∀ b a, g b a ≠ .throws)
    (l : List α) (a : α) (ha : a ∈ l) (hfail : ∀ b, P b → g b a = .ub) :
    ∀ b, P b → l.foldl (fun acc x => Outcome.bind acc fun r => g r x) (.ok b) = .ub := by
  induction l with
  | nil => simp at ha
  | cons x l ih =>
    intro b hb
    simp only [List.foldl_cons, Outcome.bind]
    simp only [List.mem_cons] at ha
    cases hx : g b x with
    | ok b' =>
      rcases ha with rfl | ha
      · rw [hfail b hb] at hx; simp at hx
      · exact ih ha b' (hP b x b' hb hx)
    | throws => exact absurd hx (hthrow b x)
    | ub => exact foldl_ub g l

theorem body_throws {α H : Type} (n : Nat) (z : ZMat H) (f : Nat → H → α) (r : List (Option α))
    (kj : Nat × Nat) : body n z f r kj ≠ .throws := by
  unfold body ZMat.read writeCol
  split <;> simp [Outcome.bind]
  split <;> simp

theorem body_length {α H : Type} (n : Nat) (z : ZMat H) (f : Nat → H → α) (r r' : List (Option α))
    (kj : Nat × Nat) (h : body n z f r kj = .ok r') : r'.length = r.length := by
  unfold body ZMat.read writeCol at h
  split at h
  · simp only [Outcome.bind] at h
    split at h
    · simp only [Outcome.ok.injEq] at h
      rw [← h, List.length_set]
    · simp at h
  · simp [Outcome.bind] at h

end Verif.Layout
