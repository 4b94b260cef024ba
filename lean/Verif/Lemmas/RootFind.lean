import Mathlib.Topology.Order.IntermediateValue
import Mathlib.Topology.Instances.Real.Lemmas
import Mathlib.Tactic.Linarith
import Mathlib.Tactic.NormNum
import Mathlib.Tactic.Ring
import Verif.Model.RootFind

/-! # Helper lemmas for the root finders -/

namespace Verif.RootFind

/-- After `b := c` the loop stays where it is. -/
theorem bisectLoop_right (f : ℝ → ℝ) (t c a : ℝ) (n : ℕ) (h0 : f c ≠ 0) (h : f c * f a < 0) :
    bisectLoop f t c n a c = (a, c) := by
  induction n with
  | zero => rfl
  | succ n ih => simp only [bisectLoop, if_neg h0, if_pos h, ih, ite_self]

/-- After `a := c` the loop stays where it is. -/
theorem bisectLoop_left (f : ℝ → ℝ) (t c b : ℝ) (n : ℕ) : bisectLoop f t c n c b = (c, b) := by
  induction n with
  | zero => rfl
  | succ n ih =>
    have : ¬ f c * f c < 0 := not_lt.2 (mul_self_nonneg _)
    simp only [bisectLoop, if_neg this, ih, ite_self]

/-- Closed form of the loop. -/
theorem bisectLoop_closed (f : ℝ → ℝ) (t c a b : ℝ) (n : ℕ) (h : |b - a| > t) (hc : f c ≠ 0) :
    bisectLoop f t c (n + 1) a b = if f c * f a < 0 then (a, c) else (c, b) := by
  rw [bisectLoop, if_pos h, if_neg hc]
  split_ifs with h1
  · exact bisectLoop_right f t c a n hc h1
  · exact bisectLoop_left f t c b n

/-- The invariant of Brent's loop: the stored values are values of `f`, and `sb`, `c` bracket
a sign change. -/
structure Inv (f : ℝ → ℝ) (s : BState) : Prop where
  hb : s.fb = f s.sb
  hc : s.fc = f s.c
  sign : (0 < s.fb ∧ s.fc ≤ 0) ∨ (s.fb ≤ 0 ∧ 0 < s.fc)

theorem Inv.swap {f : ℝ → ℝ} {s : BState} (h : Inv f s) : Inv f (bSwap s) := by
  unfold bSwap
  split_ifs
  · exact ⟨h.hc, h.hb, by rcases h.sign with ⟨a, b⟩ | ⟨a, b⟩ <;> simp [a, b]⟩
  · exact h

theorem Inv.advance {f : ℝ → ℝ} {s : BState} (h : Inv f s) (tol e d : ℝ) :
    Inv f (bAdvance f tol e d s) := by
  unfold bAdvance
  dsimp only
  split_ifs with h1
  · refine ⟨rfl, h.hb, ?_⟩
    rcases h1 with ⟨a, b⟩ | ⟨a, b⟩
    · left
      refine ⟨a, ?_⟩
      rcases h.sign with ⟨_, c⟩ | ⟨c, _⟩
      · linarith
      · exact c
    · right
      refine ⟨a, ?_⟩
      rcases h.sign with ⟨c, _⟩ | ⟨_, c⟩
      · exact c
      · linarith
  · refine ⟨rfl, h.hc, ?_⟩
    push Not at h1
    by_cases hp : 0 < f (bNext tol d s)
    · exact Or.inl ⟨hp, h1.1 hp⟩
    · exact Or.inr ⟨not_lt.1 hp, h1.2 (not_lt.1 hp)⟩

/-- From an invariant state, every successful run ends with a bracketed sign change or a
zero. -/
theorem brentLoop_sound (f : ℝ → ℝ) (eps t : ℝ) (n : ℕ) :
    ∀ s, Inv f s → ∀ x, brentLoop f eps t n s = .ok x →
      f x = 0 ∨ ∃ c, |c - x| ≤ 2 * (2 * eps * |x| + t) ∧
        ((0 < f x ∧ f c ≤ 0) ∨ (f x ≤ 0 ∧ 0 < f c)) := by
  induction n with
  | zero => intro s _ x h; simp [brentLoop] at h
  | succ n ih =>
    intro s hs x h
    simp only [brentLoop] at h
    have hs' := hs.swap
    split_ifs at h with h1
    · injection h with h
      subst h
      rcases h1 with h1 | h1
      · right
        refine ⟨(bSwap s).c, ?_, ?_⟩
        · unfold bM bTol at h1
          rw [abs_mul] at h1
          have : |(0.5 : ℝ)| = 0.5 := abs_of_pos (by norm_num)
          rw [this] at h1
          linarith
        · have := hs'.sign
          rw [hs'.hb, hs'.hc] at this
          exact this
      · left
        rw [← hs'.hb]; exact h1
    · rcases hst : bStep (bTol eps t (bSwap s)) (bSwap s) with ed | _ | _
      · rw [hst] at h
        exact ih _ (hs'.advance _ _ _) x h
      · rw [hst] at h; simp [Outcome.bind] at h
      · rw [hst] at h; simp [Outcome.bind] at h

/-- The step is a fraction of the way to the other end of the bracket. -/
theorem bStep_fraction (tol : ℝ) (s : BState) (ed : ℝ × ℝ) (h : bStep tol s = .ok ed) :
    ∃ k, 0 ≤ k ∧ k ≤ 1 ∧ ed.2 = k * (s.c - s.sb) := by
  have hm : bM s = (1 / 2) * (s.c - s.sb) := by unfold bM; norm_num
  have half : ∃ k : ℝ, 0 ≤ k ∧ k ≤ 1 ∧ bM s = k * (s.c - s.sb) :=
    ⟨1 / 2, by norm_num, by norm_num, hm⟩
  unfold bStep at h
  split_ifs at h with h1
  · injection h with h
    subst h
    exact half
  · rcases hi : bInterp s with pq | _ | _
    · rw [hi] at h
      simp only [Outcome.bind] at h
      have hp0 : 0 ≤ (open Classical in if 0 < pq.1 then pq.1 else -pq.1) := by
        split_ifs with g
        · exact g.le
        · linarith
      generalize (open Classical in if 0 < pq.1 then pq.1 else -pq.1) = p at hp0 h
      generalize (open Classical in if 0 < pq.1 then -pq.2 else pq.2) = q at h
      split_ifs at h with h2 h3
      · injection h with h
        subst h
        have hq : 0 < 3 * bM s * q := by
          have := abs_nonneg (tol * q)
          linarith [h2.1]
        have hmq : 0 < bM s * q := by nlinarith
        have hm0 : bM s ≠ 0 := fun e => by rw [e, zero_mul] at hmq; exact lt_irrefl _ hmq
        refine ⟨p / (2 * (bM s * q)), by positivity, ?_, ?_⟩
        · rw [div_le_one (by positivity)]
          have := abs_nonneg (tol * q)
          nlinarith [h2.1]
        · have : s.c - s.sb = 2 * bM s := by rw [hm]; ring
          rw [this]
          field_simp
      · injection h with h
        subst h
        exact half
    · rw [hi] at h; simp [Outcome.bind] at h
    · rw [hi] at h; simp [Outcome.bind] at h

/-- The bracket is contained in an interval. -/
def Inside (a b : ℝ) (s : BState) : Prop := s.sb ∈ Set.Icc a b ∧ s.c ∈ Set.Icc a b

theorem Inside.swap {a b : ℝ} {s : BState} (h : Inside a b s) : Inside a b (bSwap s) := by
  unfold bSwap
  split_ifs
  · exact ⟨h.2, h.1⟩
  · exact h

theorem Inside.next {a b : ℝ} {s : BState} (h : Inside a b s) (tol : ℝ) (ht : 0 ≤ tol)
    (hm : tol < |bM s|) (ed : ℝ × ℝ) (hs : bStep tol s = .ok ed) :
    bNext tol ed.2 s ∈ Set.Icc a b := by
  obtain ⟨k, h0, h1, hk⟩ := bStep_fraction tol s ed hs
  have e : bM s = (1 / 2) * (s.c - s.sb) := by unfold bM; norm_num
  obtain ⟨⟨l1, u1⟩, ⟨l2, u2⟩⟩ := h
  unfold bNext
  split_ifs with g1 g2
  · rw [hk]
    constructor
    · nlinarith [mul_le_mul_of_nonneg_left l2 h0, mul_le_mul_of_nonneg_left l1 (sub_nonneg.2 h1)]
    · nlinarith [mul_le_mul_of_nonneg_left u2 h0, mul_le_mul_of_nonneg_left u1 (sub_nonneg.2 h1)]
  · rw [abs_of_pos g2] at hm
    constructor <;> linarith
  · rw [abs_of_nonpos (not_lt.1 g2)] at hm
    constructor <;> linarith

theorem Inside.advance {a b : ℝ} {s : BState} (h : Inside a b s) (f : ℝ → ℝ) (tol : ℝ)
    (ht : 0 ≤ tol) (hm : tol < |bM s|) (ed : ℝ × ℝ) (hs : bStep tol s = .ok ed) :
    Inside a b (bAdvance f tol ed.1 ed.2 s) := by
  have := h.next tol ht hm ed hs
  unfold bAdvance
  dsimp only
  split_ifs
  · exact ⟨this, h.1⟩
  · exact ⟨this, h.2⟩

/-- A successful run stays inside the bracket and ends with a sign change inside it or a
zero. -/
theorem brentLoop_inside (f : ℝ → ℝ) (eps t a b : ℝ) (he : 0 ≤ eps) (ht : 0 ≤ t) (n : ℕ) :
    ∀ s, Inv f s → Inside a b s → ∀ x, brentLoop f eps t n s = .ok x →
      x ∈ Set.Icc a b ∧ (f x = 0 ∨ ∃ c ∈ Set.Icc a b, |c - x| ≤ 2 * (2 * eps * |x| + t) ∧
        ((0 < f x ∧ f c ≤ 0) ∨ (f x ≤ 0 ∧ 0 < f c))) := by
  induction n with
  | zero => intro s _ _ x h; simp [brentLoop] at h
  | succ n ih =>
    intro s hs hin x h
    simp only [brentLoop] at h
    have hs' := hs.swap
    have hin' := hin.swap
    split_ifs at h with h1
    · injection h with h
      subst h
      refine ⟨hin'.1, ?_⟩
      rcases h1 with h1 | h1
      · right
        refine ⟨(bSwap s).c, hin'.2, ?_, ?_⟩
        · unfold bM bTol at h1
          rw [abs_mul] at h1
          have : |(0.5 : ℝ)| = 0.5 := abs_of_pos (by norm_num)
          rw [this] at h1
          linarith
        · have := hs'.sign
          rw [hs'.hb, hs'.hc] at this
          exact this
      · left
        rw [← hs'.hb]; exact h1
    · push Not at h1
      have htol : 0 ≤ bTol eps t (bSwap s) := by unfold bTol; positivity
      rcases hst : bStep (bTol eps t (bSwap s)) (bSwap s) with ed | _ | _
      · rw [hst] at h
        exact ih _ (hs'.advance _ _ _) (hin'.advance f _ htol h1.1 ed hst) x h
      · rw [hst] at h; simp [Outcome.bind] at h
      · rw [hst] at h; simp [Outcome.bind] at h

/-- No division by zero in one step. -/
theorem bStep_safe (tol : ℝ) (s : BState) (h : |s.fb| ≤ |s.fc|) (hb : s.fb ≠ 0) :
    bStep tol s ≠ .ub := by
  unfold bStep
  split_ifs with h1
  · simp
  · push Not at h1
    have hfa : s.fa ≠ 0 := by
      intro h0
      rw [h0, abs_zero] at h1
      exact absurd h1.2 (not_lt.2 (abs_nonneg _))
    have hfc : s.fc ≠ 0 := by
      intro h0
      rw [h0, abs_zero] at h
      exact hb (abs_eq_zero.1 (le_antisymm h (abs_nonneg _)))
    have hq : ∀ p q : ℝ, p < |0.5 * s.e * q| → 0 ≤ p → q ≠ 0 := by
      intro p q hp h0 hq
      rw [hq, mul_zero, abs_zero] at hp
      linarith
    unfold bInterp
    rw [if_neg hfa]
    have key : ∀ pq : ℝ × ℝ, (fun pq : ℝ × ℝ =>
        (let p := open Classical in if 0 < pq.1 then pq.1 else -pq.1
         let q := open Classical in if 0 < pq.1 then -pq.2 else pq.2
         open Classical in
         if 2 * p < 3 * bM s * q - |tol * q| ∧ p < |0.5 * s.e * q| then
          if q = 0 then (Outcome.ub : Outcome (ℝ × ℝ)) else .ok (s.d, p / q)
         else .ok (bM s, bM s))) pq ≠ .ub := by
      intro pq
      dsimp only
      have hp0 : 0 ≤ (open Classical in if 0 < pq.1 then pq.1 else -pq.1) := by
        split_ifs with h
        · exact h.le
        · linarith
      generalize (open Classical in if 0 < pq.1 then pq.1 else -pq.1) = p at hp0 ⊢
      generalize (open Classical in if 0 < pq.1 then -pq.2 else pq.2) = q
      split_ifs with h2 h3
      · exact absurd h3 (hq p q h2.2 hp0)
      · simp
      · simp
    split_ifs with h3
    · exact key _
    · exact key _

theorem bSwap_le (s : BState) : |(bSwap s).fb| ≤ |(bSwap s).fc| := by
  unfold bSwap
  split_ifs with h
  · exact h.le
  · exact not_lt.1 h

/-- No division by zero in the whole loop, whatever the state. -/
theorem brentLoop_safe (f : ℝ → ℝ) (eps t : ℝ) (n : ℕ) :
    ∀ s, brentLoop f eps t n s ≠ .ub := by
  induction n with
  | zero => intro s; simp [brentLoop]
  | succ n ih =>
    intro s
    simp only [brentLoop]
    split_ifs with h1
    · simp
    · push Not at h1
      have h2 := bStep_safe (bTol eps t (bSwap s)) (bSwap s) (bSwap_le s) h1.2
      rcases hst : bStep (bTol eps t (bSwap s)) (bSwap s) with ed | _ | _
      · exact ih _
      · simp [Outcome.bind]
      · exact absurd hst h2

/-- A sign change of a continuous function gives a zero between the points. -/
theorem zero_between (f : ℝ → ℝ) (hf : Continuous f) (x c : ℝ)
    (h : (0 < f x ∧ f c ≤ 0) ∨ (f x ≤ 0 ∧ 0 < f c)) : ∃ z ∈ Set.uIcc x c, f z = 0 := by
  have := intermediate_value_uIcc (a := x) (b := c) hf.continuousOn
  have h0 : (0 : ℝ) ∈ Set.uIcc (f x) (f c) := by
    rw [Set.mem_uIcc]
    rcases h with ⟨a, b⟩ | ⟨a, b⟩
    · exact Or.inr ⟨b, a.le⟩
    · exact Or.inl ⟨a, b.le⟩
  obtain ⟨z, hz, e⟩ := this h0
  exact ⟨z, hz, e⟩

theorem brent_increasing (f : ℝ → ℝ) (hf : Continuous f) (eps a b t : ℝ) (n : ℕ)
    (he : 0 ≤ eps) (ht : 0 ≤ t) (hab : a ≤ b) (ha : f a < 0) (hb : 0 < f b) (x : ℝ)
    (h : brent f eps a b t n = .ok (some x)) :
    x ∈ Set.Icc a b ∧
      ∃ z ∈ Set.Icc a b, f z = 0 ∧ (z = x ∨ |z - x| ≤ 2 * (2 * eps * |x| + t)) := by
  rw [brent, if_neg (not_le.2 (mul_neg_of_neg_of_pos ha hb))] at h
  have h1 : ¬ f a > f b := by linarith
  have hi : Inv f (brentInit f a b) := by
    unfold brentInit
    dsimp only
    rw [if_neg h1, if_neg h1]
    exact ⟨rfl, rfl, Or.inl ⟨hb, ha.le⟩⟩
  have hin : Inside a b (brentInit f a b) := ⟨⟨hab, le_refl b⟩, ⟨le_refl a, hab⟩⟩
  rcases hl : brentLoop f eps t n (brentInit f a b) with y | _ | _
  · rw [hl] at h
    simp only [Outcome.map, Outcome.ok.injEq, Option.some.injEq] at h
    subst h
    obtain ⟨hy, h0 | ⟨c, hcI, hc, hsg⟩⟩ := brentLoop_inside f eps t a b he ht n _ hi hin y hl
    · exact ⟨hy, y, hy, h0, Or.inl rfl⟩
    · obtain ⟨z, hz, h0⟩ := zero_between f hf y c hsg
      refine ⟨hy, z, Set.uIcc_subset_Icc hy hcI hz, h0, Or.inr (le_trans ?_ hc)⟩
      rw [Set.mem_uIcc] at hz
      rcases hz with ⟨h1, h2⟩ | ⟨h1, h2⟩
      · rw [abs_of_nonneg (by linarith), abs_of_nonneg (by linarith)]; linarith
      · rw [abs_of_nonpos (by linarith), abs_of_nonpos (by linarith)]; linarith
  · rw [hl] at h; simp [Outcome.map] at h
  · rw [hl] at h; simp [Outcome.map] at h

end Verif.RootFind
