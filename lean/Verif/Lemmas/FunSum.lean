import Verif.Model.FunSum
import Mathlib.Algebra.BigOperators.Group.List.Lemmas
import Mathlib.Tactic.Linarith

/-! # Lemmas about sums of functions -/

namespace Verif.FunSum

variable {P V : Type}

theorem get_eq_ok {α : Type} (l : List α) (i : ℕ) (h : i < l.length) : get l i = .ok l[i] := by
  simp [get, h]

theorem get_eq_ub {α : Type} (l : List α) (i : ℕ) (h : l.length ≤ i) : get l i = .ub := by
  simp [get, h]

theorem bind_ok' {α β : Type} (a : α) (f : α → Outcome β) : (Outcome.ok a).bind f = f a := rfl

theorem sumLoop_ok [AddMonoid V] (k m : ℕ) (u : P) (val : FunSet P V → V) (fs : List (FunSet P V))
    (h : ∀ f ∈ fs, ∃ p, get f.pieces k = .ok p ∧ p.ders m u = val f) (r : V) :
    sumLoop k m u fs r = .ok (r + (fs.map val).sum) := by
  induction fs generalizing r with
  | nil => simp [sumLoop]
  | cons f fs ih =>
    obtain ⟨p, hp, hv⟩ := h f (by simp)
    unfold sumLoop
    rw [hp, bind_ok', ih (fun g hg => h g (by simp [hg])), hv]
    simp [add_assoc]

theorem ders_ok [AddMonoid V] (k m : ℕ) (u : P) (val : FunSet P V → V) (fs : List (FunSet P V))
    (hne : fs ≠ []) (h : ∀ f ∈ fs, ∃ p, get f.pieces k = .ok p ∧ p.ders m u = val f) :
    ders fs k m u = .ok ((fs.map val).sum) := by
  cases fs with
  | nil => exact absurd rfl hne
  | cons f fs =>
    obtain ⟨p, hp, hv⟩ := h f (by simp)
    unfold ders
    simp only
    rw [hp, bind_ok', sumLoop_ok k m u val fs (fun g hg => h g (by simp [hg])), hv]
    simp

theorem enlarge_ok (a b : List (ℝ × ℝ)) (h : a.length = b.length) :
    ∃ r, enlarge a b = .ok r ∧ r.length = a.length ∧
      ∀ (d : ℕ) (x y z : ℝ × ℝ), a[d]? = some x → b[d]? = some y → r[d]? = some z →
        z.1 = min x.1 y.1 ∧ z.2 = max x.2 y.2 := by
  induction a generalizing b with
  | nil => exact ⟨[], rfl, rfl, by simp⟩
  | cons x a ih =>
    cases b with
    | nil => simp at h
    | cons y b =>
      obtain ⟨r, hr, hl, hv⟩ := ih b (by simpa using h)
      refine ⟨_ :: r, by unfold enlarge; rw [hr]; rfl, by simp [hl], ?_⟩
      intro d x' y' z' hx hy hz
      cases d with
      | zero =>
        simp at hx hy hz
        subst hx hy hz
        constructor
        · simp only
          split_ifs with hc
          · rw [min_eq_right hc.le]
          · rw [min_eq_left (not_lt.mp hc)]
        · simp only
          split_ifs with hc
          · rw [max_eq_right hc.le]
          · rw [max_eq_left (not_lt.mp hc)]
      | succ d => exact hv d x' y' z' (by simpa using hx) (by simpa using hy) (by simpa using hz)

/-- Invariant of the support loop: the result is the start box enlarged by all boxes. -/
theorem supportLoop_ok (k : ℕ) (box : FunSet P V → List (ℝ × ℝ)) (n : ℕ) (fs : List (FunSet P V))
    (h : ∀ f ∈ fs, ∃ p, get f.pieces k = .ok p ∧ p.support = box f ∧ (box f).length = n)
    (s : List (ℝ × ℝ)) (hs : s.length = n) :
    ∃ r, supportLoop k fs s = .ok r ∧ r.length = n ∧
      ∀ (d : ℕ) (z : ℝ × ℝ), r[d]? = some z →
        (∀ b, (b = s ∨ ∃ f ∈ fs, b = box f) → ∀ y, b[d]? = some y → z.1 ≤ y.1 ∧ y.2 ≤ z.2) ∧
        (∃ b, (b = s ∨ ∃ f ∈ fs, b = box f) ∧ ∃ y, b[d]? = some y ∧ z.1 = y.1) ∧
        (∃ b, (b = s ∨ ∃ f ∈ fs, b = box f) ∧ ∃ y, b[d]? = some y ∧ z.2 = y.2) := by
  induction fs generalizing s with
  | nil =>
    refine ⟨s, rfl, hs, ?_⟩
    intro d z hz
    refine ⟨?_, ⟨s, Or.inl rfl, z, hz, rfl⟩, ⟨s, Or.inl rfl, z, hz, rfl⟩⟩
    rintro b (rfl | ⟨f, hf, _⟩) y hy
    · rw [hz] at hy; cases hy; exact ⟨le_refl _, le_refl _⟩
    · simp at hf
  | cons f fs ih =>
    obtain ⟨p, hp, hb, hl⟩ := h f (by simp)
    obtain ⟨e, he, hel, hev⟩ := enlarge_ok s (box f) (by rw [hs, hl])
    obtain ⟨r, hr, hrl, hrv⟩ := ih (fun g hg => h g (by simp [hg])) e (by rw [hel, hs])
    refine ⟨r, ?_, hrl, ?_⟩
    · unfold supportLoop
      rw [hp, bind_ok', hb, he, bind_ok', hr]
    · intro d z hz
      have hd : d < n := by
        rw [← hrl]
        by_contra hc
        rw [List.getElem?_eq_none (by omega)] at hz
        cases hz
      obtain ⟨hall, ⟨b1, hb1, y1, hy1, hz1⟩, ⟨b2, hb2, y2, hy2, hz2⟩⟩ := hrv d z hz
      have hxs : s[d]? = some s[d] := by simp [hs, hd]
      have hxb : (box f)[d]? = some (box f)[d] := by simp [hl, hd]
      have hxe : e[d]? = some e[d] := by simp [hel, hs, hd]
      obtain ⟨hmin, hmax⟩ := hev d _ _ _ hxs hxb hxe
      have hze := hall e (Or.inl rfl) _ hxe
      refine ⟨?_, ?_, ?_⟩
      · rintro b (rfl | ⟨g, hg, rfl⟩) y hy
        · rw [hxs] at hy; cases hy
          exact ⟨hze.1.trans (hmin ▸ min_le_left _ _), (hmax ▸ le_max_left _ _ : _ ≤ e[d].2).trans hze.2⟩
        · rcases List.mem_cons.mp hg with rfl | hg
          · rw [hxb] at hy; cases hy
            exact ⟨hze.1.trans (hmin ▸ min_le_right _ _), (hmax ▸ le_max_right _ _ : _ ≤ e[d].2).trans hze.2⟩
          · exact hall _ (Or.inr ⟨g, hg, rfl⟩) y hy
      · rcases hb1 with rfl | ⟨g, hg, rfl⟩
        · rw [hxe] at hy1; cases hy1
          rcases min_choice (s[d].1) ((box f)[d].1) with hc | hc
          · exact ⟨s, Or.inl rfl, _, hxs, by rw [hz1, hmin, hc]⟩
          · exact ⟨box f, Or.inr ⟨f, by simp, rfl⟩, _, hxb, by rw [hz1, hmin, hc]⟩
        · exact ⟨box g, Or.inr ⟨g, by simp [hg], rfl⟩, y1, hy1, hz1⟩
      · rcases hb2 with rfl | ⟨g, hg, rfl⟩
        · rw [hxe] at hy2; cases hy2
          rcases max_choice (s[d].2) ((box f)[d].2) with hc | hc
          · exact ⟨s, Or.inl rfl, _, hxs, by rw [hz2, hmax, hc]⟩
          · exact ⟨box f, Or.inr ⟨f, by simp, rfl⟩, _, hxb, by rw [hz2, hmax, hc]⟩
        · exact ⟨box g, Or.inr ⟨g, by simp [hg], rfl⟩, y2, hy2, hz2⟩

end Verif.FunSum
