import Verif.Model.Principal
import Verif.Spec.Principal
import Verif.Lemmas.SpectralFrame
import Mathlib.Tactic.Linarith
import Mathlib.Tactic.LinearCombination
import Mathlib.LinearAlgebra.Matrix.Determinant.Basic

/-! # Helper lemmas: principal values -/

namespace Verif.Principal

open Verif.Spectral Spec.Spectral Spec.Principal Matrix Verif.Hyper

theorem gram_apply (g : Cols) (i j : Fin 2) : gram g i j = cdot (g (up i)) (g (up j)) := by
  rcases fin2_cases i with rfl | rfl <;> rcases fin2_cases j with rfl | rfl <;>
    simp [gram, cdot]

/-- Characteristic polynomial from a decomposition. -/
theorem charpoly {B : T3} {val : Fin 3 → ℝ} {vec : Fin 3 → Fin 3 → ℝ}
    (h : IsEigenDecomposition B val vec) (t : ℝ) :
    (B 0 0 - t) * (B 1 1 - t) * (B 2 2 - t) - (B 0 0 - t) * B 1 2 * B 2 1
      - B 0 1 * B 1 0 * (B 2 2 - t) + B 0 1 * B 1 2 * B 2 0 + B 0 2 * B 1 0 * B 2 1
      - B 0 2 * (B 1 1 - t) * B 2 0
      = (val 0 - t) * (val 1 - t) * (val 2 - t) := by
  have h1 : (Matrix.of vec) * (Matrix.of vec)ᵀ = 1 := by
    ext a b
    simp only [Matrix.mul_apply, Matrix.transpose_apply, Matrix.of_apply, h.orthonormal,
      Matrix.one_apply]
  have h2 : (Matrix.of B - t • (1 : Matrix (Fin 3) (Fin 3) ℝ)) * (Matrix.of vec)ᵀ
      = (Matrix.of vec)ᵀ * Matrix.diagonal (fun a => val a - t) := by
    rw [Matrix.sub_mul, Matrix.smul_mul, Matrix.one_mul]
    ext i a
    rw [Matrix.mul_diagonal]
    simp only [Matrix.sub_apply, Matrix.mul_apply, Matrix.smul_apply, Matrix.transpose_apply,
      Matrix.of_apply, h.eigen, smul_eq_mul]
    ring
  have hd : (Matrix.of vec)ᵀ.det ≠ 0 := by
    have := congrArg Matrix.det h1
    rw [Matrix.det_mul, Matrix.det_one] at this
    intro h0
    rw [h0, mul_zero] at this
    exact zero_ne_one this
  have h3 := congrArg Matrix.det h2
  rw [Matrix.det_mul, Matrix.det_mul, mul_comm, Matrix.det_diagonal] at h3
  have h4 := mul_left_cancel₀ hd h3
  rw [Matrix.det_fin_three, Fin.prod_univ_three] at h4
  rw [← h4]
  simp [Matrix.sub_apply]

/-- Characteristic polynomial of a tensor of the tangent plane. -/
theorem charpoly_Bmat (S : T2) (g : Cols) (t : ℝ) :
    (Bmat S g 0 0 - t) * (Bmat S g 1 1 - t) * (Bmat S g 2 2 - t)
      - (Bmat S g 0 0 - t) * Bmat S g 1 2 * Bmat S g 2 1
      - Bmat S g 0 1 * Bmat S g 1 0 * (Bmat S g 2 2 - t) + Bmat S g 0 1 * Bmat S g 1 2 * Bmat S g 2 0
      + Bmat S g 0 2 * Bmat S g 1 0 * Bmat S g 2 1
      - Bmat S g 0 2 * (Bmat S g 1 1 - t) * Bmat S g 2 0
      = -t * ((mul2 S (gram g) 0 0 - t) * (mul2 S (gram g) 1 1 - t)
        - mul2 S (gram g) 0 1 * mul2 S (gram g) 1 0) := by
  simp only [Bmat, mul2, gram, Fin.sum_univ_two, Fin.sum_univ_three, up_zero, up_one, if_true,
    if_neg (show (1 : Fin 2) ≠ 0 by decide)]
  ring

/-- Two ascending triples with the same characteristic polynomial agree. -/
theorem triple_unique {a b c x y z : ℝ} (h1 : a ≤ b) (h2 : b ≤ c) (k1 : x ≤ y) (k2 : y ≤ z)
    (h : ∀ t, (a - t) * (b - t) * (c - t) = (x - t) * (y - t) * (z - t)) :
    a = x ∧ b = y ∧ c = z := by
  have hx : x ≤ a := by
    have := h a
    rw [sub_self, zero_mul, zero_mul] at this
    rcases mul_eq_zero.1 this.symm with h0 | h0
    · rcases mul_eq_zero.1 h0 with h0 | h0 <;> linarith
    · linarith
  have ha : a ≤ x := by
    have := h x
    rw [sub_self, zero_mul, zero_mul] at this
    rcases mul_eq_zero.1 this with h0 | h0
    · rcases mul_eq_zero.1 h0 with h0 | h0 <;> linarith
    · linarith
  have hax : a = x := le_antisymm ha hx
  subst hax
  have e0 := h 0
  have e1 := h 1
  have e2 := h (-1)
  have hs : b + c = y + z := by linarith
  have hp : b * c = y * z := by nlinarith
  have hb : (b - y) * (b - z) = 0 := by nlinarith
  rcases mul_eq_zero.1 hb with h0 | h0
  · exact ⟨rfl, by linarith, by linarith⟩
  · exact ⟨rfl, by linarith, by linarith⟩

/-- The eigenvalues are zero and the principal values, in ascending order. -/
theorem eigenvalues {S : T2} {g : Cols} {e : Eig} {x y : ℝ}
    (h : IsEigenDecomposition (Bmat S g) e.val e.vec) (hp : PrincipalValues S (gram g) x y) :
    (0 ≤ x ∧ e.val 0 = 0 ∧ e.val 1 = x ∧ e.val 2 = y) ∨
    (x ≤ 0 ∧ 0 ≤ y ∧ e.val 0 = x ∧ e.val 1 = 0 ∧ e.val 2 = y) ∨
    (y ≤ 0 ∧ e.val 0 = x ∧ e.val 1 = y ∧ e.val 2 = 0) := by
  have c : ∀ t, (e.val 0 - t) * (e.val 1 - t) * (e.val 2 - t) = -t * ((t - x) * (t - y)) := by
    intro t
    rw [← charpoly h, charpoly_Bmat, hp.roots]
  have hl := hp.le
  rcases le_total 0 x with h0 | h0
  · left
    obtain ⟨a, b, d⟩ := triple_unique h.ascending.1 h.ascending.2 h0 hl
      (fun t => by rw [c]; ring)
    exact ⟨h0, a, b, d⟩
  · right
    rcases le_total 0 y with h1 | h1
    · left
      obtain ⟨a, b, d⟩ := triple_unique h.ascending.1 h.ascending.2 h0 h1
        (fun t => by rw [c]; ring)
      exact ⟨h0, h1, a, b, d⟩
    · right
      obtain ⟨a, b, d⟩ := triple_unique h.ascending.1 h.ascending.2 hl h1
        (fun t => by rw [c]; ring)
      exact ⟨h1, a, b, d⟩

/-- The eigenvalues contain zero. -/
theorem has_zero {S : T2} {g : Cols} {e : Eig}
    (h : IsEigenDecomposition (Bmat S g) e.val e.vec) :
    e.val 0 = 0 ∨ e.val 1 = 0 ∨ e.val 2 = 0 := by
  have c := charpoly h 0
  rw [charpoly_Bmat] at c
  simp only [neg_zero, zero_mul, sub_zero] at c
  rcases mul_eq_zero.1 c.symm with h0 | h0
  · rcases mul_eq_zero.1 h0 with h0 | h0
    · exact Or.inl h0
    · exact Or.inr (Or.inl h0)
  · exact Or.inr (Or.inr h0)

theorem le_of_rel {e : Eig} {a : ℝ} (ha : |a| ≤ max (max |e.val 0| |e.val 1|) |e.val 2|)
    (hlt : |a| / relMax e < 1e-14) :
    |a| ≤ 1e-14 * max (max |e.val 0| |e.val 1|) |e.val 2| := by
  unfold relMax at hlt
  split_ifs at hlt with h0
  · rw [h0] at ha ⊢
    simpa using ha
  · have hpos : 0 < max (max |e.val 0| |e.val 1|) |e.val 2| :=
      lt_of_le_of_ne (le_trans (abs_nonneg _) (le_max_right _ _)) (Ne.symm h0)
    exact ((div_lt_iff₀ hpos).1 hlt).le

theorem ne_of_rel {e : Eig} {a : ℝ} (hn : ¬ |a| / relMax e < 1e-14) : a ≠ 0 := by
  intro h0
  apply hn
  rw [h0, abs_zero, zero_div]
  norm_num

/-- Which columns are selected. -/
theorem relMax_ne (e : Eig) : relMax e ≠ 0 := by
  unfold relMax
  split_ifs with h
  · exact one_ne_zero
  · exact h

open Classical in
theorem select_eq (e : Eig) : select e = if |e.val 2| / relMax e < 1e-14 then .ok (pick e 0 1)
    else if |e.val 1| / relMax e < 1e-14 then .ok (pick e 0 2)
    else if |e.val 0| / relMax e < 1e-14 then .ok (pick e 1 2)
    else .ub := by
  unfold select small
  simp only [ne_eq, relMax_ne e, not_false_eq_true, true_and]

theorem select_cases (e : Eig) (p : Princ) (h : select e = .ok p) :
    (p = pick e 0 1 ∧ |e.val 2| ≤ 1e-14 * max (max |e.val 0| |e.val 1|) |e.val 2|) ∨
    (p = pick e 0 2 ∧ |e.val 1| ≤ 1e-14 * max (max |e.val 0| |e.val 1|) |e.val 2| ∧
      e.val 2 ≠ 0) ∨
    (p = pick e 1 2 ∧ |e.val 0| ≤ 1e-14 * max (max |e.val 0| |e.val 1|) |e.val 2| ∧
      e.val 1 ≠ 0 ∧ e.val 2 ≠ 0) := by
  rw [select_eq] at h
  split_ifs at h with h2 h1 h0
  · left
    exact ⟨(Outcome.ok.inj h).symm, le_of_rel (le_max_right _ _) h2⟩
  · right; left
    exact ⟨(Outcome.ok.inj h).symm,
      le_of_rel (le_trans (le_max_right _ _) (le_max_left _ _)) h1, ne_of_rel h2⟩
  · right; right
    exact ⟨(Outcome.ok.inj h).symm,
      le_of_rel (le_trans (le_max_left _ _) (le_max_left _ _)) h0, ne_of_rel h1, ne_of_rel h2⟩

/-- With a zero among the eigenvalues two columns are selected. -/
theorem select_ok (e : Eig) (h : e.val 0 = 0 ∨ e.val 1 = 0 ∨ e.val 2 = 0) :
    ∃ p, select e = .ok p := by
  rw [select_eq]
  split_ifs with h2 h1 h0
  · exact ⟨_, rfl⟩
  · exact ⟨_, rfl⟩
  · exact ⟨_, rfl⟩
  · rcases h with hz | hz | hz
    · exact absurd hz (ne_of_rel h0)
    · exact absurd hz (ne_of_rel h1)
    · exact absurd hz (ne_of_rel h2)

/-- A value that is small compared with a maximum it attains vanishes. -/
theorem small_max {z m : ℝ} (h : |z| ≤ 1e-14 * m) (hm : m ≤ |z|) : z = 0 := by
  have h0 := abs_nonneg z
  exact abs_nonpos_iff.1 (by norm_num at h; linarith)

/-- The selected values are the principal values up to the tolerance. -/
theorem select_values {S : T2} {g : Cols} {e : Eig} {x y : ℝ} {p : Princ}
    (h : IsEigenDecomposition (Bmat S g) e.val e.vec) (hp : PrincipalValues S (gram g) x y)
    (hs : select e = .ok p) :
    |p.val 0 - x| ≤ 1e-14 * max |x| |y| ∧ |p.val 1 - y| ≤ 1e-14 * max |x| |y| := by
  have hl := hp.le
  have mn : 0 ≤ 1e-14 * max |x| |y| :=
    mul_nonneg (by norm_num) (le_trans (abs_nonneg x) (le_max_left _ _))
  have pv : ∀ a b : Fin 3, (pick e a b).val 0 = e.val a ∧ (pick e a b).val 1 = e.val b :=
    fun a b => ⟨rfl, rfl⟩
  have c := select_cases e p hs
  rcases eigenvalues h hp with ⟨h0, e0, e1, e2⟩ | ⟨h0, h1, e0, e1, e2⟩ | ⟨h1, e0, e1, e2⟩
  · have hm : max (max |(0 : ℝ)| |x|) |y| = |y| := by
      rw [abs_zero, max_eq_right (abs_nonneg x), abs_of_nonneg h0, abs_of_nonneg (h0.trans hl)]
      exact max_eq_right hl
    have hm' : max |x| |y| = |y| := by
      rw [abs_of_nonneg h0, abs_of_nonneg (h0.trans hl)]
      exact max_eq_right hl
    rw [e0, e1, e2, hm] at c
    rw [hm'] at mn ⊢
    rcases c with ⟨rfl, c⟩ | ⟨rfl, c, c'⟩ | ⟨rfl, c, c'⟩
    · have hy := small_max c le_rfl
      have hx : x = 0 := by linarith
      rw [(pv 0 1).1, (pv 0 1).2, e0, e1, hy, hx]
      simp
    · rw [(pv 0 2).1, (pv 0 2).2, e0, e2]
      refine ⟨by rwa [zero_sub, abs_neg], by simpa using mn⟩
    · rw [(pv 1 2).1, (pv 1 2).2, e1, e2]
      refine ⟨by simpa using mn, by simpa using mn⟩
  · have hm : max (max |x| |(0 : ℝ)|) |y| = max |x| |y| := by
      rw [abs_zero, max_eq_left (abs_nonneg x)]
    rw [e0, e1, e2, hm] at c
    rcases c with ⟨rfl, c⟩ | ⟨rfl, c, c'⟩ | ⟨rfl, c, c'⟩
    · rw [(pv 0 1).1, (pv 0 1).2, e0, e1]
      refine ⟨by simpa using mn, by rwa [zero_sub, abs_neg]⟩
    · rw [(pv 0 2).1, (pv 0 2).2, e0, e2]
      refine ⟨by simpa using mn, by simpa using mn⟩
    · exact absurd rfl c'.1
  · have hm : max (max |x| |y|) |(0 : ℝ)| = max |x| |y| := by
      rw [abs_zero]
      exact max_eq_left (le_trans (abs_nonneg x) (le_max_left _ _))
    have hx0 : x ≤ 0 := hl.trans h1
    have hm' : max |x| |y| = |x| := by
      rw [abs_of_nonpos hx0, abs_of_nonpos h1]
      exact max_eq_left (by linarith)
    rw [e0, e1, e2, hm] at c
    rcases c with ⟨rfl, c⟩ | ⟨rfl, c, c'⟩ | ⟨rfl, c, c'⟩
    · rw [(pv 0 1).1, (pv 0 1).2, e0, e1]
      refine ⟨by simpa using mn, by simpa using mn⟩
    · exact absurd rfl c'
    · exact absurd rfl c'.2

/-- The selected values are in ascending order. -/
theorem select_ascending {e : Eig} {p : Princ} (h : e.val 0 ≤ e.val 1 ∧ e.val 1 ≤ e.val 2)
    (hs : select e = .ok p) : p.val 0 ≤ p.val 1 := by
  rcases select_cases e p hs with ⟨rfl, _⟩ | ⟨rfl, _⟩ | ⟨rfl, _⟩
  · exact h.1
  · exact h.1.trans h.2
  · exact h.2

/-- A symmetric tensor in a positive metric has principal values. -/
theorem exists_values (S G : T2) (hS : S 0 1 = S 1 0) (hG : G 0 1 = G 1 0) (hG0 : 0 < G 0 0)
    (hd : 0 < G 0 0 * G 1 1 - G 0 1 * G 1 0) : ∃ x y, PrincipalValues S G x y := by
  set tr := mul2 S G 0 0 + mul2 S G 1 1 with htr
  set dt := mul2 S G 0 0 * mul2 S G 1 1 - mul2 S G 0 1 * mul2 S G 1 0 with hdt
  have hD : 0 ≤ tr ^ 2 - 4 * dt := by
    have hdt' : dt = (S 0 0 * S 1 1 - S 0 1 * S 1 0) * (G 0 0 * G 1 1 - G 0 1 * G 1 0) := by
      rw [hdt]; simp only [mul2]; ring
    have htr' : tr = S 0 0 * G 0 0 + 2 * S 0 1 * G 0 1 + S 1 1 * G 1 1 := by
      rw [htr]; simp only [mul2]; rw [← hS, ← hG]; ring
    rw [← hG] at hd hdt'
    rw [← hS] at hdt'
    have key : (tr ^ 2 - 4 * dt) * (G 0 0) ^ 2 =
        (S 0 0 * G 0 0 ^ 2 + 2 * S 0 1 * G 0 1 * G 0 0 + S 1 1 * G 0 1 ^ 2
          - S 1 1 * (G 0 0 * G 1 1 - G 0 1 * G 0 1)) ^ 2
        + 4 * (G 0 0 * G 1 1 - G 0 1 * G 0 1) * (S 0 1 * G 0 0 + S 1 1 * G 0 1) ^ 2 := by
      rw [hdt', htr']; ring
    have h2 : 0 < (G 0 0) ^ 2 := by positivity
    by_contra hneg
    push Not at hneg
    have : (tr ^ 2 - 4 * dt) * (G 0 0) ^ 2 < 0 := mul_neg_of_neg_of_pos hneg h2
    rw [key] at this
    have : 0 ≤ 4 * (G 0 0 * G 1 1 - G 0 1 * G 0 1) * (S 0 1 * G 0 0 + S 1 1 * G 0 1) ^ 2 := by
      positivity
    nlinarith [sq_nonneg (S 0 0 * G 0 0 ^ 2 + 2 * S 0 1 * G 0 1 * G 0 0 + S 1 1 * G 0 1 ^ 2
          - S 1 1 * (G 0 0 * G 1 1 - G 0 1 * G 0 1))]
  have hs := Real.sq_sqrt hD
  refine ⟨(tr - Real.sqrt (tr ^ 2 - 4 * dt)) / 2, (tr + Real.sqrt (tr ^ 2 - 4 * dt)) / 2, ?_, ?_⟩
  · have := Real.sqrt_nonneg (tr ^ 2 - 4 * dt)
    linarith
  · intro t
    rw [htr] at hs ⊢
    rw [hdt] at hs ⊢
    linear_combination (1 / 4) * hs

/-- Principal values are unique. -/
theorem values_unique {S G : T2} {x y x' y' : ℝ} (h : PrincipalValues S G x y)
    (h' : PrincipalValues S G x' y') : x = x' ∧ y = y' := by
  have c : ∀ t, (t - x) * (t - y) = (t - x') * (t - y') := fun t => by rw [← h.roots, h'.roots]
  have c0 := c 0
  have c1 := c 1
  have hs : x + y = x' + y' := by linarith
  have hp : x * y = x' * y' := by linarith
  have hb : (x - x') * (x - y') = 0 := by linear_combination x * hs - hp
  have := h.le
  have := h'.le
  rcases mul_eq_zero.1 hb with h0 | h0
  · exact ⟨by linarith, by linarith⟩
  · exact ⟨by linarith, by linarith⟩

/-- The basis stored after a loop over at least one point is that of the last point. -/
theorem stored_last {n m : ℕ} (g0 : Cols) (g : Fin (n + 1) → Fin (m + 1) → Cols) :
    stored g0 g = g (Fin.last n) (Fin.last m) := by
  have hf : ∀ (l : List (Fin (n + 1) × Fin (m + 1))) (p : Fin (n + 1) × Fin (m + 1)) (a : Cols),
      (l ++ [p]).foldl (fun _ q => g q.1 q.2) a = g p.1 p.2 := by
    intro l p a
    rw [List.foldl_append]
    rfl
  unfold stored visits
  rw [List.finRange_succ_last (n := n), List.flatMap_append, List.flatMap_singleton,
    List.finRange_succ_last (n := m), List.map_append, List.map_singleton, ← List.append_assoc, hf]

/-- The signs of the principal values depend on the tensor only. -/
theorem sum_prod {S G : T2} {x y : ℝ} (h : PrincipalValues S G x y) :
    x + y = mul2 S G 0 0 + mul2 S G 1 1 ∧
    x * y = (S 0 0 * S 1 1 - S 0 1 * S 1 0) * (G 0 0 * G 1 1 - G 0 1 * G 1 0) := by
  have c0 := h.roots 0
  have c1 := h.roots 1
  have hp : x * y = mul2 S G 0 0 * mul2 S G 1 1 - mul2 S G 0 1 * mul2 S G 1 0 := by linarith
  refine ⟨by linarith, ?_⟩
  rw [hp]; simp only [mul2]; ring

/-- Positive metric. -/
theorem metric_form {G : T2} (hG0 : 0 < G 0 0) (hd : 0 < G 0 0 * G 1 1 - G 0 1 * G 0 1)
    (a b : ℝ) : 0 ≤ G 0 0 * a ^ 2 + 2 * G 0 1 * a * b + G 1 1 * b ^ 2 ∧
      (a ≠ 0 → 0 < G 0 0 * a ^ 2 + 2 * G 0 1 * a * b + G 1 1 * b ^ 2) ∧ 0 < G 1 1 := by
  have h11 : 0 < G 1 1 := by nlinarith [sq_nonneg (G 0 1)]
  have key : G 1 1 * (G 0 0 * a ^ 2 + 2 * G 0 1 * a * b + G 1 1 * b ^ 2)
      = (G 1 1 * b + G 0 1 * a) ^ 2 + (G 0 0 * G 1 1 - G 0 1 * G 0 1) * a ^ 2 := by ring
  refine ⟨?_, fun ha => ?_, h11⟩
  · by_contra hn
    push Not at hn
    have h1 := mul_neg_of_pos_of_neg h11 hn
    rw [key] at h1
    have h2 : 0 ≤ (G 0 0 * G 1 1 - G 0 1 * G 0 1) * a ^ 2 := by positivity
    nlinarith [sq_nonneg (G 1 1 * b + G 0 1 * a)]
  · have h2 : 0 < (G 0 0 * G 1 1 - G 0 1 * G 0 1) * a ^ 2 := by positivity
    have h3 : 0 < G 1 1 * (G 0 0 * a ^ 2 + 2 * G 0 1 * a * b + G 1 1 * b ^ 2) := by
      rw [key]; nlinarith [sq_nonneg (G 1 1 * b + G 0 1 * a)]
    exact pos_of_mul_pos_right h3 h11.le

/-- Sign of the smaller principal value in terms of the tensor only. -/
theorem pos_iff {S G : T2} {x y : ℝ} (h : PrincipalValues S G x y) (hS : S 0 1 = S 1 0)
    (hG : G 0 1 = G 1 0) (hG0 : 0 < G 0 0) (hd : 0 < G 0 0 * G 1 1 - G 0 1 * G 1 0) :
    (0 < x ↔ 0 < S 0 0 ∧ 0 < S 0 0 * S 1 1 - S 0 1 * S 0 1) ∧
    (0 ≤ x ↔ 0 ≤ S 0 0 ∧ 0 ≤ S 1 1 ∧ 0 ≤ S 0 0 * S 1 1 - S 0 1 * S 0 1) := by
  obtain ⟨hs, hp⟩ := sum_prod h
  have hl := h.le
  rw [← hG] at hd hp
  rw [← hS] at hp
  have htr : x + y = S 0 0 * G 0 0 + 2 * S 0 1 * G 0 1 + S 1 1 * G 1 1 := by
    rw [hs]; simp only [mul2]; rw [← hS, ← hG]; ring
  obtain ⟨f0, f1, h11⟩ := metric_form hG0 hd (S 0 0) (S 0 1)
  have hd' : 0 < G 1 1 * G 0 0 - G 0 1 * G 0 1 := by linarith
  -- the same with the two directions exchanged
  obtain ⟨k0, k1, -⟩ := metric_form (G := ![![G 1 1, G 0 1], ![G 0 1, G 0 0]])
    (by simpa using h11) (by simpa using hd') (S 1 1) (S 0 1)
  simp only [Matrix.cons_val_zero, Matrix.cons_val_one, Fin.isValue] at k0 k1
  have e0 : S 0 0 * (x + y) = (G 0 0 * S 0 0 ^ 2 + 2 * G 0 1 * S 0 0 * S 0 1 + G 1 1 * S 0 1 ^ 2)
      + G 1 1 * (S 0 0 * S 1 1 - S 0 1 * S 0 1) := by rw [htr]; ring
  have e1 : S 1 1 * (x + y) = (G 1 1 * S 1 1 ^ 2 + 2 * G 0 1 * S 1 1 * S 0 1 + G 0 0 * S 0 1 ^ 2)
      + G 0 0 * (S 0 0 * S 1 1 - S 0 1 * S 0 1) := by rw [htr]; ring
  set D := S 0 0 * S 1 1 - S 0 1 * S 0 1 with hD
  have hDpos : 0 < x * y ↔ 0 < D := by
    rw [hp]; exact ⟨fun q => pos_of_mul_pos_left q hd.le, fun q => mul_pos q hd⟩
  have hDnn : 0 ≤ x * y ↔ 0 ≤ D := by
    rw [hp]
    exact ⟨fun q => by
      by_contra hn
      push Not at hn
      exact absurd (mul_neg_of_neg_of_pos hn hd) (not_lt.2 q), fun q => mul_nonneg q hd.le⟩
  constructor
  · constructor
    · intro hx
      have hy : 0 < y := lt_of_lt_of_le hx hl
      have hDp := hDpos.1 (mul_pos hx hy)
      have : 0 < S 0 0 * (x + y) := by rw [e0]; have := mul_pos h11 hDp; linarith
      exact ⟨pos_of_mul_pos_left this (by linarith), hDp⟩
    · rintro ⟨h0, hDp⟩
      have h1 : 0 < S 0 0 * (x + y) := by rw [e0]; have := mul_pos h11 hDp; linarith
      have h2 : 0 < x + y := pos_of_mul_pos_right h1 h0.le
      have h3 := hDpos.2 hDp
      by_contra hx
      push Not at hx
      have : 0 < y := by linarith
      nlinarith
  · constructor
    · intro hx
      have hy : 0 ≤ y := hx.trans hl
      have hDp := hDnn.1 (mul_nonneg hx hy)
      refine ⟨?_, ?_, hDp⟩
      · by_contra hn
        push Not at hn
        have h1 := f1 hn.ne
        have h2 := mul_nonneg h11.le hDp
        have h3 : S 0 0 * (x + y) ≤ 0 := mul_nonpos_of_nonpos_of_nonneg hn.le (by linarith)
        linarith
      · by_contra hn
        push Not at hn
        have h1 := k1 hn.ne
        have h2 := mul_nonneg hG0.le hDp
        have h3 : S 1 1 * (x + y) ≤ 0 := mul_nonpos_of_nonpos_of_nonneg hn.le (by linarith)
        linarith
    · rintro ⟨h0, h1, hDp⟩
      have h3 := hDnn.2 hDp
      have h2 : 0 ≤ x + y := by
        rcases h0.lt_or_eq with h0 | h0
        · have : 0 ≤ S 0 0 * (x + y) := by rw [e0]; have := mul_nonneg h11.le hDp; linarith
          by_contra hn
          push Not at hn
          exact absurd (mul_neg_of_pos_of_neg h0 hn) (not_lt.2 this)
        · have hz : S 0 1 = 0 := by
            rw [hD, ← h0] at hDp
            nlinarith [sq_nonneg (S 0 1)]
          rw [htr, ← h0, hz]
          have := mul_nonneg h1 h11.le
          linarith
      by_contra hx
      push Not at hx
      nlinarith

/-- Principal values of the opposite tensor. -/
theorem values_neg {S G : T2} {x y : ℝ} (h : PrincipalValues S G x y) :
    PrincipalValues (fun i j => -S i j) G (-y) (-x) := by
  refine ⟨by have := h.le; linarith, fun t => ?_⟩
  have := h.roots (-t)
  simp only [mul2] at this ⊢
  linear_combination this

/-- Principal values of a multiple. -/
theorem values_smul {S G : T2} {x y c : ℝ} (hc : 0 ≤ c) (h : PrincipalValues S G x y) :
    PrincipalValues (fun i j => S i j * c) G (x * c) (y * c) := by
  obtain ⟨hs, hp⟩ := sum_prod h
  refine ⟨mul_le_mul_of_nonneg_right h.le hc, fun t => ?_⟩
  simp only [mul2] at hs ⊢
  linear_combination (t * c) * hs - c ^ 2 * hp

end Verif.Principal
