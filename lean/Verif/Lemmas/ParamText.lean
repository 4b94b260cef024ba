import Verif.Model.ParamText
import Verif.Spec.ParamText
import Verif.Props.Examples
import Mathlib.Data.Int.Log
import Mathlib.Algebra.Order.Round

/-! # Helper lemmas for C171 -/

namespace Verif.ParamText

open V3 Verif.Examples Verif.Spec.ParamText Verif.Plate Verif.Balance
open Spec.Plate (flexural freq2)

theorem fixed_exact {x y : ℝ} (hx : Micro x) (h : Fixed x y) : y = x := by
  obtain ⟨k, hk⟩ := hx
  obtain ⟨-, -, h⟩ := h
  have := h k
  rw [← hk, mul_div_cancel_left₀ _ (by norm_num), sub_self, abs_zero] at this
  linarith [abs_nonpos_iff.1 this]

theorem fixed_error {x y : ℝ} (h : Fixed x y) : |y - x| ≤ 5 / 10 ^ 7 := by
  obtain ⟨-, -, h⟩ := h
  rw [abs_sub_comm]
  refine (h (round (10 ^ 6 * x))).trans ?_
  have := abs_sub_round (10 ^ 6 * x)
  rw [abs_le] at this ⊢
  constructor <;> [have := this.1; have := this.2] <;> norm_num at this ⊢ <;> linarith

theorem fixed_zero {x y : ℝ} (hx : |x| < 5 / 10 ^ 7) (h : Fixed x y) : y = 0 := by
  obtain ⟨k, rfl, h⟩ := h
  have h0 := h 0
  simp only [Int.cast_zero, zero_div, sub_zero] at h0
  have hk : |(k : ℝ) / 10 ^ 6| < 1 / 10 ^ 6 := by
    rw [abs_lt] at hx ⊢
    rw [abs_le] at h0
    have := abs_lt.2 hx
    constructor <;> norm_num at this h0 ⊢ <;> linarith [h0.1, h0.2]
  have : |(k : ℝ)| < 1 := by
    rw [abs_div, abs_of_pos (by norm_num : (0 : ℝ) < 10 ^ 6)] at hk
    exact (div_lt_div_iff_of_pos_right (by norm_num)).1 hk
  have hk0 : k = 0 := by
    have : |k| < 1 := by exact_mod_cast this
    exact Int.abs_lt_one_iff.1 this
  simp [hk0]

/-- A nonzero number with seven digits can be written with exactly seven. -/
theorem seven_norm {x : ℝ} (h0 : x ≠ 0) (hx : Seven x) :
    ∃ l q : ℤ, 10 ^ 6 ≤ |l| ∧ |l| < 10 ^ 7 ∧ x = l * (10 : ℝ) ^ (q - 6) := by
  obtain ⟨k, p, hk, rfl⟩ := hx
  have hk0 : k ≠ 0 := by rintro rfl; simp at h0
  have n0 : k.natAbs ≠ 0 := Int.natAbs_ne_zero.2 hk0
  have a1 : 10 ^ Nat.log 10 k.natAbs ≤ k.natAbs := Nat.pow_log_le_self 10 n0
  have a2 : k.natAbs < 10 ^ (Nat.log 10 k.natAbs + 1) := Nat.lt_pow_succ_log_self (by norm_num) _
  have hlt : k.natAbs < 10 ^ 7 := by have := Int.natCast_natAbs k; zify; exact hk
  have hd : Nat.log 10 k.natAbs ≤ 6 := by
    by_contra hc
    exact absurd (a1.trans_lt hlt) (not_lt.2 (Nat.pow_le_pow_right (by norm_num) (by omega)))
  obtain ⟨j, hj⟩ := Nat.exists_eq_add_of_le hd
  have b1 : 10 ^ 6 ≤ k.natAbs * 10 ^ j := by
    calc 10 ^ 6 = 10 ^ Nat.log 10 k.natAbs * 10 ^ j := by rw [← pow_add, ← hj]
      _ ≤ _ := Nat.mul_le_mul_right _ a1
  have b2 : k.natAbs * 10 ^ j < 10 ^ 7 := by
    calc _ < 10 ^ (Nat.log 10 k.natAbs + 1) * 10 ^ j := Nat.mul_lt_mul_of_pos_right a2 (by positivity)
      _ = 10 ^ 7 := by rw [← pow_add]; congr 1; omega
  refine ⟨k * 10 ^ j, p - j + 6, ?_, ?_, ?_⟩
  · zify at b1; rw [abs_mul, abs_pow]; exact b1
  · zify at b2; rw [abs_mul, abs_pow]; exact b2
  · push_cast
    rw [add_sub_cancel_right, zpow_sub₀ (by norm_num), zpow_natCast]
    field_simp

theorem sci_exact {x y : ℝ} (hx : Seven x) (h : Scientific x y) : y = x := by
  rcases h with ⟨rfl, rfl⟩ | ⟨h0, -, -, -, -, -, h⟩
  · rfl
  · obtain ⟨l, q, h1, h2, hl⟩ := seven_norm h0 hx
    have := h l q h1 h2
    rw [← hl, sub_self, abs_zero] at this
    linarith [abs_nonpos_iff.1 this]

theorem sci_error {x y : ℝ} (h : Scientific x y) : |y - x| ≤ 5 / 10 ^ 7 * |x| := by
  rcases h with ⟨rfl, rfl⟩ | ⟨h0, -, -, -, -, -, h⟩
  · simp
  rw [abs_sub_comm]
  set e := Int.log 10 |x| with he
  have hx : 0 < |x| := abs_pos.2 h0
  have a1 : (10 : ℝ) ^ e ≤ |x| := by exact_mod_cast Int.zpow_log_le_self (b := 10) (by norm_num) hx
  have a2 : |x| < (10 : ℝ) ^ (e + 1) := by exact_mod_cast Int.lt_zpow_succ_log_self (b := 10) (by norm_num) |x|
  set s : ℝ := (10 : ℝ) ^ (e - 6) with hs
  have s0 : 0 < s := by positivity
  have e6 : (10 : ℝ) ^ e = 10 ^ 6 * s := by
    rw [hs, zpow_sub₀ (by norm_num)]; norm_num; field_simp
  have e7 : (10 : ℝ) ^ (e + 1) = 10 ^ 7 * s := by rw [zpow_add₀ (by norm_num), e6]; ring
  rw [e6] at a1
  rw [e7] at a2
  set l : ℤ := round (x / s) with hl
  have hr : |x / s - l| ≤ 1 / 2 := abs_sub_round _
  have hn : |x - l * s| ≤ 5 / 10 ^ 7 * |x| := by
    have : x - l * s = (x / s - l) * s := by field_simp
    rw [this, abs_mul, abs_of_pos s0]
    nlinarith
  have hxs : |x / s| = |x| / s := by rw [abs_div, abs_of_pos s0]
  have c1 : (10 : ℝ) ^ 6 ≤ |x / s| := by rw [hxs, le_div_iff₀ s0]; exact a1
  have c2 : |x / s| < (10 : ℝ) ^ 7 := by rw [hxs, div_lt_iff₀ s0]; exact a2
  have d1 : (10 : ℤ) ^ 6 ≤ |l| := by
    have : ((10 : ℤ) ^ 6 : ℝ) - 1 < |(l : ℝ)| := by
      have := abs_sub_abs_le_abs_sub (x / s) l
      push_cast; linarith
    have : (10 : ℤ) ^ 6 - 1 < |l| := by exact_mod_cast this
    omega
  have d2 : |l| ≤ (10 : ℤ) ^ 7 := by
    have : |(l : ℝ)| < ((10 : ℤ) ^ 7 : ℝ) + 1 := by
      have := abs_sub_abs_le_abs_sub (l : ℝ) (x / s)
      rw [abs_sub_comm] at this
      push_cast; linarith
    have : |l| < (10 : ℤ) ^ 7 + 1 := by exact_mod_cast this
    omega
  rcases d2.lt_or_eq with d2 | d2
  · exact (h l e d1 d2).trans hn
  · -- the digits overflow to the next power of ten
    have hdiv : (10 : ℤ) ∣ l := by
      rw [← dvd_abs, d2]; norm_num
    obtain ⟨m, hm⟩ := hdiv
    have hm6 : |m| = 10 ^ 6 := by
      rw [hm, abs_mul] at d2; norm_num at d2 ⊢; omega
    refine (h m (e + 1) hm6.ge (by rw [hm6]; norm_num)).trans (le_of_eq_of_le ?_ hn)
    rw [hm, show e + 1 - 6 = (e - 6) + 1 by ring, zpow_add₀ (by norm_num), ← hs]
    push_cast
    congr 2
    ring

/-- Every number has a text. -/
theorem sci_exists (x : ℝ) : ∃ y, Scientific x y := by
  rcases eq_or_ne x 0 with rfl | h0
  · exact ⟨0, .inl ⟨rfl, rfl⟩⟩
  set e := Int.log 10 |x| with he
  have hx : 0 < |x| := abs_pos.2 h0
  have a1 : (10 : ℝ) ^ e ≤ |x| := by exact_mod_cast Int.zpow_log_le_self (b := 10) (by norm_num) hx
  have a2 : |x| < (10 : ℝ) ^ (e + 1) := by exact_mod_cast Int.lt_zpow_succ_log_self (b := 10) (by norm_num) |x|
  set s : ℝ := (10 : ℝ) ^ (e - 6) with hs
  have s0 : 0 < s := by positivity
  have e6 : (10 : ℝ) ^ e = 10 ^ 6 * s := by
    rw [hs, zpow_sub₀ (by norm_num)]; norm_num; field_simp
  have e7 : (10 : ℝ) ^ (e + 1) = 10 ^ 7 * s := by rw [zpow_add₀ (by norm_num), e6]; ring
  rw [e6] at a1
  rw [e7] at a2
  set l : ℤ := round (x / s) with hl
  have hr : |x / s - l| ≤ 1 / 2 := abs_sub_round _
  have hxs : |x / s| = |x| / s := by rw [abs_div, abs_of_pos s0]
  have c1 : (10 : ℝ) ^ 6 ≤ |x / s| := by rw [hxs, le_div_iff₀ s0]; exact a1
  have c2 : |x / s| < (10 : ℝ) ^ 7 := by rw [hxs, div_lt_iff₀ s0]; exact a2
  have d1 : (10 : ℤ) ^ 6 ≤ |l| := by
    have : ((10 : ℤ) ^ 6 : ℝ) - 1 < |(l : ℝ)| := by
      have := abs_sub_abs_le_abs_sub (x / s) l
      push_cast; linarith
    have : (10 : ℤ) ^ 6 - 1 < |l| := by exact_mod_cast this
    omega
  have d2 : |l| ≤ (10 : ℤ) ^ 7 := by
    have : |(l : ℝ)| < ((10 : ℤ) ^ 7 : ℝ) + 1 := by
      have := abs_sub_abs_le_abs_sub (l : ℝ) (x / s)
      rw [abs_sub_comm] at this
      push_cast; linarith
    have : |l| < (10 : ℤ) ^ 7 + 1 := by exact_mod_cast this
    omega
  -- no multiple of `s` is nearer
  have near : ∀ N : ℤ, |x - l * s| ≤ |x - N * s| := by
    intro N
    have k : ∀ N : ℤ, |x - N * s| = |x / s - N| * s := by
      intro N
      rw [show x - N * s = (x / s - N) * s by field_simp, abs_mul, abs_of_pos s0]
    rw [k, k]
    exact mul_le_mul_of_nonneg_right (round_le _ _) s0.le
  have best : ∀ m q : ℤ, 10 ^ 6 ≤ |m| → |m| < 10 ^ 7 → |x - l * s| ≤ |x - m * (10 : ℝ) ^ (q - 6)| := by
    intro m q m1 m2
    rcases le_or_gt e q with hq | hq
    · obtain ⟨j, rfl⟩ := Int.le.dest hq
      have := near (m * 10 ^ j)
      rwa [show ((m * 10 ^ j : ℤ) : ℝ) * s = m * (10 : ℝ) ^ (e + j - 6) by
        rw [show e + (j : ℤ) - 6 = j + (e - 6) by ring, zpow_add₀ (by norm_num), zpow_natCast, ← hs]
        push_cast; ring] at this
    · have z : |(m : ℝ) * (10 : ℝ) ^ (q - 6)| ≤ 10 ^ 6 * s := by
        rw [abs_mul, abs_of_pos (by positivity : (0 : ℝ) < 10 ^ (q - 6))]
        have m2' : |(m : ℝ)| ≤ 10 ^ 7 := by exact_mod_cast m2.le
        calc _ ≤ (10 : ℝ) ^ 7 * 10 ^ (e - 1 - 6) := by
              gcongr
              · norm_num
              · omega
          _ = _ := by rw [show e - 1 - 6 = e - 6 - 1 by ring, zpow_sub₀ (by norm_num), ← hs]; norm_num; ring
      have t : |x| - 10 ^ 6 * s ≤ |x - m * (10 : ℝ) ^ (q - 6)| := by
        have := abs_sub_abs_le_abs_sub x (m * (10 : ℝ) ^ (q - 6))
        linarith
      refine le_trans ?_ t
      rcases lt_or_gt_of_ne h0 with n | p
      · rw [abs_of_neg n] at a1 ⊢
        refine (near (-10 ^ 6)).trans (le_of_eq ?_)
        push_cast
        rw [abs_of_nonpos (by linarith)]; ring
      · rw [abs_of_pos p] at a1 ⊢
        refine (near (10 ^ 6)).trans (le_of_eq ?_)
        push_cast
        rw [abs_of_nonneg (by linarith)]; norm_num
  rcases d2.lt_or_eq with d2 | d2
  · exact ⟨l * s, .inr ⟨h0, l, e, d1, d2, rfl, best⟩⟩
  · obtain ⟨m, hm⟩ : (10 : ℤ) ∣ l := by rw [← dvd_abs, d2]; norm_num
    have hm6 : |m| = 10 ^ 6 := by
      rw [hm, abs_mul] at d2; norm_num at d2 ⊢; omega
    refine ⟨l * s, .inr ⟨h0, m, e + 1, hm6.ge, by rw [hm6]; norm_num, ?_, best⟩⟩
    rw [hm, show e + 1 - 6 = (e - 6) + 1 by ring, zpow_add₀ (by norm_num), ← hs]
    push_cast
    ring

/-- Relative error of `%f` for numbers of at least `h`. -/
theorem fixed_rel {x y h : ℝ} (h0 : 0 < h) (hx : h ≤ x) (H : Fixed x y) :
    (1 - 5 / 10 ^ 7 / h) * x ≤ y ∧ y ≤ (1 + 5 / 10 ^ 7 / h) * x := by
  have e := abs_le.1 (fixed_error H)
  have : 5 / 10 ^ 7 ≤ 5 / 10 ^ 7 / h * x := by
    rw [div_mul_eq_mul_div, le_div_iff₀ h0]; gcongr
  constructor <;> nlinarith [e.1, e.2]

theorem sci_rel {x y : ℝ} (hx : 0 < x) (H : Scientific x y) :
    (1 - 5 / 10 ^ 7) * x ≤ y ∧ y ≤ (1 + 5 / 10 ^ 7) * x := by
  have e := abs_le.1 (sci_error H)
  rw [abs_of_pos hx] at e
  constructor <;> nlinarith [e.1, e.2]

/-- Without thickness the section has no stiffness. -/
theorem stiff_zero (r : Integrate.Rule) (E ν : ℝ) (u v : ℝ × ℝ → V3) :
    stiffForm plate (System.linearModuli r 0 E ν) square u v = 0 := by
  have m : ∀ (C : Linear.Output → ℝ → T3) o, System.modulus .constant r 0 C o = fun _ _ => 0 := by
    intro C o
    funext i j
    unfold System.modulus Integrate.evalInto
    cases Integrate.constMoment o <;> simp [Integrate.multiplyZ]
  simp [stiffForm, System.linearModuli, System.moduli, m, System.integrand, Variation.linStiffness, Variation.rowMul, dotV]

/-- The load of one set of parameters is the load of another set with another amplitude. -/
theorem load_scale {a t E ν t' E' ν' : ℝ} (h : flexural E' ν' t' ≠ 0) (q : ℝ × ℝ) :
    staticLoad a t E ν q = staticLoad (a * (flexural E ν t / flexural E' ν' t')) t' E' ν' q := by
  have key : ∀ a t E ν P : ℝ, -6 * a * t ^ 3 * E * P / (3 * ν ^ 2 - 3) = 24 * P * (a * flexural E ν t) := by
    intro a t E ν P
    unfold flexural
    rw [show 3 * ν ^ 2 - 3 = -(3 * (1 - ν ^ 2)) by ring, div_neg, ← neg_div]
    by_cases z : 1 - ν ^ 2 = 0
    · rw [z]; simp
    · field_simp; ring
  simp only [staticLoad, key]
  congr 1
  rw [mul_assoc a, div_mul_cancel₀ _ h]

theorem pow_up {δ : ℝ} (h0 : 0 ≤ δ) (h1 : δ ≤ 1 / 10) : (1 + δ) ^ 4 ≤ (1 + 15 * δ) * (1 - δ) ^ 4 := by
  have e : (1 + 15 * δ) * (1 - δ) ^ 4 - (1 + δ) ^ 4
      = δ * ((7 - 60 * δ) + δ ^ 2 * (82 - 60 * δ) + 15 * δ ^ 4) := by ring
  have a : 0 ≤ 7 - 60 * δ := by linarith
  have b : 0 ≤ 82 - 60 * δ := by linarith
  have : 0 ≤ δ * ((7 - 60 * δ) + δ ^ 2 * (82 - 60 * δ) + 15 * δ ^ 4) := by positivity
  linarith

theorem pow_lo {δ : ℝ} (h0 : 0 ≤ δ) : (1 - 15 * δ) * (1 + δ) ^ 4 ≤ (1 - δ) ^ 4 := by
  have e : (1 - δ) ^ 4 - (1 - 15 * δ) * (1 + δ) ^ 4
      = δ * (7 + 60 * δ + 82 * δ ^ 2 + 60 * δ ^ 3 + 15 * δ ^ 4) := by ring
  have : 0 ≤ δ * (7 + 60 * δ + 82 * δ ^ 2 + 60 * δ ^ 3 + 15 * δ ^ 4) := by positivity
  linarith

/-- Two numbers near a third one. -/
theorem ratio_near {δ P x y : ℝ} (h0 : 0 ≤ δ) (h1 : δ ≤ 1 / 10) (hP : 0 < P) (x1 : (1 - δ) ^ 4 * P ≤ x)
    (x2 : x ≤ (1 + δ) ^ 4 * P) (y1 : (1 - δ) ^ 4 * P ≤ y) (y2 : y ≤ (1 + δ) ^ 4 * P) : |x / y - 1| ≤ 15 * δ := by
  have g : 0 < 1 - δ := by linarith
  have y0 : 0 < y := lt_of_lt_of_le (by positivity) y1
  rw [abs_le]
  constructor
  · rw [neg_le_sub_iff_le_add, ← sub_le_iff_le_add, le_div_iff₀ y0]
    rcases le_total 0 (1 - 15 * δ) with z | z
    · calc (1 - 15 * δ) * y ≤ (1 - 15 * δ) * ((1 + δ) ^ 4 * P) := by gcongr
        _ = ((1 - 15 * δ) * (1 + δ) ^ 4) * P := by ring
        _ ≤ (1 - δ) ^ 4 * P := mul_le_mul_of_nonneg_right (pow_lo h0) hP.le
        _ ≤ _ := x1
    · exact (mul_nonpos_of_nonpos_of_nonneg z y0.le).trans (le_trans (by positivity) x1)
  · rw [sub_le_iff_le_add, div_le_iff₀ y0]
    calc _ ≤ (1 + δ) ^ 4 * P := x2
      _ ≤ (1 + 15 * δ) * (1 - δ) ^ 4 * P := mul_le_mul_of_nonneg_right (pow_up h0 h1) hP.le
      _ = (15 * δ + 1) * ((1 - δ) ^ 4 * P) := by ring
      _ ≤ _ := by gcongr

/-- Modulus times thickness cubed. -/
theorem cubed_near {δ E t E' t' : ℝ} (h0 : 0 ≤ δ) (h1 : δ ≤ 1 / 10) (hE : 0 < E) (ht : 0 < t)
    (e1 : (1 - δ) * E ≤ E') (e2 : E' ≤ (1 + δ) * E) (t1 : (1 - δ) * t ≤ t') (t2 : t' ≤ (1 + δ) * t) :
    (1 - δ) ^ 4 * (E * t ^ 3) ≤ E' * t' ^ 3 ∧ E' * t' ^ 3 ≤ (1 + δ) ^ 4 * (E * t ^ 3) := by
  have g : 0 < 1 - δ := by linarith
  have E0 : 0 < E' := lt_of_lt_of_le (by positivity) e1
  have t0 : 0 < t' := lt_of_lt_of_le (by positivity) t1
  constructor
  · calc _ = ((1 - δ) * E) * ((1 - δ) * t) ^ 3 := by ring
      _ ≤ _ := by gcongr
  · calc E' * t' ^ 3 ≤ ((1 + δ) * E) * ((1 + δ) * t) ^ 3 := by gcongr
      _ = _ := by ring

theorem fifth_near {δ E t E' t' : ℝ} (h0 : 0 ≤ δ) (h1 : δ ≤ 1 / 10) (hE : 0 < E) (ht : 0 < t)
    (e1 : (1 - δ) * E ≤ E') (e2 : E' ≤ (1 + δ) * E) (t1 : (1 - δ) * t ≤ t') (t2 : t' ≤ (1 + δ) * t) :
    (1 - 5 * δ) * (E * t ^ 3) ≤ E' * t' ^ 3 ∧ E' * t' ^ 3 ≤ (1 + 5 * δ) * (E * t ^ 3) := by
  obtain ⟨a, b⟩ := cubed_near h0 h1 hE ht e1 e2 t1 t2
  have P : 0 ≤ E * t ^ 3 := by positivity
  have k1 : 1 - 5 * δ ≤ (1 - δ) ^ 4 := by
    have := one_add_mul_le_pow (a := -δ) (by linarith) 4
    rw [← sub_eq_add_neg] at this
    push_cast at this
    linarith
  have k2 : (1 + δ) ^ 4 ≤ 1 + 5 * δ := by
    have h2 : δ ^ 2 ≤ 1 / 10 * δ := by nlinarith
    have h3 : δ ^ 3 ≤ 1 / 100 * δ := by
      have := mul_le_mul_of_nonneg_left h2 h0
      nlinarith
    have h4 : δ ^ 4 ≤ 1 / 1000 * δ := by
      have := mul_le_mul_of_nonneg_left h3 h0
      nlinarith
    linarith [show (1 + δ) ^ 4 = 1 + 4 * δ + 6 * δ ^ 2 + 4 * δ ^ 3 + δ ^ 4 by ring]
  exact ⟨(mul_le_mul_of_nonneg_right k1 P).trans a, b.trans (mul_le_mul_of_nonneg_right k2 P)⟩

/-- Modulus times thickness squared over the density. -/
theorem squared_near {δ E t ρ E' t' ρ' : ℝ} (h0 : 0 ≤ δ) (h1 : δ ≤ 1 / 10) (hE : 0 < E) (ht : 0 < t) (hρ : 0 < ρ)
    (e1 : (1 - δ) * E ≤ E') (e2 : E' ≤ (1 + δ) * E) (t1 : (1 - δ) * t ≤ t') (t2 : t' ≤ (1 + δ) * t)
    (r1 : (1 - δ) * ρ ≤ ρ') (r2 : ρ' ≤ (1 + δ) * ρ) :
    (1 - 5 * δ) * (E * t ^ 2 / ρ) ≤ E' * t' ^ 2 / ρ' ∧ E' * t' ^ 2 / ρ' ≤ (1 + 5 * δ) * (E * t ^ 2 / ρ) := by
  have g : 0 < 1 - δ := by linarith
  have g5 : 0 ≤ 1 - 5 * δ := by linarith
  have E0 : 0 < E' := lt_of_lt_of_le (by positivity) e1
  have t0 : 0 < t' := lt_of_lt_of_le (by positivity) t1
  have ρ0 : 0 < ρ' := lt_of_lt_of_le (by positivity) r1
  constructor
  · rw [le_div_iff₀ ρ0]
    have k : (1 - 5 * δ) * (1 + δ) ≤ (1 - δ) ^ 3 := by
      have : 0 ≤ δ * ((1 - δ ^ 2) + 8 * δ) :=
        mul_nonneg h0 (by have : δ ^ 2 ≤ 1 := by nlinarith
                          linarith)
      linarith [show (1 - δ) ^ 3 - (1 - 5 * δ) * (1 + δ) = δ * ((1 - δ ^ 2) + 8 * δ) by ring]
    calc _ ≤ (1 - 5 * δ) * (E * t ^ 2 / ρ) * ((1 + δ) * ρ) := by gcongr
      _ = (1 - 5 * δ) * (1 + δ) * (E * t ^ 2) := by field_simp
      _ ≤ (1 - δ) ^ 3 * (E * t ^ 2) := mul_le_mul_of_nonneg_right k (by positivity)
      _ = ((1 - δ) * E) * ((1 - δ) * t) ^ 2 := by ring
      _ ≤ _ := by gcongr
  · rw [div_le_iff₀ ρ0]
    have k : (1 + δ) ^ 3 ≤ (1 + 5 * δ) * (1 - δ) := by
      have : 0 ≤ δ * ((1 - 9 * δ) + δ * (1 - δ)) := mul_nonneg h0 (by nlinarith)
      linarith [show (1 + 5 * δ) * (1 - δ) - (1 + δ) ^ 3 = δ * ((1 - 9 * δ) + δ * (1 - δ)) by ring]
    calc E' * t' ^ 2 ≤ ((1 + δ) * E) * ((1 + δ) * t) ^ 2 := by gcongr
      _ = (1 + δ) ^ 3 * (E * t ^ 2) := by ring
      _ ≤ (1 + 5 * δ) * (1 - δ) * (E * t ^ 2) := mul_le_mul_of_nonneg_right k (by positivity)
      _ = (1 + 5 * δ) * (E * t ^ 2 / ρ) * ((1 - δ) * ρ) := by field_simp
      _ ≤ _ := by gcongr

end Verif.ParamText
