import Verif.Model.Newton
import Verif.Lemmas.Hyper
import Mathlib.Logic.Function.Iterate

/-! # Helper lemmas for the thickness-stretch iteration -/

namespace Verif.Newton

open Verif.Hyper Verif.Geometry

/-- One Newton update. -/
noncomputable def iter (S T : ℝ → ℝ) (c : ℝ) : ℝ := c + step S T c

theorem loop_succ (S T : ℝ → ℝ) (n : ℕ) (c dc : ℝ) : loop S T (n + 1) c dc =
    (open Classical in
    if c + dc = 0 ∨ T (c + dc) = 0 then .ub
    else if |step S T (c + dc)| < tol then .ok (c + dc)
    else if n = 0 then .throws
    else loop S T n (c + dc) (step S T (c + dc))) := rfl

theorem loop_ok {S T : ℝ → ℝ} : ∀ {n : ℕ} {c x : ℝ}, loop S T n c (step S T c) = .ok x →
    ∃ k, 1 ≤ k ∧ k ≤ n ∧ x = (iter S T)^[k] c ∧ x ≠ 0 ∧ T x ≠ 0 ∧ |step S T x| < tol ∧
      ∀ m, 1 ≤ m → m < k → tol ≤ |step S T ((iter S T)^[m] c)| := by
  intro n
  induction n with
  | zero => intro c x h; simp [loop] at h
  | succ n ih =>
    intro c x h
    rw [loop_succ] at h
    split_ifs at h with h1 h2 h3
    · injection h with h
      subst h
      push Not at h1
      exact ⟨1, le_refl _, by omega, rfl, h1.1, h1.2, h2, fun m a b => by omega⟩
    · obtain ⟨k, hk1, hk2, hx, hx0, hT, hs, hall⟩ := ih h
      refine ⟨k + 1, by omega, by omega, hx, hx0, hT, hs, fun m a b => ?_⟩
      rcases Nat.lt_or_ge m 2 with hm | hm
      · have : m = 1 := by omega
        subst this
        exact not_lt.1 h2
      · obtain ⟨m, rfl⟩ := Nat.exists_eq_add_of_le' a
        exact hall m (by omega) (by omega)

theorem loop_throws {S T : ℝ → ℝ} : ∀ {n : ℕ} {c : ℝ},
    loop S T n c (step S T c) = .throws →
    ∀ m, 1 ≤ m → m ≤ n → tol ≤ |step S T ((iter S T)^[m] c)| := by
  intro n
  induction n with
  | zero => intro c _ m a b; omega
  | succ n ih =>
    intro c h m a b
    rw [loop_succ] at h
    split_ifs at h with h1 h2 h3
    · have : m = 1 := by omega
      subst this
      exact not_lt.1 h2
    · rcases Nat.lt_or_ge m 2 with hm | hm
      · have : m = 1 := by omega
        subst this
        exact not_lt.1 h2
      · obtain ⟨m, rfl⟩ := Nat.exists_eq_add_of_le' a
        exact ih h m (by omega) (by omega)

theorem loop_ub {S T : ℝ → ℝ} : ∀ {n : ℕ} {c : ℝ},
    loop S T n c (step S T c) = .ub →
    ∃ m, 1 ≤ m ∧ m ≤ n ∧ ((iter S T)^[m] c = 0 ∨ T ((iter S T)^[m] c) = 0) := by
  intro n
  induction n with
  | zero => intro c h; simp [loop] at h
  | succ n ih =>
    intro c h
    rw [loop_succ] at h
    split_ifs at h with h1 h2 h3
    · exact ⟨1, le_refl _, by omega, h1⟩
    · obtain ⟨m, a, b, hm⟩ := ih h
      exact ⟨m + 1, by omega, by omega, hm⟩

theorem loop_returns {S T : ℝ → ℝ} {n : ℕ} {c : ℝ} {k : ℕ} (hk : 1 ≤ k) (hkn : k ≤ n)
    (hreg : ∀ m, 1 ≤ m → m ≤ n → (iter S T)^[m] c ≠ 0 ∧ T ((iter S T)^[m] c) ≠ 0)
    (hs : |step S T ((iter S T)^[k] c)| < tol) :
    ∃ x, loop S T n c (step S T c) = .ok x := by
  rcases h : loop S T n c (step S T c) with x | _ | _
  · exact ⟨x, rfl⟩
  · exact absurd hs (not_lt.2 (loop_throws h k hk hkn))
  · obtain ⟨m, a, b, hm⟩ := loop_ub h
    have := hreg m a b
    tauto

theorem tol_pos : 0 < tol := by unfold tol; positivity

/-! ## The extended neo-Hookean material -/

/-- Thickness stress and stiffness of the extended neo-Hookean material as functions of the
thickness stretch. -/
theorem NHe_S (p : Par) (A C : T2) {c : ℝ} (hc : c ≠ 0) :
    sNHe p (cdata (data A C) c) 2 2
      = (p.mu + p.lam * (data A C).J0 / 2) - (p.mu + p.lam / 2) / c := by
  simp only [sNHe, cdata, withT_22]
  have : (data A C).Gori 2 2 = 1 := rfl
  rw [this]
  field_simp
  ring

theorem NHe_T (p : Par) (A C : T2) {c : ℝ} (hc : c ≠ 0) :
    cNHe p (cdata (data A C) c) 2 2 2 2 = 2 * (p.mu + p.lam / 2) / c ^ 2 := by
  simp only [cNHe, dCinv, cdata, withT_22]
  field_simp
  ring

/-- For a law `S c = a - b/c`, `T c = 2b/c²` the relative error `1 - (a/b) c` is squared by
each Newton update. -/
theorem iter_error {S T : ℝ → ℝ} {a b : ℝ} (hb : b ≠ 0)
    (hS : ∀ c, c ≠ 0 → S c = a - b / c) (hT : ∀ c, c ≠ 0 → T c = 2 * b / c ^ 2) {c : ℝ}
    (hc : c ≠ 0) : 1 - a / b * iter S T c = (1 - a / b * c) ^ 2 := by
  simp only [iter, step, hS c hc, hT c hc]
  field_simp
  ring

theorem step_eq {S T : ℝ → ℝ} {a b : ℝ} (hb : b ≠ 0)
    (hS : ∀ c, c ≠ 0 → S c = a - b / c) (hT : ∀ c, c ≠ 0 → T c = 2 * b / c ^ 2) {c : ℝ}
    (hc : c ≠ 0) : step S T c = c * (1 - a / b * c) := by
  simp only [step, hS c hc, hT c hc]
  field_simp
  ring

theorem iter_error_pow {S T : ℝ → ℝ} {a b : ℝ} (hb : b ≠ 0)
    (hS : ∀ c, c ≠ 0 → S c = a - b / c) (hT : ∀ c, c ≠ 0 → T c = 2 * b / c ^ 2) {c : ℝ}
    (he : |1 - a / b * c| ≤ 1 / 2) (k : ℕ) :
    (iter S T)^[k] c ≠ 0 ∧ 1 - a / b * (iter S T)^[k] c = (1 - a / b * c) ^ 2 ^ k := by
  have ne : ∀ x : ℝ, |1 - a / b * x| ≤ 1 / 2 → x ≠ 0 := by
    intro x hx h
    subst h
    norm_num at hx
  induction k with
  | zero => exact ⟨ne c he, by simp⟩
  | succ k ih =>
    rw [Function.iterate_succ_apply']
    have h2 : 1 - a / b * iter S T ((iter S T)^[k] c) = (1 - a / b * c) ^ 2 ^ (k + 1) := by
      rw [iter_error hb hS hT ih.1, ih.2, ← pow_mul, pow_succ]
    refine ⟨ne _ ?_, h2⟩
    rw [h2, abs_pow]
    calc |1 - a / b * c| ^ 2 ^ (k + 1) ≤ |1 - a / b * c| ^ 1 :=
          pow_le_pow_of_le_one (abs_nonneg _) (by linarith) (Nat.one_le_two_pow)
      _ ≤ 1 / 2 := by simpa using he

/-- Convergence for such laws, for a start value with relative error at most one half. -/
theorem c33_converges {S T : ℝ → ℝ} {a b J0 : ℝ} (ha : 0 < a) (hb : 0 < b) (hJ : J0 ≠ 0)
    (hS : ∀ c, c ≠ 0 → S c = a - b / c) (hT : ∀ c, c ≠ 0 → T c = 2 * b / c ^ 2)
    (he : |1 - a / b * (1 / J0)| ≤ 1 / 2) (hab : b / a ≤ 10 ^ 6) :
    ∃ x, c33 S T J0 = .ok x ∧ 0 < x ∧ |x - b / a| ≤ 2 * tol := by
  have hpow := iter_error_pow hb.ne' hS hT he
  set c := 1 / J0 with hc
  have hc0 : c ≠ 0 := one_div_ne_zero hJ
  have hTne : ∀ x, x ≠ 0 → T x ≠ 0 := by
    intro x hx
    rw [hT x hx]
    positivity
  have hval : ∀ k, (iter S T)^[k] c = b / a * (1 - (1 - a / b * c) ^ 2 ^ k) := by
    intro k
    rw [← (hpow k).2]
    field_simp
    ring
  have hle : ∀ k, 1 ≤ k → |(1 - a / b * c) ^ 2 ^ k| ≤ 1 / 4 := by
    intro k hk
    rw [abs_pow]
    calc |1 - a / b * c| ^ 2 ^ k ≤ |1 - a / b * c| ^ 2 :=
          pow_le_pow_of_le_one (abs_nonneg _) (by linarith)
            (by calc 2 = 2 ^ 1 := rfl
                  _ ≤ 2 ^ k := Nat.pow_le_pow_right (by norm_num) hk)
      _ ≤ (1 / 2) ^ 2 := pow_le_pow_left₀ (abs_nonneg _) he 2
      _ = 1 / 4 := by norm_num
  have h7 : |(1 - a / b * c) ^ 2 ^ 7| ≤ (1 / 2) ^ 128 := by
    rw [abs_pow]
    exact pow_le_pow_left₀ (abs_nonneg _) he 128
  have hstep : |step S T ((iter S T)^[7] c)| < tol := by
    rw [step_eq hb.ne' hS hT (hpow 7).1, (hpow 7).2, hval 7, abs_mul, abs_mul,
      abs_of_pos (div_pos hb ha)]
    have h1 : |1 - (1 - a / b * c) ^ 2 ^ 7| ≤ 2 := by
      have := hle 7 (by norm_num)
      rw [abs_le] at this ⊢
      constructor <;> linarith
    calc b / a * |1 - (1 - a / b * c) ^ 2 ^ 7| * |(1 - a / b * c) ^ 2 ^ 7|
        ≤ 10 ^ 6 * 2 * (1 / 2) ^ 128 := by
          apply mul_le_mul _ h7 (abs_nonneg _) (by norm_num)
          exact mul_le_mul hab h1 (abs_nonneg _) (by norm_num)
      _ < tol := by unfold tol; norm_num
  obtain ⟨x, hx⟩ := loop_returns (S := S) (T := T) (n := itmax) (c := c) (k := 7) (by norm_num)
    (by decide) (fun m _ _ => ⟨(hpow m).1, hTne _ (hpow m).1⟩) hstep
  refine ⟨x, ?_, ?_⟩
  · simp only [c33]
    rw [if_neg]
    · exact hx
    · push Not
      exact ⟨hJ, hTne _ hc0⟩
  obtain ⟨k, hk1, -, hxk, hx0, -, hs, -⟩ := loop_ok hx
  have hq := hle k hk1
  rw [step_eq hb.ne' hS hT hx0] at hs
  have e1 : 1 - a / b * x = (1 - a / b * c) ^ 2 ^ k := by rw [hxk]; exact (hpow k).2
  have e2 : x = b / a * (1 - (1 - a / b * c) ^ 2 ^ k) := by rw [hxk]; exact hval k
  set q := (1 - a / b * c) ^ 2 ^ k with hqd
  rw [e1] at hs
  have hpos : 0 < b / a := div_pos hb ha
  rw [abs_le] at hq
  have hxpos : 0 < x := by
    rw [e2]
    exact mul_pos hpos (by linarith)
  refine ⟨hxpos, ?_⟩
  have hd : x - b / a = -(b / a * q) := by rw [e2]; ring
  rw [hd, abs_neg, abs_mul, abs_of_pos hpos]
  rw [abs_mul, abs_of_pos hxpos, e2] at hs
  have h34 : (3 : ℝ) / 4 ≤ 1 - q := by linarith
  have : b / a * (3 / 4) * |q| ≤ b / a * (1 - q) * |q| :=
    mul_le_mul_of_nonneg_right (mul_le_mul_of_nonneg_left h34 hpos.le) (abs_nonneg _)
  nlinarith [tol_pos]

end Verif.Newton
