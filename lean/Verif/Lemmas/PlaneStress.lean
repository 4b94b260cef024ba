import Verif.Lemmas.Newton
import Verif.Lemmas.PosDef
import Mathlib.Analysis.SpecialFunctions.Pow.Continuity
import Mathlib.Topology.Order.IntermediateValue

/-! # Helper lemmas: the thickness stretch with zero thickness stress -/

namespace Verif.PlaneStress

open Verif.Geometry Verif.Hyper Verif.Newton Spec.PosDef Verif.PosDef Verif.Reparam

/-- Thickness stress times the thickness stretch, as function of the squared Jacobian `w`, for the
compressible Mooney–Rivlin law (neo-Hookean for `c2 = 0`); `t` trace, `j` squared area ratio. -/
noncomputable def F (c1 c2 K t j w : ℝ) : ℝ :=
  c1 / 3 * (2 / j * w ^ (2 / 3 : ℝ) - t * w ^ (-1 / 3 : ℝ))
    + c2 / 3 * (t / j * w ^ (1 / 3 : ℝ) - 2 * j * w ^ (-2 / 3 : ℝ)) + K / 2 * (w - 1)

theorem F_mono {c1 c2 K t j : ℝ} (h1 : 0 ≤ c1) (h2 : 0 ≤ c2) (hK : 0 < K) (ht : 0 < t) (hj : 0 < j)
    {v w : ℝ} (hv : 0 < v) (hvw : v < w) : F c1 c2 K t j v < F c1 c2 K t j w := by
  have a1 : v ^ (2 / 3 : ℝ) ≤ w ^ (2 / 3 : ℝ) := Real.rpow_le_rpow hv.le hvw.le (by norm_num)
  have a2 : w ^ (-1 / 3 : ℝ) ≤ v ^ (-1 / 3 : ℝ) :=
    Real.rpow_le_rpow_of_nonpos hv hvw.le (by norm_num)
  have a3 : v ^ (1 / 3 : ℝ) ≤ w ^ (1 / 3 : ℝ) := Real.rpow_le_rpow hv.le hvw.le (by norm_num)
  have a4 : w ^ (-2 / 3 : ℝ) ≤ v ^ (-2 / 3 : ℝ) :=
    Real.rpow_le_rpow_of_nonpos hv hvw.le (by norm_num)
  have b1 : 2 / j * v ^ (2 / 3 : ℝ) - t * v ^ (-1 / 3 : ℝ)
      ≤ 2 / j * w ^ (2 / 3 : ℝ) - t * w ^ (-1 / 3 : ℝ) := by
    have := mul_le_mul_of_nonneg_left a1 (by positivity : 0 ≤ 2 / j)
    have := mul_le_mul_of_nonneg_left a2 ht.le
    linarith
  have b2 : t / j * v ^ (1 / 3 : ℝ) - 2 * j * v ^ (-2 / 3 : ℝ)
      ≤ t / j * w ^ (1 / 3 : ℝ) - 2 * j * w ^ (-2 / 3 : ℝ) := by
    have := mul_le_mul_of_nonneg_left a3 (by positivity : 0 ≤ t / j)
    have := mul_le_mul_of_nonneg_left a4 (by positivity : 0 ≤ 2 * j)
    linarith
  have d1 := mul_le_mul_of_nonneg_left b1 (by positivity : 0 ≤ c1 / 3)
  have d2 := mul_le_mul_of_nonneg_left b2 (by positivity : 0 ≤ c2 / 3)
  have d3 := mul_lt_mul_of_pos_left (sub_lt_sub_right hvw 1) (by positivity : 0 < K / 2)
  unfold F
  linarith

theorem F_factor (c1 c2 K t j x : ℝ) (hj : 0 < j) (hx : 0 < x) :
    F c1 c2 K t j (j * x) = c1 / 3 * (j * x) ^ (-1 / 3 : ℝ) * (2 * x - t)
      + c2 / 3 * (j * x) ^ (-2 / 3 : ℝ) * (t * x - 2 * j) + K / 2 * (j * x - 1) := by
  have hw : 0 < j * x := mul_pos hj hx
  have e1 : (j * x) ^ (2 / 3 : ℝ) = (j * x) ^ (-1 / 3 : ℝ) * (j * x) := by
    rw [← Real.rpow_add_one hw.ne']; norm_num
  have e2 : (j * x) ^ (1 / 3 : ℝ) = (j * x) ^ (-2 / 3 : ℝ) * (j * x) := by
    rw [← Real.rpow_add_one hw.ne']; norm_num
  unfold F
  rw [e1, e2]
  field_simp

theorem F_cont (c1 c2 K t j : ℝ) : ContinuousOn (F c1 c2 K t j) (Set.Ioi 0) := by
  have h : ∀ r : ℝ, ContinuousOn (fun w : ℝ => w ^ r) (Set.Ioi 0) := fun r =>
    continuousOn_id.rpow_const fun x hx => Or.inl (ne_of_gt hx)
  unfold F
  exact (((continuousOn_const.mul ((continuousOn_const.mul (h _)).sub
    (continuousOn_const.mul (h _)))).add (continuousOn_const.mul
    ((continuousOn_const.mul (h _)).sub (continuousOn_const.mul (h _))))).add
    (continuousOn_const.mul (continuousOn_id.sub continuousOn_const)))

theorem F_root {c1 c2 K t j : ℝ} (h1 : 0 ≤ c1) (h2 : 0 ≤ c2) (hK : 0 < K) (ht : 0 < t) (hj : 0 < j)
    {lo hi : ℝ} (hlo : 0 < lo) (hle : lo ≤ hi) (l1 : lo ≤ t / 2) (l2 : lo ≤ 1 / j)
    (l3 : c2 ≠ 0 → lo ≤ 2 * j / t) (g1 : t / 2 ≤ hi) (g2 : 1 / j ≤ hi)
    (g3 : c2 ≠ 0 → 2 * j / t ≤ hi) :
    ∃ x, (lo ≤ x ∧ x ≤ hi) ∧ F c1 c2 K t j (j * x) = 0 := by
  have hlow : F c1 c2 K t j (j * lo) ≤ 0 := by
    rw [F_factor c1 c2 K t j lo hj hlo]
    have q1 : 0 ≤ (j * lo) ^ (-1 / 3 : ℝ) := Real.rpow_nonneg (by positivity) _
    have q2 : 0 ≤ (j * lo) ^ (-2 / 3 : ℝ) := Real.rpow_nonneg (by positivity) _
    have k1 : c1 / 3 * (j * lo) ^ (-1 / 3 : ℝ) * (2 * lo - t) ≤ 0 :=
      mul_nonpos_of_nonneg_of_nonpos (by positivity) (by linarith)
    have k2 : c2 / 3 * (j * lo) ^ (-2 / 3 : ℝ) * (t * lo - 2 * j) ≤ 0 := by
      by_cases hc : c2 = 0
      · rw [hc]; simp
      · have := l3 hc
        rw [le_div_iff₀ ht] at this
        exact mul_nonpos_of_nonneg_of_nonpos (by positivity) (by linarith)
    have k3 : K / 2 * (j * lo - 1) ≤ 0 := by
      rw [le_div_iff₀ hj] at l2
      exact mul_nonpos_of_nonneg_of_nonpos (by positivity) (by linarith)
    linarith
  have hhi0 : 0 < hi := lt_of_lt_of_le hlo hle
  have hhigh : 0 ≤ F c1 c2 K t j (j * hi) := by
    rw [F_factor c1 c2 K t j hi hj hhi0]
    have q1 : 0 ≤ (j * hi) ^ (-1 / 3 : ℝ) := Real.rpow_nonneg (by positivity) _
    have q2 : 0 ≤ (j * hi) ^ (-2 / 3 : ℝ) := Real.rpow_nonneg (by positivity) _
    have k1 : 0 ≤ c1 / 3 * (j * hi) ^ (-1 / 3 : ℝ) * (2 * hi - t) :=
      mul_nonneg (by positivity) (by linarith)
    have k2 : 0 ≤ c2 / 3 * (j * hi) ^ (-2 / 3 : ℝ) * (t * hi - 2 * j) := by
      by_cases hc : c2 = 0
      · rw [hc]; simp
      · have := g3 hc
        rw [div_le_iff₀ ht] at this
        exact mul_nonneg (by positivity) (by linarith)
    have k3 : 0 ≤ K / 2 * (j * hi - 1) := by
      rw [div_le_iff₀ hj] at g2
      exact mul_nonneg (by positivity) (by linarith)
    linarith
  have hsub : Set.Icc (j * lo) (j * hi) ⊆ Set.Ioi 0 := fun y hy =>
    lt_of_lt_of_le (mul_pos hj hlo) hy.1
  obtain ⟨w, hw, hz⟩ := intermediate_value_Icc (mul_le_mul_of_nonneg_left hle hj.le)
    ((F_cont c1 c2 K t j).mono hsub) ⟨hlow, hhigh⟩
  refine ⟨w / j, ⟨?_, ?_⟩, ?_⟩
  · rw [le_div_iff₀ hj]; linarith [hw.1]
  · rw [div_le_iff₀ hj]; linarith [hw.2]
  · rw [mul_div_cancel₀ _ hj.ne']; exact hz

theorem trace_pos {A C : T2} (hA : Metric A) (hC : Metric C) : 0 < traceCt (data A C) := by
  obtain ⟨P, hP, a, b, ha, hb, hd⟩ := principal' hA hC
  rw [← trace_co P A C hP, hd, red_trace]
  positivity

theorem J0_pos {A C : T2} (hA : Metric A) (hC : Metric C) : 0 < (data A C).J0 :=
  div_pos hC.2.2 hA.2.2

theorem sNHc_F (p : Par) (A C : T2) (x : ℝ) (hj : 0 < (data A C).J0) (hx : 0 < x) :
    x * sNHc p (cdata (data A C) x) 2 2
      = F p.mu 0 p.K (traceCt (data A C)) (data A C).J0 ((data A C).J0 * x) := by
  rw [F_factor _ _ _ _ _ x hj hx]
  have e : sNHc p (cdata (data A C) x) 2 2
      = p.mu * ((data A C).J0 * x) ^ (-1 / 3 : ℝ)
          * (1 - 1 / 3 * (traceCt (data A C) + x) * (1 / x))
        + p.K * (1 / 2) * ((data A C).J0 * x - 1) * (1 / x) := rfl
  rw [e]
  field_simp
  ring

theorem sMRc_F (p : Par) (A C : T2) (x : ℝ) (hj : 0 < (data A C).J0) (hx : 0 < x) :
    x * sMRc p (cdata (data A C) x) 2 2
      = F p.c1 p.c2 p.K (traceCt (data A C)) (data A C).J0 ((data A C).J0 * x) := by
  rw [F_factor _ _ _ _ _ x hj hx]
  have e : sMRc p (cdata (data A C) x) 2 2
      = p.c1 * ((data A C).J0 * x) ^ (-1 / 3 : ℝ)
          * (1 - 1 / 3 * (traceCt (data A C) + x) * (1 / x))
        + p.c2 * ((data A C).J0 * x) ^ (-2 / 3 : ℝ)
          * (traceCt (data A C) - 2 / 3 * (x * traceCt (data A C) + (data A C).J0) * (1 / x))
        + p.K * (1 / 2) * ((data A C).J0 * x - 1) * (1 / x) := by
    simp only [sMRc, dI2, idelta_two, delta_two, I1, I2, c22_co, cinv22_co, Gori22_co]
    simp only [cdata]
    ring
  rw [e]
  field_simp
  ring

/-- The Newton iteration for `a - b/c` never returns a positive value once the relative error of an
iterate is at least one in absolute value. -/
theorem loop_neg {S T : ℝ → ℝ} {a b : ℝ} (ha : 0 < a) (hb : 0 < b)
    (hS : ∀ c, c ≠ 0 → S c = a - b / c) (hT : ∀ c, c ≠ 0 → T c = 2 * b / c ^ 2) :
    ∀ (n : ℕ) (c x : ℝ), c ≠ 0 → 1 ≤ |1 - a / b * c| → loop S T n c (step S T c) = .ok x → x < 0 := by
  intro n
  induction n with
  | zero => intro c x _ _ h; simp [loop] at h
  | succ n ih =>
    intro c x hc he h
    rw [loop_succ] at h
    have e1 := iter_error hb.ne' hS hT hc
    have e2 : iter S T c = c + step S T c := rfl
    rw [e2] at e1
    set c' := c + step S T c with hc'
    by_cases h0 : c' = 0 ∨ T c' = 0
    · rw [if_pos h0] at h; exact absurd h (by simp)
    rw [if_neg h0] at h
    push Not at h0
    have h1 : 1 ≤ (1 - a / b * c) ^ 2 := by
      rw [← sq_abs]; nlinarith [abs_nonneg (1 - a / b * c)]
    have h2 : a / b * c' ≤ 0 := by linarith
    have h3 : c' < 0 := by
      have hab : 0 < a / b := by positivity
      rcases lt_trichotomy c' 0 with h | h | h
      · exact h
      · exact absurd h h0.1
      · have := mul_pos hab h; linarith
    by_cases ht : |step S T c'| < tol
    · rw [if_pos ht] at h
      rw [← Outcome.ok.inj h]
      exact h3
    rw [if_neg ht] at h
    by_cases hn : n = 0
    · rw [if_pos hn] at h; exact absurd h (by simp)
    rw [if_neg hn] at h
    refine ih c' x h0.1 ?_ h
    rw [e1, abs_of_nonneg (by positivity)]
    exact h1

end Verif.PlaneStress
