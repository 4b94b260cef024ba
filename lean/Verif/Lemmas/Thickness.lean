import Verif.Lemmas.PlaneSheet
import Verif.Lemmas.Newton

/-! # Helper lemmas: convergence of the iteration for the thickness -/

namespace Verif.Thickness

open Verif.Geometry Verif.Hyper Verif.PlaneStress Verif.PlaneSheet
open Spec.PlaneSheet Spec.Hyper Spec.PosDef
open Filter Topology

/-! ## The loop -/

/-- The loop of the thickness for steps that contract. -/
theorem loop_contracts {S T : ℝ → ℝ} {y q d : ℝ} (hq0 : 0 ≤ q) (hq : q ≤ 1 / 4)
    (h : ∀ x, |x - y| ≤ d → x ≠ 0 ∧ T x ≠ 0 ∧ |x + Newton.step S T x - y| ≤ q * |x - y|) :
    ∀ (n : ℕ) (c : ℝ), |c - y| ≤ d → |c - y| ≤ 4 ^ (n + 1) * (Newton.tol / 2) →
      ∃ x, Newton.loop S T (n + 1) c (Newton.step S T c) = .ok x ∧ |x - y| ≤ q * |c - y| ∧ |x - y| ≤ 2 * Newton.tol := by
  have ht : 0 < Newton.tol := by norm_num [Newton.tol]
  intro n
  induction n with
  | zero =>
    intro c hc hn
    obtain ⟨-, -, h3⟩ := h c hc
    have hle : |c + Newton.step S T c - y| ≤ d :=
      h3.trans ((mul_le_of_le_one_left (abs_nonneg _) (by linarith)).trans hc)
    obtain ⟨h4, h5, h6⟩ := h _ hle
    have h7 : |c + Newton.step S T c - y| ≤ Newton.tol / 2 := by nlinarith [abs_nonneg (c - y)]
    have h8 : |Newton.step S T (c + Newton.step S T c)| < Newton.tol := by
      have e : Newton.step S T (c + Newton.step S T c)
          = (c + Newton.step S T c + Newton.step S T (c + Newton.step S T c) - y) - (c + Newton.step S T c - y) := by ring
      rw [e]
      refine (abs_sub _ _).trans_lt ?_
      nlinarith [abs_nonneg (c + Newton.step S T c - y)]
    rw [Newton.loop_succ, if_neg (by push Not; exact ⟨h4, h5⟩), if_pos h8]
    exact ⟨_, rfl, h3, by linarith⟩
  | succ n ih =>
    intro c hc hn
    obtain ⟨-, -, h3⟩ := h c hc
    have hle : |c + Newton.step S T c - y| ≤ |c - y| := h3.trans (mul_le_of_le_one_left (abs_nonneg _) (by linarith))
    obtain ⟨h4, h5, h6⟩ := h _ (hle.trans hc)
    rw [Newton.loop_succ, if_neg (by push Not; exact ⟨h4, h5⟩)]
    by_cases h8 : |Newton.step S T (c + Newton.step S T c)| < Newton.tol
    · rw [if_pos h8]
      refine ⟨_, rfl, h3, ?_⟩
      have e : c + Newton.step S T c - y
          = (c + Newton.step S T c + Newton.step S T (c + Newton.step S T c) - y)
            - Newton.step S T (c + Newton.step S T c) := by ring
      have h9 : |c + Newton.step S T c - y| ≤ q * |c + Newton.step S T c - y| + Newton.tol := by
        conv_lhs => rw [e]
        refine (abs_sub _ _).trans ?_
        linarith
      nlinarith [abs_nonneg (c + Newton.step S T c - y)]
    · rw [if_neg h8, if_neg (Nat.succ_ne_zero n)]
      obtain ⟨x, e1, e2, e3⟩ := ih _ (hle.trans hc) (by
        refine h3.trans ?_
        rw [pow_succ] at hn
        nlinarith [abs_nonneg (c - y)])
      refine ⟨x, e1, e2.trans ?_, e3⟩
      exact mul_le_mul_of_nonneg_left hle hq0

/-! ## The step -/

/-- The stress across the thickness, as function of trace, squared area ratio and squared stretch. -/
noncomputable def H (s : Solid) (p : Par) (z : (ℝ × ℝ) × ℝ) : ℝ := G s p z.1.1 z.1.2 z.2 / z.2

/-- Its slope. -/
noncomputable def H' (s : Solid) (p : Par) (z : (ℝ × ℝ) × ℝ) : ℝ := fderiv ℝ (H s p) z (0, 1)

theorem H_smooth (s : Solid) (p : Par) {t j x : ℝ} (hj : 0 < j) (hx : 0 < x) : ContDiffAt ℝ 2 (H s p) ((t, j), x) :=
  (G_smooth s p hj hx).div contDiffAt_snd hx.ne'

theorem H'_smooth (s : Solid) (p : Par) {t j x : ℝ} (hj : 0 < j) (hx : 0 < x) : ContDiffAt ℝ 1 (H' s p) ((t, j), x) :=
  ((H_smooth s p hj hx).fderiv_right (m := 1) (by norm_num)).clm_apply contDiffAt_const

theorem line (z : ℝ × ℝ) (x : ℝ) : HasDerivAt (fun y : ℝ => (z, y)) ((0 : ℝ × ℝ), (1 : ℝ)) x :=
  (hasDerivAt_const _ _).prodMk (hasDerivAt_id' _)

theorem H_line (s : Solid) (p : Par) {t j x : ℝ} (hj : 0 < j) (hx : 0 < x) :
    HasDerivAt (fun y => H s p ((t, j), y)) (H' s p ((t, j), x)) x :=
  (((H_smooth s p (t := t) hj hx).differentiableAt (by norm_num)).hasFDerivAt).comp_hasDerivAt x (line (t, j) x)

theorem stress_H (s : Solid) (p : Par) (A C : T2) {x : ℝ} (hj : 0 < det2 C / det2 A) (hx : 0 < x) :
    s.stress p (cdata (data A C) x) 2 2 = H s p ((tr A C, det2 C / det2 A), x) := by
  rw [H, ← G_eq s p A C hj hx, mul_div_cancel_left₀ _ hx.ne']

theorem tangent_H (s : Solid) (p : Par) {A C : T2} (hA : Metric A) (hC : Metric C) {x : ℝ} (hx : 0 < x) :
    s.tangent p (cdata (data A C) x) 2 2 2 2 = 2 * H' s p ((tr A C, det2 C / det2 A), x) := by
  have hj := ratio_pos hA hC
  have hcur : Curve (fun _ => C) 0 x := ⟨fun i j => hasDerivAt_const _ _, hC.1, rfl⟩
  have h := (tangent3 s p hA.2.2 hA.1 (fun _ => C) (fun y => y) 0 1 x hcur (hasDerivAt_id' x) hC.2.2 hx).2
  have h4 := (H_line s p (t := tr A C) hj hx).congr_of_eventuallyEq (f₁ := fun y => s.stress p (cdata (data A C) y) 2 2) (by
    filter_upwards [eventually_gt_nhds hx] with y hy
    exact stress_H s p A C hj hy)
  have h5 := h.unique h4
  simp only [rate, Pi.zero_apply, mul_zero, Finset.sum_const_zero, zero_add, mul_one] at h5
  linarith

theorem G_rest (s : Solid) (p : Par) : G s p 2 1 1 = 0 := by
  cases s <;> norm_num [G, F]

theorem H_rest (s : Solid) (p : Par) : H s p ((2, 1), 1) = 0 := by simp [H, G_rest]

theorem H'_rest {s : Solid} {p : Par} (hp : Positive s p) : 0 < H' s p ((2, 1), 1) := by
  obtain ⟨g, hg, hd⟩ := G_slope hp (t := 2) (j := 1) (x := 1) (by norm_num) one_pos one_pos
  have h := hd.div (hasDerivAt_id' (1 : ℝ)) one_ne_zero
  have h2 := (H_line s p (t := 2) (j := 1) (x := 1) one_pos one_pos).unique h
  rw [h2, G_rest]
  simpa using hg

/-- One step. -/
noncomputable def next (s : Solid) (p : Par) (z : (ℝ × ℝ) × ℝ) : ℝ := z.2 - H s p z / H' s p z

theorem next_smooth {s : Solid} {p : Par} (hp : Positive s p) : ContDiffAt ℝ 1 (next s p) ((2, 1), 1) :=
  contDiffAt_snd.sub (((H_smooth s p one_pos one_pos).of_le (by norm_num)).div (H'_smooth s p one_pos one_pos)
    (H'_rest hp).ne')

theorem next_flat {s : Solid} {p : Par} (hp : Positive s p) : fderiv ℝ (next s p) ((2, 1), 1) (0, 1) = 0 := by
  have h1 := (((next_smooth hp).differentiableAt (by norm_num)).hasFDerivAt).comp_hasDerivAt (1 : ℝ) (line (2, 1) 1)
  have h2 := H_line s p (t := 2) (j := 1) (x := 1) one_pos one_pos
  have h3 := (((H'_smooth s p (t := 2) one_pos one_pos).differentiableAt (by norm_num)).hasFDerivAt).comp_hasDerivAt (1 : ℝ)
    (line (2, 1) 1)
  have h4 := (hasDerivAt_id' (1 : ℝ)).sub (h2.div h3 (H'_rest hp).ne')
  have h5 := h1.unique h4
  rw [h5]
  have h0 := (H'_rest hp).ne'
  simp only [H_rest, zero_mul, sub_zero, Function.comp_apply]
  field_simp
  ring

/-- Near the undeformed state the step contracts as much as wanted. -/
theorem next_contracts {s : Solid} {p : Par} (hp : Positive s p) {q : ℝ} (hq : 0 < q) :
    ∃ δ > 0, ∀ t j x y : ℝ, |t - 2| ≤ δ → |j - 1| ≤ δ → |x - 1| ≤ δ → |y - 1| ≤ δ →
      0 < H' s p ((t, j), x) ∧ |next s p ((t, j), x) - next s p ((t, j), y)| ≤ q * |x - y| := by
  have h := ((next_smooth hp).hasStrictFDerivAt (by norm_num)).isLittleO.def hq
  have h' : ∀ᶠ z : (ℝ × ℝ) × ℝ in 𝓝 ((2, 1), 1), 0 < H' s p z :=
    (H'_smooth s p one_pos one_pos).continuousAt.eventually_const_lt (H'_rest hp)
  obtain ⟨ε, hε, hb⟩ := Metric.eventually_nhds_iff_ball.1 h
  obtain ⟨ε', hε', hb'⟩ := Metric.eventually_nhds_iff_ball.1 h'
  refine ⟨min ε ε' / 2, by positivity, fun t j x y ht hj hx hy => ?_⟩
  have hm : ∀ x : ℝ, |x - 1| ≤ min ε ε' / 2 → dist (((t, j), x) : (ℝ × ℝ) × ℝ) ((2, 1), 1) < min ε ε' := by
    intro x hx
    have h0 : 0 < min ε ε' := by positivity
    rw [Prod.dist_eq, Prod.dist_eq, Real.dist_eq, Real.dist_eq, Real.dist_eq]
    refine max_lt (max_lt ?_ ?_) ?_ <;> linarith
  refine ⟨hb' _ (Metric.mem_ball.2 ((hm x hx).trans_le (min_le_right _ _))), ?_⟩
  have h1 := hb (((t, j), x), ((t, j), y)) (by
    rw [Metric.mem_ball, Prod.dist_eq]
    exact max_lt ((hm x hx).trans_le (min_le_left _ _)) ((hm y hy).trans_le (min_le_left _ _)))
  have h2 : (((t, j), x) : (ℝ × ℝ) × ℝ) - ((t, j), y) = (x - y) • ((0 : ℝ × ℝ), (1 : ℝ)) := by
    ext <;> simp
  rw [h2, map_smul, next_flat hp, smul_zero, sub_zero, norm_smul] at h1
  simpa [Prod.norm_def, Real.norm_eq_abs] using h1

/-- Near the undeformed state the stretch is found, and is closer to the exact one than the start value. -/
theorem found {s : Solid} {p : Par} (hp : Positive s p) {q : ℝ} (hq0 : 0 < q) (hq : q ≤ 1 / 4) :
    ∃ δ > 0, ∀ A C : T2, Metric A → Metric C → |tr A C - 2| ≤ δ → |det2 C / det2 A - 1| ≤ δ →
      ∃ x, computed s p (data A C) = .ok x ∧ 0 < x ∧ |x - exact s p (data A C)| ≤ 2 * Newton.tol ∧
        |x - exact s p (data A C)| ≤ q * |det2 A / det2 C - exact s p (data A C)| := by
  obtain ⟨δ, hδ, hc⟩ := next_contracts hp hq0
  set r := min δ (1 / 2) with hr
  have hr0 : 0 < r := by positivity
  have hr1 : r ≤ 1 / 2 := min_le_right _ _
  have hrδ : r ≤ δ := min_le_left _ _
  have hR := (R_smooth hp (t := 2) (j := 1) two_pos one_pos).continuousAt
  have hR1 : R s p (2, 1) = 1 := (R_unique hp two_pos one_pos one_pos (G_rest s p)).symm
  have hev : ∀ᶠ z : ℝ × ℝ in 𝓝 (2, 1), |R s p z - 1| < r / 3 := by
    have := Metric.continuousAt_iff'.1 hR (r / 3) (by positivity)
    filter_upwards [this] with z hz
    rwa [Real.dist_eq, hR1] at hz
  obtain ⟨ε, hε, hb⟩ := Metric.eventually_nhds_iff_ball.1 hev
  refine ⟨min (ε / 2) (r / 6), by positivity, fun A C hA hC ht hj => ?_⟩
  have htε : |tr A C - 2| ≤ ε / 2 := ht.trans (min_le_left _ _)
  have hjε : |det2 C / det2 A - 1| ≤ ε / 2 := hj.trans (min_le_left _ _)
  have htr : |tr A C - 2| ≤ r / 6 := ht.trans (min_le_right _ _)
  have hjr : |det2 C / det2 A - 1| ≤ r / 6 := hj.trans (min_le_right _ _)
  have htp := tr_pos hA hC
  have hjp := ratio_pos hA hC
  obtain ⟨y0, yS⟩ := exact_spec hp htp hjp
  have y1 : |exact s p (data A C) - 1| ≤ r / 3 := by
    rw [exact_eq hp htp hjp]
    refine (hb (tr A C, det2 C / det2 A) ?_).le
    rw [Metric.mem_ball, Prod.dist_eq, Real.dist_eq, Real.dist_eq]
    exact max_lt (by linarith) (by linarith)
  set y := exact s p (data A C) with hy
  set j := det2 C / det2 A with hjd
  have hinv : det2 A / det2 C = 1 / j := by rw [hjd, one_div_div]
  have x1 : |1 / j - 1| ≤ r / 3 := by
    have hj1 := abs_le.1 hjr
    rw [abs_le, le_sub_iff_add_le, sub_le_iff_le_add, le_div_iff₀ hjp, div_le_iff₀ hjp]
    constructor <;> nlinarith
  have hfix : next s p ((tr A C, j), y) = y := by
    have : H s p ((tr A C, j), y) = 0 := by rw [← stress_H s p A C hjp y0]; exact yS
    simp [next, this]
  have hstep : ∀ x, |x - y| ≤ 2 * r / 3 → x ≠ 0 ∧ s.tangent p (cdata (data A C) x) 2 2 2 2 ≠ 0 ∧
      |x + Newton.step (fun c => s.stress p (cdata (data A C) c) 2 2) (fun c => s.tangent p (cdata (data A C) c) 2 2 2 2) x - y|
        ≤ q * |x - y| := by
    intro x hx
    have hx1 : |x - 1| ≤ r := by
      have e : x - 1 = (x - y) + (y - 1) := by ring
      rw [e]
      refine (abs_add_le _ _).trans ?_
      linarith
    have hx0 : 0 < x := by
      have := (abs_le.1 hx1).1
      linarith
    obtain ⟨h1, h2⟩ := hc (tr A C) j x y (htr.trans (by linarith)) (hjr.trans (by linarith)) (hx1.trans hrδ)
      (y1.trans (by linarith))
    refine ⟨hx0.ne', ?_, ?_⟩
    · rw [tangent_H s p hA hC hx0]
      exact (by positivity : 2 * H' s p ((tr A C, j), x) ≠ 0)
    · have e : x + Newton.step (fun c => s.stress p (cdata (data A C) c) 2 2)
          (fun c => s.tangent p (cdata (data A C) c) 2 2 2 2) x = next s p ((tr A C, j), x) := by
        simp only [Newton.step, tangent_H s p hA hC hx0, stress_H s p A C hjp hx0, next, ← hjd]
        field_simp
        ring
      rw [e]
      rwa [hfix] at h2
  have hd : |1 / j - y| ≤ 2 * r / 3 := by
    have e : 1 / j - y = (1 / j - 1) - (y - 1) := by ring
    rw [e]
    refine (abs_sub _ _).trans ?_
    linarith
  obtain ⟨x, e1, e2, e3⟩ := loop_contracts hq0.le hq hstep 99 (1 / j) hd (hd.trans (by
    have : 2 * r / 3 ≤ 1 := by linarith
    refine this.trans ?_
    norm_num [Newton.tol]))
  have hT := (hstep (1 / j) hd).2.1
  refine ⟨x, ?_, ?_, e3, by rw [hinv]; exact e2⟩
  · have h0 : (data A C).J0 = j := rfl
    unfold computed Newton.c33Of Newton.c33
    rw [h0, if_neg (by push Not; exact ⟨hjp.ne', hT⟩)]
    exact e1
  · have h1 : |x - y| ≤ 1 / 4 := e2.trans (by nlinarith [abs_nonneg (1 / j - y)])
    have h2 := (abs_le.1 h1).1
    have h3 := (abs_le.1 y1).1
    linarith

end Verif.Thickness
