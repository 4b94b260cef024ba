import Verif.Lemmas.NoisyNewton
import Verif.Lemmas.LocalNewton

/-! # Helper lemmas: small loads with residuals that are not exact -/

namespace Verif.Solve

open Spec.Solve Spec.ShellSystem
open Filter Topology

section
variable {V : Type} [NormedAddCommGroup V] [NormedSpace ℝ V] [FiniteDimensional ℝ V]

set_option maxHeartbeats 800000 in
/-- As `small_loads`, for a residual and a tangent whose errors vanish at the unloaded state and are small
close to it. -/
theorem small_noisy {R Rt : V → V} {K Kt : V → V →L[ℝ] V} (hR : ContDiffAt ℝ 2 R 0)
    (hK : ∀ᶠ x in 𝓝 0, HasFDerivAt R (-K x) x) (hi : Function.Injective (K 0)) (h0 : R 0 = 0)
    {S : Set V} (hS : S ∈ 𝓝 0) {τ : ℝ} (hτ : 0 ≤ τ)
    (hn : ∀ ε > 0, ∀ᶠ x in 𝓝 0, ‖Rt x - R x‖ ≤ ε * ‖x‖ ∧ ‖Kt x - K x‖ ≤ ε)
    (hM : ∀ᶠ x in 𝓝 0, ‖Rt x - R x‖ ≤ τ ∧ ‖Kt x - K x‖ ≤ τ) (F xl : V) (hl : K 0 xl = F) :
    ∃ l₀ ρ C : ℝ, 0 < l₀ ∧ 0 < ρ ∧ 0 ≤ C ∧ ∀ l : ℝ, |l| ≤ l₀ → ∃ xs ∈ S, R xs + l • F = 0 ∧
      ‖xs - l • xl‖ ≤ C * l ^ 2 ∧
      (∀ x, ‖x‖ ≤ ρ → R x + l • F = 0 → x = xs) ∧
      ∀ (s : Sys V) (solve : (V →L[ℝ] V) → V → V), Assembles s (fun x => Rt x + l • F) Kt S →
        Solver solve → s.K0 = K 0 → s.F = l • F →
        ∃ res, program s solve = .ok res ∧ res.broke = true ∧ ‖res.x - xs‖ ≤ C * (τ + (1 / 10 ^ 6) ^ 2) := by
  obtain ⟨l₁, ρ₁, C₁, hl₁, hρ₁, H⟩ := small_loads hR hK hi h0 hS F xl hl
  obtain ⟨L, β, ρ, hL, hβ, hρ, hρ1, hc, hsub, ht, hb⟩ := local_constants hR hK hi hS
  have hε : 0 < 1 / (16 * β) := by positivity
  generalize he0 : 1 / (16 * β) = ε₀ at hε
  have hβε : β * ε₀ = 1 / 16 := by rw [← he0]; field_simp
  obtain ⟨σ, hσ, hb2⟩ := Metric.nhds_basis_closedBall.mem_iff.1 ((hn ε₀ hε).and hM)
  have ht0 : 0 < tol := by norm_num [tol]
  have hr0 : 0 < min (min (ρ / 8) (σ / 2)) (tol / 2) := by positivity
  generalize hr : min (min (ρ / 8) (σ / 2)) (tol / 2) = ρ₂ at hr0
  have r1 : ρ₂ ≤ ρ / 8 := hr ▸ (min_le_left _ _).trans (min_le_left _ _)
  have r2 : ρ₂ ≤ σ / 2 := hr ▸ (min_le_left _ _).trans (min_le_right _ _)
  have r3 : ρ₂ ≤ tol / 2 := hr ▸ min_le_right _ _
  obtain ⟨N, hN0, hN1, hN2⟩ : ∃ N : ℝ, 0 < N ∧ |C₁| ≤ N ∧ |C₁| + ‖xl‖ ≤ N :=
    ⟨|C₁| + ‖xl‖ + 1, by positivity, by linarith [norm_nonneg xl], by linarith⟩
  refine ⟨min (min l₁ 1) (ρ₂ / N), ρ₁, |C₁| + 2 * β * (4 * L + 3), by positivity, hρ₁, by positivity, fun l hlb => ?_⟩
  have b1 : |l| ≤ l₁ := hlb.trans ((min_le_left _ _).trans (min_le_left _ _))
  have b2 : |l| ≤ 1 := hlb.trans ((min_le_left _ _).trans (min_le_right _ _))
  have b3 : N * |l| ≤ ρ₂ := by
    have : |l| ≤ ρ₂ / N := hlb.trans (min_le_right _ _)
    rwa [le_div_iff₀ hN0, mul_comm] at this
  obtain ⟨xs, hxS, he, hq, hu, -⟩ := H l b1
  have hl2 : l ^ 2 ≤ |l| := by rw [← sq_abs]; nlinarith [abs_nonneg l]
  have hq' : ‖xs - l • xl‖ ≤ |C₁| * |l| := hq.trans
    ((mul_le_mul_of_nonneg_right (le_abs_self _) (sq_nonneg _)).trans (mul_le_mul_of_nonneg_left hl2 (abs_nonneg _)))
  have hxs : ‖xs‖ ≤ ρ₂ := by
    have h1 : ‖xs‖ ≤ ‖xs - l • xl‖ + ‖l • xl‖ := by
      calc ‖xs‖ = ‖(xs - l • xl) + l • xl‖ := by congr 1; abel
        _ ≤ _ := norm_add_le _ _
    rw [norm_smul, Real.norm_eq_abs] at h1
    nlinarith [abs_nonneg l]
  have hin : ∀ x ∈ Metric.closedBall xs ρ₂, ‖x‖ ≤ 2 * ρ₂ := by
    intro x hx
    have h1 : ‖x - xs‖ ≤ ρ₂ := by rw [← dist_eq_norm]; exact hx
    have h2 : ‖x‖ ≤ ‖x - xs‖ + ‖xs‖ := by
      calc ‖x‖ = ‖(x - xs) + xs‖ := by congr 1; abel
        _ ≤ _ := norm_add_le _ _
    linarith
  have hinρ : ∀ x ∈ Metric.closedBall xs ρ₂, x ∈ Metric.closedBall (0 : V) ρ := fun x hx => by
    rw [mem_closedBall_zero_iff]; linarith [hin x hx]
  have hinσ : ∀ x ∈ Metric.closedBall xs ρ₂, x ∈ Metric.closedBall (0 : V) σ := fun x hx => by
    rw [mem_closedBall_zero_iff]; linarith [hin x hx]
  refine ⟨xs, hxS, he, ?_, hu, fun s solve ha hs hs0 hF => ?_⟩
  · refine hq.trans (mul_le_mul_of_nonneg_right ?_ (sq_nonneg _))
    have : 0 ≤ 2 * β * (4 * L + 3) := by positivity
    linarith [le_abs_self C₁]
  have hst : solve s.K0 s.F = l • xl := by
    rw [hs0, hF]
    apply hi
    rw [hs (K 0) hi (l • F), map_smul, hl]
  have hKt : ∀ x ∈ Metric.closedBall xs ρ₂, ‖Kt x - K x‖ ≤ min ε₀ τ := fun x hx =>
    le_min (hb2 (hinσ x hx)).1.2 (hb2 (hinσ x hx)).2.2
  have hRt : ∀ x ∈ Metric.closedBall xs ρ₂, ‖(Rt x + l • F) - (R x + l • F)‖ ≤ min (ε₀ * (2 * ρ₂)) τ := fun x hx => by
    rw [add_sub_add_right_eq_sub]
    exact le_min ((hb2 (hinσ x hx)).1.1.trans (mul_le_mul_of_nonneg_left (hin x hx) hε.le)) (hb2 (hinσ x hx)).2.1
  have hinv : ∀ x ∈ Metric.closedBall xs ρ₂, Inverse solve (Kt x) (2 * β) := by
    intro x hx
    refine inverse_of hs fun v => ?_
    have h1 := hb x (hinρ x hx) v
    have h2 : ‖K x v‖ ≤ ‖Kt x v‖ + ε₀ * ‖v‖ := by
      have e : K x v = Kt x v - (Kt x - K x) v := by simp
      rw [e]
      refine (norm_sub_le _ _).trans ?_
      have := (ContinuousLinearMap.le_opNorm (Kt x - K x) v).trans
        (mul_le_mul_of_nonneg_right ((hKt x hx).trans (min_le_left _ _)) (norm_nonneg v))
      linarith
    have h3 : β * ‖K x v‖ ≤ β * ‖Kt x v‖ + 1 / 16 * ‖v‖ := by
      rw [← hβε]
      calc _ ≤ β * (‖Kt x v‖ + ε₀ * ‖v‖) := mul_le_mul_of_nonneg_left h2 hβ.le
        _ = _ := by ring
    nlinarith [norm_nonneg v, norm_nonneg (Kt x v)]
  have hbL : β * (L * ρ₂) ≤ 1 / 16 := by
    have : β * (L * ρ₂) ≤ β * (L * (ρ / 8)) := by gcongr
    linarith
  have hm1 : min ε₀ τ ≤ ε₀ := min_le_left _ _
  have hm2 : min ε₀ τ ≤ τ := min_le_right _ _
  have hm3 : min (ε₀ * (2 * ρ₂)) τ ≤ ε₀ * (2 * ρ₂) := min_le_left _ _
  have hm4 : min (ε₀ * (2 * ρ₂)) τ ≤ τ := min_le_right _ _
  have hm5 : 0 ≤ min ε₀ τ := le_min hε.le hτ
  have hm6 : 2 * β * min (ε₀ * (2 * ρ₂)) τ ≤ ρ₂ / 4 := by
    have : 2 * β * min (ε₀ * (2 * ρ₂)) τ ≤ 2 * β * (ε₀ * (2 * ρ₂)) := by gcongr
    have e : 2 * β * (ε₀ * (2 * ρ₂)) = 4 * (β * ε₀) * ρ₂ := by ring
    rw [e, hβε] at this
    linarith
  obtain ⟨res, e1, e2, e3⟩ := program_noisy (s := s) (Rt := fun x => Rt x + l • F) (K := Kt) (R := fun x => R x + l • F)
    (R' := fun x => -K x) (ρ := ρ₂) (β := 2 * β) (L := L) (ε := min ε₀ τ) (η := min (ε₀ * (2 * ρ₂)) τ) (xs := xs)
    (solve := solve)
    ⟨fun x hx => ha.residual x (hsub (hinρ x hx)), fun x hx => ha.jacobian x (hsub (hinρ x hx))⟩
    ⟨fun x hx => (ht.deriv x (hinρ x hx)).add_const _, fun x hx y hy => by
      have h1 := ht.close x (hinρ x hx) y (hinρ y hy)
      have e : -K y + Kt x = (-K y + K x) + (Kt x - K x) := by abel
      rw [e]
      refine (norm_add_le _ _).trans ?_
      linarith [hKt x hx]⟩
    hL hm5 he (by positivity) hinv
    (by
      have : β * min ε₀ τ ≤ 1 / 16 := by rw [← hβε]; gcongr
      nlinarith)
    (by
      have : tol ≤ 1 := by norm_num [tol]
      have h3 : (1 : ℝ) ≤ 10 ^ 20 := by norm_num
      linarith)
    hRt (by linarith) (by linarith)
    (by
      rw [hst, norm_sub_rev]
      have : |C₁| * |l| ≤ N * |l| := mul_le_mul_of_nonneg_right hN1 (abs_nonneg _)
      linarith)
  refine ⟨res, e1, e2, e3.trans ?_⟩
  have ht1 : tol = 1 / 10 ^ 6 := rfl
  have g1 : 2 * β * min (ε₀ * (2 * ρ₂)) τ ≤ 2 * β * τ := by gcongr
  have g2 : 2 * β * ((L * (2 * tol) + min ε₀ τ) * (2 * tol)) ≤ 2 * β * ((L * (2 * tol) + τ) * (2 * tol)) := by gcongr
  have g3 : 2 * β * (τ * (2 * tol)) ≤ 2 * β * (τ * 2) := by
    have : tol ≤ 1 := by norm_num [tol]
    gcongr
    linarith
  have g4 : 0 ≤ |C₁| * (τ + tol ^ 2) := by positivity
  have g5 : 0 ≤ β * L * τ := by positivity
  have g6 : 0 ≤ β * tol ^ 2 := by positivity
  rw [← ht1]
  have e4 : 2 * β * ((L * (2 * tol) + τ) * (2 * tol)) = 8 * (β * L * tol ^ 2) + 2 * β * (τ * (2 * tol)) := by ring
  have e5 : (|C₁| + 2 * β * (4 * L + 3)) * (τ + tol ^ 2) = |C₁| * (τ + tol ^ 2) + 8 * (β * L * τ)
    + 8 * (β * L * tol ^ 2) + 2 * β * (τ * 2) + 2 * β * τ + 6 * (β * tol ^ 2) := by ring
  rw [e5]
  linarith

end

end Verif.Solve
