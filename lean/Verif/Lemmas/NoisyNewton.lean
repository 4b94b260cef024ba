import Verif.Lemmas.HyperShell

/-! # Helper lemmas: Newton's method with residuals that are not exact -/

namespace Verif.Solve

open Spec.Solve Spec.ShellSystem
open Filter Topology

variable {V : Type} [NormedAddCommGroup V] [NormedSpace ℝ V]

section
variable {s : Sys V} {solve : (V →L[ℝ] V) → V → V} {R Rt : V → V} {R' K : V → V →L[ℝ] V} {xs : V} {ρ β L ε η : ℝ}

/-- One step with a residual that is not exact. -/
theorem contract_noisy (h : Tangent R R' K (Metric.closedBall xs ρ) L ε) (hL : 0 ≤ L) (hρ : 0 ≤ ρ)
    (h0 : R xs = 0) (hβ : 0 ≤ β) {x : V} (hx : x ∈ Metric.closedBall xs ρ) (hi : Inverse solve (K x) β)
    (hn : ‖Rt x - R x‖ ≤ η) :
    ‖x + solve (K x) (Rt x) - xs‖ ≤ β * ((L * ‖x - xs‖ + ε) * ‖x - xs‖) + β * η := by
  have h1 := contract h hL (convex_closedBall xs ρ) hx (Metric.mem_closedBall_self hρ) h0 hβ hi
  have h2 : ‖solve (K x) (Rt x) - solve (K x) (R x)‖ ≤ β * η := by
    refine ((hi 0).2 _).trans (mul_le_mul_of_nonneg_left ?_ hβ)
    rw [map_sub, (hi (Rt x)).1, (hi (R x)).1]
    exact hn
  have e : x + solve (K x) (Rt x) - xs
      = (x + solve (K x) (R x) - xs) + (solve (K x) (Rt x) - solve (K x) (R x)) := by abel
  rw [e]
  exact (norm_add_le _ _).trans (add_le_add h1 h2)

/-- The loop with residuals that are not exact. -/
theorem loop_noisy (ha : Assembles s Rt K (Metric.closedBall xs ρ))
    (h : Tangent R R' K (Metric.closedBall xs ρ) L ε) (hL : 0 ≤ L) (hε : 0 ≤ ε) (h0 : R xs = 0) (hβ : 0 ≤ β)
    (hi : ∀ x ∈ Metric.closedBall xs ρ, Inverse solve (K x) β) (hc : β * (L * ρ + ε) ≤ 1 / 4) (hρ : 0 ≤ ρ)
    (hn : ∀ x ∈ Metric.closedBall xs ρ, ‖Rt x - R x‖ ≤ η) (h1 : 4 * (β * η) ≤ 3 * ρ) (h2 : 8 * (β * η) ≤ tol) :
    ∀ (n it : ℕ) (x : V) (w : Bool), ‖x - xs‖ ≤ ρ → ‖x - xs‖ ≤ 4 / 3 * (β * η) + tol / 2 * 4 ^ n →
      ∃ res, loop s solve (n + 1) it x (Rt x) w = .ok res ∧ res.broke = true
        ∧ ‖res.x - xs‖ ≤ β * ((L * (2 * tol) + ε) * (2 * tol)) + β * η := by
  have ht : 0 < tol := by unfold tol; positivity
  have hb : 0 ≤ β * η := mul_nonneg hβ ((norm_nonneg _).trans (hn xs (Metric.mem_closedBall_self hρ)))
  have quarter : ∀ x ∈ Metric.closedBall xs ρ, ‖x + solve (K x) (Rt x) - xs‖ ≤ 1 / 4 * ‖x - xs‖ + β * η := by
    intro x hx
    refine (contract_noisy h hL hρ h0 hβ hx (hi x hx) (hn x hx)).trans (add_le_add_left ?_ _)
    rw [Metric.mem_closedBall, dist_eq_norm] at hx
    rw [← mul_assoc]
    refine mul_le_mul_of_nonneg_right (le_trans ?_ hc) (norm_nonneg _)
    gcongr
  intro n
  induction n with
  | zero =>
    intro it x w hx hb'
    have hxD : x ∈ Metric.closedBall xs ρ := by rwa [Metric.mem_closedBall, dist_eq_norm]
    have c := contract_noisy h hL hρ h0 hβ hxD (hi x hxD) (hn x hxD)
    have q := quarter x hxD
    simp only [pow_zero, mul_one] at hb'
    have up : ‖solve (K x) (Rt x)‖ < tol := by
      have : ‖solve (K x) (Rt x)‖ ≤ ‖x + solve (K x) (Rt x) - xs‖ + ‖x - xs‖ := by
        calc ‖solve (K x) (Rt x)‖ = ‖(x + solve (K x) (Rt x) - xs) - (x - xs)‖ := by congr 1; abel
          _ ≤ _ := norm_sub_le _ _
      linarith
    have hx' : x + solve (K x) (Rt x) ∈ Metric.closedBall xs ρ := by
      rw [Metric.mem_closedBall, dist_eq_norm]; linarith
    refine ⟨⟨x + solve (K x) (Rt x), Rt (x + solve (K x) (Rt x)), true, it + 1, w⟩, ?_, rfl, ?_⟩
    · rw [loop]
      simp [ha.jacobian x hxD, ha.residual _ hx', ensure, Outcome.bind, up]
    · have : ‖x - xs‖ ≤ 2 * tol := by linarith
      refine c.trans ?_
      gcongr
  | succ n ih =>
    intro it x w hx hb'
    have hxD : x ∈ Metric.closedBall xs ρ := by rwa [Metric.mem_closedBall, dist_eq_norm]
    have c := contract_noisy h hL hρ h0 hβ hxD (hi x hxD) (hn x hxD)
    have q := quarter x hxD
    have hx' : x + solve (K x) (Rt x) ∈ Metric.closedBall xs ρ := by
      rw [Metric.mem_closedBall, dist_eq_norm]; linarith
    rw [loop]
    simp only [ha.jacobian x hxD, ha.residual _ hx', ensure, Outcome.bind]
    by_cases hd : ‖solve (K x) (Rt x)‖ < tol
    · rw [if_pos hd]
      refine ⟨_, rfl, rfl, c.trans ?_⟩
      have tri : ‖x - xs‖ ≤ ‖x + solve (K x) (Rt x) - xs‖ + ‖solve (K x) (Rt x)‖ := by
        calc ‖x - xs‖ = ‖(x + solve (K x) (Rt x) - xs) - solve (K x) (Rt x)‖ := by congr 1; abel
          _ ≤ _ := norm_sub_le _ _
      have : ‖x - xs‖ ≤ 2 * tol := by linarith
      gcongr
    · rw [if_neg hd]
      refine ih _ _ _ (by linarith) ?_
      rw [pow_succ] at hb'
      linarith

/-- The program with residuals that are not exact. -/
theorem program_noisy (ha : Assembles s Rt K (Metric.closedBall xs ρ))
    (h : Tangent R R' K (Metric.closedBall xs ρ) L ε) (hL : 0 ≤ L) (hε : 0 ≤ ε) (h0 : R xs = 0) (hβ : 0 ≤ β)
    (hi : ∀ x ∈ Metric.closedBall xs ρ, Inverse solve (K x) β) (hc : β * (L * ρ + ε) ≤ 1 / 4) (hρ : ρ ≤ 10 ^ 20)
    (hn : ∀ x ∈ Metric.closedBall xs ρ, ‖Rt x - R x‖ ≤ η) (h1 : 4 * (β * η) ≤ 3 * ρ) (h2 : 8 * (β * η) ≤ tol)
    (hx : ‖solve s.K0 s.F - xs‖ ≤ ρ) :
    ∃ res, program s solve = .ok res ∧ res.broke = true
      ∧ ‖res.x - xs‖ ≤ β * ((L * (2 * tol) + ε) * (2 * tol)) + β * η := by
  have r0 : 0 ≤ ρ := (norm_nonneg _).trans hx
  have hm : solve s.K0 s.F ∈ Metric.closedBall xs ρ := by rwa [Metric.mem_closedBall, dist_eq_norm]
  have hb : 0 ≤ β * η := mul_nonneg hβ ((norm_nonneg _).trans (hn xs (Metric.mem_closedBall_self r0)))
  obtain ⟨res, e1, e2, e3⟩ := loop_noisy ha h hL hε h0 hβ hi hc r0 hn h1 h2 99 0 (solve s.K0 s.F) false hx (by
    refine (hx.trans hρ).trans ?_
    have : (10 : ℝ) ^ 20 ≤ tol / 2 * 4 ^ 99 := by unfold tol; norm_num
    linarith)
  refine ⟨res, ?_, e2, e3⟩
  unfold program
  rw [ha.residual _ hm]
  exact e1

end

end Verif.Solve
