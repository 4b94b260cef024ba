import Verif.Spec.Solve
import Mathlib.Analysis.Calculus.MeanValue
import Mathlib.Tactic.Linarith
import Mathlib.Tactic.Positivity

/-! # Lemmas: Newton's method -/

namespace Verif.Solve

open Spec.Solve

variable {V : Type} [NormedAddCommGroup V] [NormedSpace ℝ V]

/-- What the loop returns. -/
theorem loop_ok (s : Sys V) (solve : (V →L[ℝ] V) → V → V) :
    ∀ (n it : ℕ) (x r : V) (w : Bool) (res : Result V), s.residual x = some r → loop s solve n it x r w = .ok res →
      s.residual res.x = some res.r ∧ res.warned = w ∧ (res.broke = false → res.its = it + n)
      ∧ (res.broke = true → res.its ≤ it + n ∧ ∃ y m ry, s.residual y = some ry ∧ s.jacobian y = some m
          ∧ res.x = y + solve m ry ∧ ‖solve m ry‖ < tol) := by
  intro n
  induction n with
  | zero =>
    intro it x r w res hr h
    simp only [loop, Outcome.ok.injEq] at h
    subst h
    simp [hr]
  | succ n ih =>
    intro it x r w res hr h
    rw [loop] at h
    cases hm : s.jacobian x with
    | none => simp [hm, ensure, Outcome.bind] at h
    | some m =>
      cases hr' : s.residual (x + solve m r) with
      | none => simp [hm, hr', ensure, Outcome.bind] at h
      | some r' =>
        simp only [hm, hr', ensure, Outcome.bind] at h
        split at h
        · rename_i hd
          simp only [Outcome.ok.injEq] at h
          subst h
          refine ⟨hr', rfl, by simp, fun _ => ⟨?_, x, m, r, hr, hm, rfl, hd⟩⟩
          show it + 1 ≤ it + (n + 1)
          omega
        · obtain ⟨h1, h2, h3, h4⟩ := ih _ _ _ _ _ hr' h
          refine ⟨h1, by simpa using h2, fun hb => by rw [h3 hb]; omega, fun hb => ⟨?_, (h4 hb).2⟩⟩
          have := (h4 hb).1
          omega

theorem loop_safe (s : Sys V) (solve : (V →L[ℝ] V) → V → V) (hr : ∀ x, s.residual x ≠ none) (hj : ∀ x, s.jacobian x ≠ none) :
    ∀ (n it : ℕ) (x r : V) (w : Bool), ∃ res, loop s solve n it x r w = .ok res := by
  intro n
  induction n with
  | zero => exact fun it x r w => ⟨_, rfl⟩
  | succ n ih =>
    intro it x r w
    obtain ⟨m, hm⟩ := Option.ne_none_iff_exists'.1 (hj x)
    obtain ⟨r', hr'⟩ := Option.ne_none_iff_exists'.1 (hr (x + solve m r))
    rw [loop]
    simp only [hm, hr', ensure, Outcome.bind]
    split
    · exact ⟨_, rfl⟩
    · exact ih _ _ _ _

theorem loop_ne_ub (s : Sys V) (solve : (V →L[ℝ] V) → V → V) :
    ∀ (n it : ℕ) (x r : V) (w : Bool), loop s solve n it x r w ≠ .ub := by
  intro n
  induction n with
  | zero => intro it x r w; simp [loop]
  | succ n ih =>
    intro it x r w
    rw [loop]
    cases hm : s.jacobian x with
    | none => simp [ensure, Outcome.bind]
    | some m =>
      cases hr' : s.residual (x + solve m r) with
      | none => simp [ensure, Outcome.bind, hr']
      | some r' =>
        simp only [ensure, Outcome.bind, hr']
        split
        · simp
        · exact ih _ _ _ _

variable {R : V → V} {R' K : V → V →L[ℝ] V} {D : Set V} {L ε : ℝ} {solve : (V →L[ℝ] V) → V → V}

/-- The remainder of one linearisation. -/
theorem _root_.Verif.Spec.Solve.Tangent.remainder (h : Tangent R R' K D L ε) (hL : 0 ≤ L) (hD : Convex ℝ D) {x y : V} (hx : x ∈ D)
    (hy : y ∈ D) : ‖R y - R x + K x (y - x)‖ ≤ (L * ‖y - x‖ + ε) * ‖y - x‖ := by
  have hs : segment ℝ x y ⊆ D := hD.segment_subset hx hy
  have := (convex_segment (𝕜 := ℝ) x y).norm_image_sub_le_of_norm_hasFDerivWithin_le' (f := R) (f' := R') (φ := -K x)
    (C := L * ‖y - x‖ + ε) (fun z hz => (h.deriv z (hs hz)).hasFDerivWithinAt)
    (fun z hz => by
      rw [sub_neg_eq_add]
      refine (h.close x hx z (hs hz)).trans ?_
      have : ‖z - x‖ ≤ ‖y - x‖ := norm_sub_le_of_mem_segment hz
      gcongr)
    (left_mem_segment ℝ x y) (right_mem_segment ℝ x y)
  rwa [neg_apply, sub_neg_eq_add] at this

/-- One step of Newton's method. -/
theorem contract (h : Tangent R R' K D L ε) (hL : 0 ≤ L) (hD : Convex ℝ D) {x y : V} (hx : x ∈ D) (hy : y ∈ D)
    (h0 : R y = 0) {β : ℝ} (hβ : 0 ≤ β) (hi : Inverse solve (K x) β) :
    ‖x + solve (K x) (R x) - y‖ ≤ β * ((L * ‖x - y‖ + ε) * ‖x - y‖) := by
  have h1 := h.remainder hL hD hx hy
  rw [h0, norm_sub_rev y x] at h1
  refine ((hi (R x)).2 _).trans (mul_le_mul_of_nonneg_left (le_of_eq_of_le ?_ h1) hβ)
  rw [← norm_neg]
  congr 1
  have := (hi (R x)).1
  simp only [map_sub, map_add, this]
  abel

theorem loop_converges {s : Sys V} {xs : V} {ρ β : ℝ} (ha : Assembles s R K (Metric.closedBall xs ρ))
    (h : Tangent R R' K (Metric.closedBall xs ρ) L ε) (hL : 0 ≤ L) (hε : 0 ≤ ε) (h0 : R xs = 0) (hβ : 0 ≤ β)
    (hi : ∀ x ∈ Metric.closedBall xs ρ, Inverse solve (K x) β) (hc : β * (L * ρ + ε) ≤ 1 / 2) (hρ : 0 ≤ ρ) :
    ∀ (n it : ℕ) (x : V) (w : Bool), ‖x - xs‖ ≤ ρ → 3 / 2 * ‖x - xs‖ < tol * 2 ^ n →
      ∃ res, loop s solve (n + 1) it x (R x) w = .ok res ∧ res.broke = true
        ∧ ‖res.x - xs‖ ≤ β * ((L * (2 * tol) + ε) * (2 * tol)) := by
  have ht : 0 < tol := by unfold tol; positivity
  intro n
  induction n with
  | zero =>
    intro it x w hx hn
    have hxD : x ∈ Metric.closedBall xs ρ := by rwa [Metric.mem_closedBall, dist_eq_norm]
    have hsD : xs ∈ Metric.closedBall xs ρ := Metric.mem_closedBall_self hρ
    have c := contract h hL (convex_closedBall xs ρ) hxD hsD h0 hβ (hi x hxD)
    have e0 : 0 ≤ ‖x - xs‖ := norm_nonneg _
    have half : ‖x + solve (K x) (R x) - xs‖ ≤ 1 / 2 * ‖x - xs‖ := by
      refine c.trans ?_
      rw [← mul_assoc]
      refine mul_le_mul_of_nonneg_right (le_trans ?_ hc) e0
      gcongr
    have up : ‖solve (K x) (R x)‖ < tol := by
      have : ‖solve (K x) (R x)‖ ≤ ‖x + solve (K x) (R x) - xs‖ + ‖x - xs‖ := by
        calc ‖solve (K x) (R x)‖ = ‖(x + solve (K x) (R x) - xs) - (x - xs)‖ := by congr 1; abel
          _ ≤ _ := norm_sub_le _ _
      simp only [pow_zero, mul_one] at hn
      linarith
    have hx' : x + solve (K x) (R x) ∈ Metric.closedBall xs ρ := by
      rw [Metric.mem_closedBall, dist_eq_norm]; linarith
    refine ⟨⟨x + solve (K x) (R x), R (x + solve (K x) (R x)), true, it + 1, w⟩, ?_, rfl, ?_⟩
    · rw [loop]
      simp [ha.jacobian x hxD, ha.residual _ hx', ensure, Outcome.bind, up]
    · have : ‖x - xs‖ ≤ 2 * tol := by linarith
      refine c.trans ?_
      gcongr
  | succ n ih =>
    intro it x w hx hn
    have hxD : x ∈ Metric.closedBall xs ρ := by rwa [Metric.mem_closedBall, dist_eq_norm]
    have hsD : xs ∈ Metric.closedBall xs ρ := Metric.mem_closedBall_self hρ
    have c := contract h hL (convex_closedBall xs ρ) hxD hsD h0 hβ (hi x hxD)
    have e0 : 0 ≤ ‖x - xs‖ := norm_nonneg _
    have half : ‖x + solve (K x) (R x) - xs‖ ≤ 1 / 2 * ‖x - xs‖ := by
      refine c.trans ?_
      rw [← mul_assoc]
      refine mul_le_mul_of_nonneg_right (le_trans ?_ hc) e0
      gcongr
    have hx' : x + solve (K x) (R x) ∈ Metric.closedBall xs ρ := by
      rw [Metric.mem_closedBall, dist_eq_norm]; linarith
    rw [loop]
    simp only [ha.jacobian x hxD, ha.residual _ hx', ensure, Outcome.bind]
    by_cases hd : ‖solve (K x) (R x)‖ < tol
    · rw [if_pos hd]
      refine ⟨_, rfl, rfl, c.trans ?_⟩
      have tri : ‖x - xs‖ ≤ ‖x + solve (K x) (R x) - xs‖ + ‖solve (K x) (R x)‖ := by
        calc ‖x - xs‖ = ‖(x + solve (K x) (R x) - xs) - solve (K x) (R x)‖ := by congr 1; abel
          _ ≤ _ := norm_sub_le _ _
      have : ‖x - xs‖ ≤ 2 * tol := by linarith
      gcongr
    · rw [if_neg hd]
      refine ih _ _ _ (by linarith) ?_
      rw [pow_succ] at hn
      linarith

end Verif.Solve
