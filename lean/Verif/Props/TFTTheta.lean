import Mathlib.Tactic.Linarith
import Mathlib.Tactic.NormNum
import Mathlib.Tactic.FieldSimp
import Verif.Lemmas.TFTTheta

/-! # C43: the wrinkling angle of a point does not depend on other points -/

namespace Verif.TFT

/-- C43 (violated): whatever the root finders do, after a point with an angle in the first
quadrant the shear point is given that same angle. -/
theorem C43_stale_violated (root : Pt → ℝ → ℝ → ℝ) (scan : Pt → ℝ) (q : Pt) (θ : ℝ)
    (hq : thetaStep root scan 0 q = θ) (h0 : 0 < θ) (h1 : θ < Real.pi / 2) :
    evalTheta root scan 0 [q, shearPt] = [θ, θ] := by
  have hiv := shear_interval
  have hstep : thetaStep root scan θ shearPt = θ := by
    unfold thetaStep
    dsimp only
    rw [if_neg (fun h : _ ≠ _ ∧ _ => h.1 hiv.1), if_neg]
    push Not
    refine ⟨shear_check θ h0 h1, fun _ => ?_⟩
    rw [hiv.2]
    have := Real.pi_pos
    positivity
  simp only [evalTheta, hq, hstep]

/-- C43 (violated): there are search procedures, two points and two orders such that the
angle of the second point differs from the angle it gets alone or after another point. -/
theorem C43_violated : ∃ (root : Pt → ℝ → ℝ → ℝ) (scan : Pt → ℝ) (p q : Pt) (θp θq : ℝ),
    evalTheta root scan 0 [p] = [θp] ∧ evalTheta root scan 0 [q] = [θq] ∧
    evalTheta root scan 0 [p, q] = [θp, θq] ∧ evalTheta root scan 0 [q, p] ≠ [θq, θp] := by
  have hpi := Real.pi_pos
  classical
  obtain ⟨scan, hscan⟩ : ∃ scan : Pt → ℝ, scan scanPt = Real.pi / 3 ∧
      scan shearPt = Real.pi / 4 := by
    refine ⟨fun p => if p.N 2 = 0 then Real.pi / 3 else Real.pi / 4, ?_, ?_⟩
    · simp [scanPt]
    · simp [shearPt]
  have hq : ∀ prev, thetaStep (fun _ _ _ => 0) scan prev scanPt = Real.pi / 3 := by
    intro prev
    unfold thetaStep
    dsimp only
    rw [if_pos (Or.inl (not_check_zero _)), hscan.1]
  have hp : thetaStep (fun _ _ _ => 0) scan 0 shearPt = Real.pi / 4 := by
    unfold thetaStep
    dsimp only
    rw [if_neg (fun h : _ ≠ _ ∧ _ => h.1 shear_interval.1), if_pos, hscan.2]
    left
    intro h
    have := h.1
    simp [dotV, n1, shearPt, Fin.sum_univ_three] at this
  refine ⟨fun _ _ _ => 0, scan, shearPt, scanPt, Real.pi / 4, Real.pi / 3, ?_, ?_, ?_, ?_⟩
  · simp only [evalTheta, hp]
  · simp only [evalTheta, hq]
  · simp only [evalTheta, hp, hq]
  · rw [C43_stale_violated _ _ _ _ (hq 0) (by positivity) (by linarith)]
    intro h
    injection h with _ h
    injection h with h _
    linarith

/-- C43 (partial): a point whose search interval has no end at exactly zero, or is the empty
interval `(0,0)`, gets the same angle whatever was evaluated before. -/
theorem C43_partial (root : Pt → ℝ → ℝ → ℝ) (scan : Pt → ℝ) (p : Pt)
    (h : ((thetaInterval p.C p.N p.E).1 ≠ 0 ∧ (thetaInterval p.C p.N p.E).2 ≠ 0) ∨
      ((thetaInterval p.C p.N p.E).1 = 0 ∧ (thetaInterval p.C p.N p.E).2 = 0))
    (a b : ℝ) : thetaStep root scan a p = thetaStep root scan b p := by
  unfold thetaStep
  dsimp only
  rcases h with h | h
  · rw [if_pos h, if_pos h]
  · rw [if_pos (Or.inr h), if_pos (Or.inr h)]

example : (thetaInterval scanPt.C scanPt.N scanPt.E).1 = 0 ∧
    (thetaInterval scanPt.C scanPt.N scanPt.E).2 = 0 := by
  unfold thetaInterval scanPt
  simp

/-- C43 (partial): hence for lists of such points the angles are computed point by point, and
permuting the points permutes the angles. -/
theorem C43_list_partial (root : Pt → ℝ → ℝ → ℝ) (scan : Pt → ℝ) (ps : List Pt)
    (h : ∀ p ∈ ps, ((thetaInterval p.C p.N p.E).1 ≠ 0 ∧ (thetaInterval p.C p.N p.E).2 ≠ 0) ∨
      ((thetaInterval p.C p.N p.E).1 = 0 ∧ (thetaInterval p.C p.N p.E).2 = 0)) :
    ∀ prev, evalTheta root scan prev ps = ps.map (thetaStep root scan 0) := by
  induction ps with
  | nil => intro prev; rfl
  | cons p ps ih =>
    intro prev
    rw [evalTheta, C43_partial root scan p (h p List.mem_cons_self) prev 0,
      ih (fun q hq => h q (List.mem_cons_of_mem _ hq))]
    rfl

/-- C43: the stress evaluations search the angle of a single column, which starts from a fresh
variable. -/
theorem C43_single (root : Pt → ℝ → ℝ → ℝ) (scan : Pt → ℝ) (p : Pt) :
    evalTheta root scan 0 [p] = [thetaStep root scan 0 p] := rfl

end Verif.TFT
