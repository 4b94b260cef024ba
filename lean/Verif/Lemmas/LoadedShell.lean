import Verif.Spec.LoadedShell
import Verif.Props.ShellSystem
import Mathlib.Analysis.Calculus.FDeriv.Symmetric

/-! # Helper lemmas: a shell with pressure on an elastic foundation -/

namespace Verif.LoadedShell

open V3 Verif.Geometry Verif.Variation Verif.Balance Verif.ShellSystem Spec.LoadedShell Spec.ShellSystem
open Filter Topology RealInnerProductSpace

variable {J κ : Type} [Fintype J] {P : Problem J κ} {B : Loads J κ} {law : Law κ} {A D : κ → T3}
  {x : EuclideanSpace ℝ J}

theorem ofEntries_apply (e : J → J → ℝ) (v : EuclideanSpace ℝ J) (j : J) :
    ofEntries e v j = ∑ j', e j j' * v j' := rfl

omit [Fintype J] in
theorem springs_eq (j j' : J) :
    springs P B j j' = ∑ q ∈ P.Q, WeakForms.foundMat (P.μ q) (B.k q) (B.val q j) (B.val q j') := by
  unfold springs
  rw [← Finset.sum_neg_distrib]
  refine Finset.sum_congr rfl fun q _ => ?_
  simp [pull, dot, WeakForms.foundMat, WeakForms.diagDot]; ring

theorem residual_eq (j : J) : residual P B law x j = balance P (opposite B) law x j := by
  show _ + _ + _ = _ + _
  rw [← Finset.sum_add_distrib, add_comm]
  congr 1
  refine Finset.sum_congr rfl fun q _ => ?_
  show _ + B.p q * dot (B.val q j) (unitNormal ((deformed P x q).a 0) ((deformed P x q).a 1)) * P.μ q = _
  simp [WeakForms.foundVec, WeakForms.diagDot, opposite, pull, disp, dot, vsum]; ring

theorem residual_smooth (hl : ∀ q ∈ P.Q, Plain (law q) (P.ori q) (A q) (D q)) (hx : x ∈ Admissible P) :
    ContDiffAt ℝ 2 (residual P B law) x := by
  refine (contDiffAt_euclidean (𝕜 := ℝ)).2 fun j => ?_
  have h0 := (contDiffAt_euclidean (𝕜 := ℝ)).1 (ShellSystem.residual_smooth hl hx) j
  refine ContDiffAt.add (ContDiffAt.add (ContDiffAt.sum fun q _ => ?_) (ContDiffAt.sum fun q hq => ?_)) h0
  · have hd := comb_smooth (B.pre q) (fun j => B.val q j) x
    exact (((contDiffAt_const.mul hd.1).add (contDiffAt_const.mul hd.2.1)).add
      (contDiffAt_const.mul hd.2.2)).mul contDiffAt_const
  · exact (contDiffAt_const.mul ((VSmooth.const _).dot ((deformed_smooth P x q).normal (hx q hq)))).mul
      contDiffAt_const

theorem disp_shift [DecidableEq J] (q : κ) (j : J) (τ : ℝ) :
    disp B (x + τ • EuclideanSpace.single j (1 : ℝ)) q = disp B x q + τ • B.val q j := comb_shift _ _ x j τ

/-- The derivative of the residual: the foundation enters with the opposite sign. -/
noncomputable def slope (P : Problem J κ) (B : Loads J κ) (law : Law κ) (x : EuclideanSpace ℝ J) (j j' : J) : ℝ :=
  entry P B law x j j' - 2 * springs P B j j'

theorem residual_line [DecidableEq J] (hl : ∀ q ∈ P.Q, Plain (law q) (P.ori q) (A q) (D q))
    (hx : x ∈ Admissible P) (j j' : J) :
    HasDerivAt (fun τ : ℝ => residual P B law (x + τ • EuclideanSpace.single j' (1 : ℝ)) j)
      (-slope P B law x j j') 0 := by
  have h0 := ShellSystem.residual_line hl hx j j'
  have h1 : ∀ q ∈ P.Q, HasDerivAt (fun τ : ℝ => WeakForms.foundVec (P.μ q) (B.k q)
      (disp B (x + τ • EuclideanSpace.single j' (1 : ℝ)) q) (B.val q j))
      (WeakForms.foundMat (P.μ q) (B.k q) (B.val q j) (B.val q j')) 0 := by
    intro q _
    have := ((hasDerivAt_id' (0 : ℝ)).mul_const (WeakForms.foundMat (P.μ q) (B.k q) (B.val q j) (B.val q j'))).const_add
      (WeakForms.foundVec (P.μ q) (B.k q) (disp B x q) (B.val q j))
    refine (this.congr_deriv (by ring)).congr_of_eventuallyEq (Eventually.of_forall fun τ => ?_)
    simp only [disp_shift]
    simp [WeakForms.foundVec, WeakForms.foundMat, WeakForms.diagDot]; ring
  have h2 : ∀ q ∈ P.Q, HasDerivAt (fun τ : ℝ => WeakForms.pressVec (B.p q) (P.μ q)
      (deformed P (x + τ • EuclideanSpace.single j' (1 : ℝ)) q) (B.val q j))
      (-WeakForms.pressMat (B.p q) (P.μ q) (deformed P x q) (B.val q j) (P.field q j')) 0 := by
    intro q hq
    have h := (((hasVDeriv_normal (deformed P x q) (P.field q j') (hx q hq)).const_dot (B.val q j)).const_mul
      (B.p q)).mul_const (P.μ q)
    refine (h.congr_deriv ?_).congr_of_eventuallyEq (Eventually.of_forall fun τ => ?_)
    · unfold WeakForms.pressMat; ring
    · simp only [deformed_shift]; rfl
  refine (((HasDerivAt.fun_sum h1).add (HasDerivAt.fun_sum h2)).add h0).congr_deriv ?_
  rw [slope, springs_eq, entry, Finset.sum_neg_distrib]; ring

theorem residual_deriv [DecidableEq J] (hl : ∀ q ∈ P.Q, Plain (law q) (P.ori q) (A q) (D q))
    (hx : x ∈ Admissible P) : HasFDerivAt (residual P B law) (-ofEntries (slope P B law x)) x := by
  refine fderiv_of_lines ((residual_smooth hl hx).differentiableAt (by norm_num)) fun j' => ?_
  have h : ∀ j, HasDerivAt (fun τ : ℝ => residual P B law (x + τ • EuclideanSpace.single j' (1 : ℝ)) j)
      ((-ofEntries (slope P B law x)) (EuclideanSpace.single j' 1) j) 0 := fun j => by
    refine (residual_line hl hx j j').congr_deriv ?_
    simp [ofEntries_apply, PiLp.single_apply]
  rw [hasDerivAt_iff_hasFDerivAt, ← hasFDerivWithinAt_univ, hasFDerivWithinAt_euclidean]
  intro j
  rw [hasFDerivWithinAt_univ]
  refine (h j).hasFDerivAt.congr_fderiv ?_
  ext; simp

theorem ofEntries_single [DecidableEq J] (e : J → J → ℝ) (j j' : J) :
    ofEntries e (EuclideanSpace.single j' 1) j = e j j' := by
  simp [ofEntries_apply, PiLp.single_apply]

theorem ofEntries_inj {e e' : J → J → ℝ} (h : ofEntries e = ofEntries e') : e = e' := by
  classical
  funext j j'
  rw [← ofEntries_single e j j', ← ofEntries_single e' j j', h]

theorem slope_none (h0 : NoFoundation P B) : slope P B law x = entry P B law x := by
  funext j j'
  have : springs P B j j' = 0 := by
    rw [springs_eq]
    exact Finset.sum_eq_zero fun q hq => by rw [h0 q hq]; simp [WeakForms.foundMat, WeakForms.diagDot]
  rw [slope, this]; ring

/-- A residual with a potential has a symmetric derivative. -/
theorem symmetric_of_conservative [DecidableEq J] {R : EuclideanSpace ℝ J → EuclideanSpace ℝ J} {e : J → J → ℝ}
    (hR : HasFDerivAt R (-ofEntries e) x) (hc : Conservative R x) (j j' : J) : e j j' = e j' j := by
  obtain ⟨Φ, hΦ⟩ := hc
  have h1 : ∀ᶠ y in 𝓝 x, HasFDerivAt Φ (InnerProductSpace.toDual ℝ (EuclideanSpace ℝ J) (-R y)) y := hΦ
  have h2 : HasFDerivAt (fun y => InnerProductSpace.toDual ℝ (EuclideanSpace ℝ J) (-R y))
      ((InnerProductSpace.toDual ℝ (EuclideanSpace ℝ J)).toContinuousLinearEquiv.toContinuousLinearMap.comp
        (-(-ofEntries e))) x :=
    ((InnerProductSpace.toDual ℝ (EuclideanSpace ℝ J)).toContinuousLinearEquiv.toContinuousLinearMap.hasFDerivAt).comp x hR.neg
  have h3 := second_derivative_symmetric_of_eventually_of_real h1 h2 (EuclideanSpace.single j' 1) (EuclideanSpace.single j 1)
  simp only [neg_neg, ContinuousLinearMap.comp_apply] at h3
  have k : ∀ i i' : J, ((InnerProductSpace.toDual ℝ (EuclideanSpace ℝ J)).toContinuousLinearEquiv.toContinuousLinearMap
      ((ofEntries e) (EuclideanSpace.single i' 1))) (EuclideanSpace.single i 1) = e i i' := by
    intro i i'
    show ⟪ofEntries e (EuclideanSpace.single i' 1), EuclideanSpace.single i (1 : ℝ)⟫ = _
    rw [EuclideanSpace.inner_single_right, ofEntries_single]; simp
  rw [k, k] at h3
  exact h3

/-! ## Programs -/

section Loops

open Solve Spec.Solve

variable {V : Type} [NormedAddCommGroup V] [NormedSpace ℝ V]

/-- A tangent that is wrong by a constant map: the loop still converges if it is small. -/
theorem local_inexact {R : V → V} {K : V → V →L[ℝ] V} {S : V →L[ℝ] V} {xs : V} {β : ℝ} (hR : ContDiffAt ℝ 2 R xs)
    (hK : ∀ᶠ x in 𝓝 xs, HasFDerivAt R (-(K x - S)) x) (h0 : R xs = 0) (hb : ∀ v, ‖v‖ ≤ β * ‖K xs v‖) (hβ0 : 0 < β)
    (hβ : β * ‖S‖ ≤ 1 / 8) {U : Set V} (hU : U ∈ 𝓝 xs) :
    ∃ ρ C : ℝ, 0 < ρ ∧ ∀ (s : Sys V) (solve : (V →L[ℝ] V) → V → V), Assembles s R K U → Solver solve →
      ‖solve s.K0 s.F - xs‖ ≤ ρ →
      ∃ res, program s solve = .ok res ∧ res.broke = true ∧ ‖res.x - xs‖ ≤ C * (1 / 10 ^ 6) := by
  obtain ⟨L, r, hL, hr, h⟩ := local_lipschitz (K := fun x => K x - S) hR hK
  obtain ⟨r', hr', hsub⟩ := Metric.nhds_basis_closedBall.mem_iff.1 hU
  have hk : 0 < 8 * β * (L + 1) := by positivity
  have hρ0 : 0 < min (min r r') (min 1 (1 / (8 * β * (L + 1)))) := by positivity
  generalize hρ : min (min r r') (min 1 (1 / (8 * β * (L + 1)))) = ρ at hρ0
  have hρr : ρ ≤ r := hρ ▸ (min_le_left _ _).trans (min_le_left _ _)
  have hρr' : ρ ≤ r' := hρ ▸ (min_le_left _ _).trans (min_le_right _ _)
  have hρ1 : ρ ≤ 1 := hρ ▸ (min_le_right _ _).trans (min_le_left _ _)
  have hρk : ρ ≤ 1 / (8 * β * (L + 1)) := hρ ▸ (min_le_right _ _).trans (min_le_right _ _)
  have hq : β * (L * ρ) ≤ 1 / 8 := by
    have h1 : ρ * (8 * β * (L + 1)) ≤ 1 := by rwa [le_div_iff₀ hk] at hρk
    have h2 : 0 ≤ ρ * (8 * β) := by positivity
    nlinarith
  have hin : ∀ x ∈ Metric.closedBall xs ρ, x ∈ Metric.closedBall xs r := fun x hx =>
    Metric.closedBall_subset_closedBall hρr hx
  have hin' : Metric.closedBall xs ρ ⊆ U := (Metric.closedBall_subset_closedBall hρr').trans hsub
  have hbx : ∀ x ∈ Metric.closedBall xs ρ, ∀ v, ‖v‖ ≤ 2 * β * ‖K x v‖ := by
    intro x hx v
    have hs : xs ∈ Metric.closedBall xs r := Metric.mem_closedBall_self hr.le
    have h1 := (h x (hin x hx)).2 xs hs
    have h2 : ‖xs - x‖ ≤ ρ := by
      rw [← dist_eq_norm, dist_comm]; exact hx
    have e : -(K xs - S) + (K x - S) = -K xs + K x := by abel
    rw [e] at h1
    have h3 : ‖(-K xs + K x) v‖ ≤ L * ρ * ‖v‖ :=
      (ContinuousLinearMap.le_opNorm _ _).trans
        (mul_le_mul_of_nonneg_right (h1.trans (mul_le_mul_of_nonneg_left h2 hL)) (norm_nonneg _))
    have h4 : ‖K xs v‖ ≤ ‖K x v‖ + L * ρ * ‖v‖ := by
      have : K xs v = K x v - (-K xs + K x) v := by simp
      rw [this]
      exact (norm_sub_le _ _).trans (by linarith)
    have h6 : β * ‖K xs v‖ ≤ β * (‖K x v‖ + L * ρ * ‖v‖) := mul_le_mul_of_nonneg_left h4 hβ0.le
    have h7 : β * (L * ρ) * ‖v‖ ≤ 1 / 8 * ‖v‖ := mul_le_mul_of_nonneg_right hq (norm_nonneg _)
    nlinarith [norm_nonneg v, norm_nonneg (K x v), hb v]
  refine ⟨ρ, 2 * (2 * β) * (2 * L * (1 / 10 ^ 6) + ‖S‖), hρ0, fun s solve ha hs hx => ?_⟩
  exact C139_converges (ρ := ρ) (β := 2 * β) (L := L) (ε := ‖S‖) (R' := fun x => -(K x - S))
    ⟨fun x hx => ha.residual x (hin' hx), fun x hx => ha.jacobian x (hin' hx)⟩
    ⟨fun x hx => (h x (hin x hx)).1, fun x hx y hy => by
      have h1 := (h x (hin x hx)).2 y (hin y hy)
      have e : -(K y - S) + K x = (-(K y - S) + (K x - S)) + S := by abel
      rw [e]
      exact (norm_add_le _ _).trans (by linarith)⟩
    hL (norm_nonneg _) h0 (by positivity) (fun x hx => inverse_of hs (hbx x hx)) (by nlinarith)
    (by linarith [show (1:ℝ) ≤ 10 ^ 20 by norm_num]) hx

/-- A spring whose force has the wrong sign: each step doubles the distance. -/
theorem loop_doubles {s : Sys V} {solve : (V →L[ℝ] V) → V → V} {m : V →L[ℝ] V} {F x0 : V} {c : ℝ} (hc : c ≠ 0)
    (hm : ∀ v, m v = c • v) (he : Exact solve m) (hx0 : c • x0 = F)
    (hr : ∀ x, s.residual x = some (F + c • x)) (hj : ∀ x, s.jacobian x = some m)
    (hbig : 1 / 10 ^ 6 ≤ 2 * ‖x0‖) (n : ℕ) : ∀ it,
    loop s solve n it (((2 : ℝ) ^ (it + 1) - 1) • x0) ((2 : ℝ) ^ (it + 1) • F) false
      = .ok ⟨((2 : ℝ) ^ (it + n + 1) - 1) • x0, (2 : ℝ) ^ (it + n + 1) • F, false, it + n, false⟩ := by
  induction n with
  | zero => exact fun it => rfl
  | succ n ih =>
    intro it
    have hsol : solve m ((2 : ℝ) ^ (it + 1) • F) = (2 : ℝ) ^ (it + 1) • x0 := by
      have h1 := he ((2 : ℝ) ^ (it + 1) • F)
      rw [hm] at h1
      refine smul_right_injective V hc ?_
      show c • _ = c • _
      rw [h1, smul_comm, hx0]
    have hnext : ((2 : ℝ) ^ (it + 1) - 1) • x0 + (2 : ℝ) ^ (it + 1) • x0 = ((2 : ℝ) ^ (it + 1 + 1) - 1) • x0 := by
      rw [← add_smul]; congr 1; ring
    have hres : F + c • (((2 : ℝ) ^ (it + 1 + 1) - 1) • x0) = (2 : ℝ) ^ (it + 1 + 1) • F := by
      rw [smul_comm, hx0, sub_smul, one_smul]; abel
    have hnot : ¬ ‖(2 : ℝ) ^ (it + 1) • x0‖ < tol := by
      rw [norm_smul, norm_pow, Real.norm_ofNat, not_lt]
      have : (2 : ℝ) ≤ 2 ^ (it + 1) := by
        have := one_le_pow₀ (n := it) (show (1 : ℝ) ≤ 2 by norm_num)
        rw [pow_succ]; linarith
      exact hbig.trans (mul_le_mul_of_nonneg_right this (norm_nonneg _))
    rw [loop]
    simp only [hj, hr, ensure, Outcome.bind, hsol, hnext, hres]
    rw [if_neg hnot]
    have hd : (false || decide (it + 1 = it)) = false := by simp
    rw [hd, ih (it + 1)]
    simp only [Nat.add_comm, Nat.add_left_comm]

end Loops

end Verif.LoadedShell
