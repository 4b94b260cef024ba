import Verif.Spec.HyperShell
import Verif.Lemmas.PlanarSystem
import Verif.Lemmas.LoadedShell

/-! # Helper lemmas: the nonlinear system of a shell of hyperelastic material -/

namespace Verif.HyperShell

open V3 Verif.Geometry Verif.Variation Verif.Balance Verif.Integrate Verif.ShellSystem
open Spec.ShellTangent Spec.HyperShell Spec.Hyper Filter Topology
open Verif.LoadedShell (ofEntries ofEntries_apply)
open Verif.PlanarSystem (Solid Elastic neoHooke_elastic mooneyRivlin_elastic det_smooth inv_smooth)

/-! ## Smoothness of the metric at a height -/

section Smooth

variable {V : Type} [NormedAddCommGroup V] [NormedSpace ℝ V] {s : V → Surf} {x : V}

theorem det_indep {s : Surf} (h : Indep (s.a 0) (s.a 1)) : det2 (Acov s) ≠ 0 := by
  have h1 := dot_self_pos h.cross_ne
  have h2 : det2 (Acov s) = dot (cross (s.a 0) (s.a 1)) (cross (s.a 0) (s.a 1)) := by
    simp [det2, Acov, dot, cross]; ring
  rw [h2]; exact h1.ne'

theorem acov_smooth (hs : SSmooth s x) (i j : Fin 2) : ContDiffAt ℝ 2 (fun y => Acov (s y) i j) x :=
  (hs.a i).dot (hs.a j)

theorem bcov_smooth (hs : SSmooth s x) (h : Indep ((s x).a 0) ((s x).a 1)) (i j : Fin 2) :
    ContDiffAt ℝ 2 (fun y => Bcov (s y) i j) x := by
  have hn := hs.normal h
  rcases fin2_cases i with rfl | rfl <;> rcases fin2_cases j with rfl | rfl
  · exact hs.d11.dot hn
  · exact hs.d12.dot hn
  · exact hs.d12.dot hn
  · exact hs.d22.dot hn

theorem ncov_smooth (hs : SSmooth s x) (h : Indep ((s x).a 0) ((s x).a 1)) (i : Fin 2) :
    VSmooth (fun y => ncov (s y) i) x := by
  have hI : ∀ i j, ContDiffAt ℝ 2 (fun y => Acon (s y) i j) x :=
    inv_smooth (acov_smooth hs) (det_indep h)
  have hm : ∀ i j, ContDiffAt ℝ 2 (fun y => mixedB (s y) i j) x := fun i j =>
    ((hI i 0).mul (bcov_smooth hs h 0 j)).add ((hI i 1).mul (bcov_smooth hs h 1 j))
  exact (VSmooth.smul (hm 0 i).neg (hs.a 0)).sub (VSmooth.smul (hm 1 i) (hs.a 1))

theorem metric_smooth (hs : SSmooth s x) (h : Indep ((s x).a 0) ((s x).a 1)) (z : ℝ) (i j : Fin 2) :
    ContDiffAt ℝ 2 (fun y => Gblock (s y) z i j) x :=
  ((acov_smooth hs i j).sub (contDiffAt_const.mul (bcov_smooth hs h i j))).add
    (contDiffAt_const.mul ((ncov_smooth hs h i).dot (ncov_smooth hs h j)))

end Smooth

/-! ## The materials -/

theorem elastic (S : Solid) (p : Hyper.Par) {A : T2} (hA : det2 A ≠ 0) (hs : A 0 1 = A 1 0) :
    ∃ ψ, Elastic (S.law p) ψ A := by
  cases S
  · exact ⟨_, neoHooke_elastic p hA hs⟩
  · exact ⟨_, mooneyRivlin_elastic p hA hs⟩

theorem embed_smooth {V : Type} [NormedAddCommGroup V] [NormedSpace ℝ V] {C : V → T2} {x : V}
    (h : ∀ i j, ContDiffAt ℝ 2 (fun y => C y i j) x) (i j : Fin 3) :
    ContDiffAt ℝ 2 (fun y => embed (C y) i j) x := by
  rcases fin3_cases i with rfl | rfl | rfl <;> rcases fin3_cases j with rfl | rfl | rfl
  · exact h 0 0
  · exact h 0 1
  · exact contDiffAt_const
  · exact h 1 0
  · exact h 1 1
  · exact contDiffAt_const
  · exact contDiffAt_const
  · exact contDiffAt_const
  · exact contDiffAt_const

theorem tangent_smooth (S : Solid) (p : Hyper.Par) {A : T2} (hA : det2 A ≠ 0) {V : Type} [NormedAddCommGroup V]
    [NormedSpace ℝ V] {C : V → T2} {x : V} (h : ∀ i j, ContDiffAt ℝ 2 (fun y => C y i j) x) (hd : det2 (C x) ≠ 0)
    (i j k l : Fin 3) : ContDiffAt ℝ 2 (fun y => (S.law p).tangent (Hyper.data A (C y)) i j k l) x := by
  have hg := embed_smooth (inv_smooth h hd)
  have hc := embed_smooth h
  have hJ : ContDiffAt ℝ 2 (fun y => det2 (C y) / det2 A) x := (det_smooth h).div_const _
  have hJ0 : det2 (C x) / det2 A ≠ 0 := div_ne_zero hd hA
  have htr : ContDiffAt ℝ 2 (fun y => Hyper.traceCt (Hyper.data A (C y))) x :=
    ((((hc 0 0).mul contDiffAt_const).add ((hc 0 1).mul contDiffAt_const)).add ((hc 1 0).mul contDiffAt_const)).add
      ((hc 1 1).mul contDiffAt_const)
  have h3 := (((contDiffAt_const (c := (2 : ℝ))).mul (hg i j)).mul (hg k l)).add ((hg i k).mul (hg j l)) |>.add
    ((hg i l).mul (hg j k))
  cases S
  · exact (contDiffAt_const.div hJ hJ0).mul h3
  · have hG := (contDiffAt_const (c := (-1 / 2 : ℝ))).mul (((hg i k).mul (hg j l)).add ((hg i l).mul (hg j k)))
    exact ((((((contDiffAt_const.add (contDiffAt_const.mul htr)).mul contDiffAt_const).div hJ hJ0).mul h3).sub
      ((contDiffAt_const.div hJ hJ0).mul ((contDiffAt_const.mul (hg k l)).add ((hg i j).mul contDiffAt_const)))).add
      ((contDiffAt_const.mul hJ).mul (hG.add ((hg i j).mul (hg k l)))))

variable {J κ : Type} [Fintype J] {P : Problem J κ} {r : Rule} {S : κ → Solid} {p : κ → Hyper.Par} {t : κ → ℝ}
  {x : EuclideanSpace ℝ J}

theorem good (S : Solid) (p : Hyper.Par) {ori s : Surf} {t : ℝ} (hr : Regular r t ori s) :
    ShellTangent.Good (material S p ori) r t s := by
  intro j
  obtain ⟨ψ, he⟩ := elastic S p (hr j).1 (ShellTangent.metric_symm ori (r.ξ j * t))
  exact ⟨he.symm _ (ShellTangent.metric_symm s _) (hr j).2, he.tangent _ (ShellTangent.metric_symm s _) (hr j).2⟩

section
variable {V : Type} [NormedAddCommGroup V] [NormedSpace ℝ V] {s : V → Surf} {y : V} {ori : Surf} {T : ℝ}

theorem resultant_smooth (S : Solid) (p : Hyper.Par) (hs : SSmooth s y) (h : Indep ((s y).a 0) ((s y).a 1))
    (hr : Regular r T ori (s y)) (m : ℕ) (k : Fin 3) :
    ContDiffAt ℝ 2 (fun z => ShellTangent.resultant (material S p ori) r T m (s z) k) y := by
  unfold ShellTangent.resultant integrateZ
  refine ContDiffAt.sum fun j _ => ContDiffAt.mul (ContDiffAt.mul contDiffAt_const ?_) contDiffAt_const
  obtain ⟨ψ, he⟩ := elastic S p (hr j).1 (ShellTangent.metric_symm ori (r.ξ j * T))
  have hc := (he.smooth (fun z => Gblock (s z) (r.ξ j * T)) y (metric_smooth hs h _) (hr j).2).1
  rcases fin3_cases k with rfl | rfl | rfl
  · exact hc 0 0
  · exact hc 1 1
  · exact hc 0 1

theorem modulus_smooth (S : Solid) (p : Hyper.Par) (hs : SSmooth s y) (h : Indep ((s y).a 0) ((s y).a 1))
    (hr : Regular r T ori (s y)) (m : ℕ) (k l : Fin 3) :
    ContDiffAt ℝ 2 (fun z => ShellTangent.modulus (material S p ori) r T m (s z) k l) y := by
  unfold ShellTangent.modulus integrateZ
  refine ContDiffAt.sum fun j _ => ContDiffAt.mul (ContDiffAt.mul contDiffAt_const ?_) contDiffAt_const
  have hc := tangent_smooth S p (hr j).1 (C := fun z => Gblock (s z) (r.ξ j * T)) (metric_smooth hs h _) (hr j).2
  rcases fin3_cases k with rfl | rfl | rfl <;> rcases fin3_cases l with rfl | rfl | rfl
  all_goals exact hc _ _ _ _

end

/-! ## The system -/

theorem states_indep (hx : x ∈ States P r t) : x ∈ Spec.ShellSystem.Admissible P := fun q hq => (hx q hq).1

theorem states_nhds (hx : x ∈ States P r t) : States P r t ∈ 𝓝 x := by
  have h1 := ShellSystem.admissible_nhds P (states_indep hx)
  have h2 : ∀ q ∈ P.Q, ∀ᶠ y in 𝓝 x, Regular r (t q) (P.ori q) (deformed P y q) := by
    intro q hq
    have : ∀ j : Fin r.n, ∀ᶠ y in 𝓝 x, det2 (Gblock (P.ori q) (r.ξ j * t q)) ≠ 0 ∧
        det2 (Gblock (deformed P y q) (r.ξ j * t q)) ≠ 0 := by
      intro j
      have hc := (det_smooth (metric_smooth (deformed_smooth P x q) (hx q hq).1 (r.ξ j * t q))).continuousAt
      exact (hc.eventually_ne ((hx q hq).2 j).2).mono fun y hy => ⟨((hx q hq).2 j).1, hy⟩
    exact (Filter.eventually_all).2 this
  filter_upwards [h1, (Filter.eventually_all_finset P.Q).2 h2] with y hy hy' q hq
  exact ⟨hy q hq, hy' q hq⟩

theorem residual_smooth (hx : x ∈ States P r t) : ContDiffAt ℝ 2 (residual P (solids P r S p t)) x := by
  refine (contDiffAt_euclidean (𝕜 := ℝ)).2 fun j => ?_
  show ContDiffAt ℝ 2 (fun y => (∑ q ∈ P.Q, internalForce (deformed P y q) (P.field q j)
    (ShellTangent.resultant (material (S q) (p q) (P.ori q)) r (t q) 0 (deformed P y q))
    (ShellTangent.resultant (material (S q) (p q) (P.ori q)) r (t q) 1 (deformed P y q)) * P.μ q) + P.F j) x
  refine (ContDiffAt.sum fun q hq => ?_).add contDiffAt_const
  refine ContDiffAt.mul ?_ contDiffAt_const
  have hs := deformed_smooth P x q
  exact hs.force (hx q hq).1 _ (resultant_smooth (S q) (p q) hs (hx q hq).1 (hx q hq).2 0)
    (resultant_smooth (S q) (p q) hs (hx q hq).1 (hx q hq).2 1)

theorem third_is (s v : Surf) (h : Indep (s.a 0) (s.a 1)) : IsThirdRate s v (thirdRate s v) := by
  obtain ⟨T, hT⟩ := ShellTangent.third_exists s v h
  have : thirdRate s v = T := by funext i j; exact (hT i j).deriv
  rw [this]; exact hT

/-- What the tangent lacks. -/
noncomputable abbrev rest (P : Problem J κ) (r : Rule) (S : κ → Solid) (p : κ → Hyper.Par) (t : κ → ℝ)
    (x : EuclideanSpace ℝ J) : J → J → ℝ := third P (fun q => material (S q) (p q) (P.ori q)) r t x

theorem residual_line [DecidableEq J] (hx : x ∈ States P r t) (j j' : J) :
    HasDerivAt (fun τ : ℝ => residual P (solids P r S p t) (x + τ • EuclideanSpace.single j' (1 : ℝ)) j)
      (-(entry P (solids P r S p t) x j j' + rest P r S p t x j j')) 0 := by
  have hq : ∀ q ∈ P.Q, HasDerivAt (fun τ : ℝ => ShellTangent.force (material (S q) (p q) (P.ori q)) r (t q)
      (shift (deformed P x q) (P.field q j') τ) (P.field q j) * P.μ q)
      ((-ShellTangent.tangentStiffness (material (S q) (p q) (P.ori q)) r (t q) (deformed P x q) (P.field q j)
        (P.field q j') - thirdWork (material (S q) (p q) (P.ori q)) r (t q) (deformed P x q) (P.field q j)
          (P.field q j')) * P.μ q) 0 := by
    intro q hq
    have h := ShellTangent.force_deriv _ r (t q) (deformed P x q) (P.field q j) (P.field q j') (hx q hq).1 _
      (third_is _ (P.field q j') (hx q hq).1) (good (S q) (p q) (hx q hq).2)
    refine (h.congr_deriv ?_).mul_const _
    simp only [internalForce, ShellTangent.defect, thirdWork, dotV, Fin.sum_univ_three]
    ring
  have hs := (HasDerivAt.fun_sum hq).add_const (P.F j)
  refine (hs.congr_deriv ?_).congr_of_eventuallyEq (Eventually.of_forall fun τ => ?_)
  · rw [rest, third, entry, ← Finset.sum_add_distrib, ← Finset.sum_neg_distrib]
    refine Finset.sum_congr rfl fun q _ => ?_
    simp only [solids, hyperLaw, ShellTangent.tangentStiffness]
    ring
  · simp only [ShellSystem.residual, deformed_shift, solids, hyperLaw, ShellTangent.force]

theorem residual_deriv [DecidableEq J] (hx : x ∈ States P r t) :
    HasFDerivAt (residual P (solids P r S p t))
      (-(tangent P (solids P r S p t) x + ofEntries (rest P r S p t x))) x := by
  refine fderiv_of_lines ((residual_smooth hx).differentiableAt (by norm_num)) fun j' => ?_
  have h : ∀ j, HasDerivAt (fun τ : ℝ => residual P (solids P r S p t) (x + τ • EuclideanSpace.single j' (1 : ℝ)) j)
      ((-(tangent P (solids P r S p t) x + ofEntries (rest P r S p t x))) (EuclideanSpace.single j' 1) j) 0 :=
    fun j => by
    refine (residual_line hx j j').congr_deriv ?_
    simp [tangent_apply, ofEntries_apply, PiLp.single_apply]
  rw [hasDerivAt_iff_hasFDerivAt, ← hasFDerivWithinAt_univ, hasFDerivWithinAt_euclidean]
  intro j
  rw [hasFDerivWithinAt_univ]
  refine (h j).hasFDerivAt.congr_fderiv ?_
  ext; simp

/-! ## The part that the tangent lacks is smooth -/

theorem third_smooth [DecidableEq J] (q : κ) (hx : Indep ((deformed P x q).a 0) ((deformed P x q).a 1))
    (hn : ∀ᶠ y in 𝓝 x, Indep ((deformed P y q).a 0) ((deformed P y q).a 1)) (j : J) (a b : Fin 2) :
    ContDiffAt ℝ 1 (fun y => thirdRate (deformed P y q) (P.field q j) a b) x := by
  let g : EuclideanSpace ℝ J → ℝ := fun y => dot (ncov (deformed P y q) a) (ncov (deformed P y q) b)
  have hg : ∀ y, Indep ((deformed P y q).a 0) ((deformed P y q).a 1) → ContDiffAt ℝ 2 g y := fun y hy =>
    (ncov_smooth (deformed_smooth P y q) hy a).dot (ncov_smooth (deformed_smooth P y q) hy b)
  have h1 : ContDiffAt ℝ 1 (fun y => fderiv ℝ g y (EuclideanSpace.single j 1)) x :=
    ((hg x hx).fderiv_right (by norm_num)).clm_apply contDiffAt_const
  refine h1.congr_of_eventuallyEq (hn.mono fun y hy => ?_)
  have hd : HasFDerivAt g (fderiv ℝ g y) (y + (0 : ℝ) • EuclideanSpace.single j (1 : ℝ)) := by
    simpa using ((hg y hy).differentiableAt (by norm_num)).hasFDerivAt
  have hl : HasDerivAt (fun τ : ℝ => y + τ • EuclideanSpace.single j (1 : ℝ)) (EuclideanSpace.single j (1 : ℝ)) 0 := by
    simpa using ((hasDerivAt_id' (0 : ℝ)).smul_const (EuclideanSpace.single j (1 : ℝ))).const_add y
  have h2 := (hd.comp_hasDerivAt 0 hl).deriv
  have e : (g ∘ fun τ : ℝ => y + τ • EuclideanSpace.single j (1 : ℝ))
      = fun τ => dot (ncov (shift (deformed P y q) (P.field q j) τ) a) (ncov (shift (deformed P y q) (P.field q j) τ) b) := by
    funext τ; simp only [g, Function.comp, deformed_shift]
  rw [e] at h2
  exact h2

theorem rest_smooth [DecidableEq J] (hx : x ∈ States P r t) (j j' : J) :
    ContDiffAt ℝ 1 (fun y => rest P r S p t y j j') x := by
  refine ContDiffAt.sum fun q hq => ContDiffAt.mul ?_ contDiffAt_const
  have hs := deformed_smooth P x q
  have hi := (hx q hq).1
  have hn : ∀ᶠ y in 𝓝 x, Indep ((deformed P y q).a 0) ((deformed P y q).a 1) :=
    Filter.mem_of_superset (states_nhds hx) fun y hy => (hy q hq).1
  have hT : ∀ l, ContDiffAt ℝ 1 (fun y => half (thirdRate (deformed P y q) (P.field q j')) l) x := by
    intro l
    have h := third_smooth (P := P) q hi hn j'
    rcases fin3_cases l with rfl | rfl | rfl
    · exact (h 0 0).div_const 2
    · exact (h 1 1).div_const 2
    · exact h 0 1
  refine ContDiffAt.sum fun k _ => ContDiffAt.sum fun l _ => ContDiffAt.mul ?_ (hT l)
  refine ContDiffAt.of_le ?_ (show (1 : WithTop ℕ∞) ≤ 2 by norm_num)
  exact ((hs.EmDer _ k).mul (modulus_smooth (S q) (p q) hs hi (hx q hq).2 2 k l)).add
    ((hs.EfDer hi _ k).mul (modulus_smooth (S q) (p q) hs hi (hx q hq).2 3 k l))

/-- A matrix with smooth entries. -/
theorem entries_smooth [DecidableEq J] {e : EuclideanSpace ℝ J → J → J → ℝ}
    (h : ∀ j j', ContDiffAt ℝ 1 (fun y => e y j j') x) : ContDiffAt ℝ 1 (fun y => ofEntries (e y)) x := by
  have hs : (fun y => ofEntries (e y)) = fun y => ∑ j, ∑ j', e y j j' •
      ofEntries (fun a b => if a = j ∧ b = j' then (1 : ℝ) else 0) := by
    funext y
    ext v a
    rw [_root_.sum_apply]
    simp only [_root_.sum_apply, _root_.smul_apply, WithLp.ofLp_sum, Finset.sum_apply,
      PiLp.smul_apply, ofEntries_apply, smul_eq_mul, ite_mul, one_mul, zero_mul]
    rw [Finset.sum_eq_single a (fun b _ hb => Finset.sum_eq_zero fun c _ => by
      simp [Ne.symm hb]) (by simp)]
    refine Finset.sum_congr rfl fun c _ => ?_
    simp
  rw [hs]
  exact ContDiffAt.sum fun j _ => ContDiffAt.sum fun j' _ => (h j j').smul contDiffAt_const

end Verif.HyperShell

/-! ## Programs with a tangent that is not exact -/

namespace Verif.Solve

open Spec.Solve Spec.ShellSystem Filter Topology

variable {V : Type} [NormedAddCommGroup V] [NormedSpace ℝ V] [FiniteDimensional ℝ V]

omit [FiniteDimensional ℝ V] in
/-- In a ball in which the error of the tangent is at most `ε`. -/
theorem inexact_ball {R : V → V} {K D : V → V →L[ℝ] V} {xs : V} {L β ρ ε : ℝ} (hL : 0 ≤ L) (hβ : 0 < β) (hε : 0 ≤ ε)
    (hρ : ρ ≤ 1) (hd : ∀ x ∈ Metric.closedBall xs ρ, HasFDerivAt R (-(K x + D x)) x)
    (hlip : ∀ x ∈ Metric.closedBall xs ρ, ∀ y ∈ Metric.closedBall xs ρ,
      ‖-(K y + D y) + (K x + D x)‖ ≤ L * ‖y - x‖)
    (hb : ∀ x ∈ Metric.closedBall xs ρ, ∀ v, ‖v‖ ≤ β * ‖(K x + D x) v‖)
    (hD : ∀ x ∈ Metric.closedBall xs ρ, ‖D x‖ ≤ ε) (hc : β * (L * ρ + ε) ≤ 1 / 4) (h0 : R xs = 0) (hρ0 : 0 ≤ ρ)
    {U : Set V} (hU : Metric.closedBall xs ρ ⊆ U) (s : Sys V) (solve : (V →L[ℝ] V) → V → V)
    (ha : Assembles s R K U) (hs : Solver solve) (hx : ‖solve s.K0 s.F - xs‖ ≤ ρ) :
    ∃ res, program s solve = .ok res ∧ res.broke = true ∧
      ‖res.x - xs‖ ≤ 4 * β * (2 * L * (1 / 10 ^ 6) + ε) * (1 / 10 ^ 6) := by
  have hβε : β * ε ≤ 1 / 2 := by
    have : 0 ≤ β * (L * ρ) := by positivity
    nlinarith
  have hbx : ∀ x ∈ Metric.closedBall xs ρ, ∀ v, ‖v‖ ≤ 2 * β * ‖K x v‖ := by
    intro x hx v
    have h1 := hb x hx v
    have h2 : ‖(K x + D x) v‖ ≤ ‖K x v‖ + ε * ‖v‖ := by
      rw [_root_.add_apply]
      refine (norm_add_le _ _).trans (by
        have := (ContinuousLinearMap.le_opNorm (D x) v).trans (mul_le_mul_of_nonneg_right (hD x hx) (norm_nonneg _))
        linarith)
    have h3 : β * ‖(K x + D x) v‖ ≤ β * (‖K x v‖ + ε * ‖v‖) := mul_le_mul_of_nonneg_left h2 hβ.le
    have h4 : β * ε * ‖v‖ ≤ 1 / 2 * ‖v‖ := mul_le_mul_of_nonneg_right hβε (norm_nonneg _)
    nlinarith
  obtain ⟨res, k1, k2, k3⟩ := C139_converges (ρ := ρ) (β := 2 * β) (L := L) (ε := ε) (R' := fun x => -(K x + D x))
    ⟨fun x hx => ha.residual x (hU hx), fun x hx => ha.jacobian x (hU hx)⟩
    ⟨hd, fun x hx y hy => by
      have e : -(K y + D y) + K x = (-(K y + D y) + (K x + D x)) - D x := by abel
      rw [e]
      exact (norm_sub_le _ _).trans (add_le_add (hlip x hx y hy) (hD x hx))⟩
    hL hε h0 (by positivity) (fun x hx => inverse_of hs (hbx x hx)) (by nlinarith)
    (by linarith [show (1:ℝ) ≤ 10 ^ 20 by norm_num]) hx
  exact ⟨res, k1, k2, k3.trans (le_of_eq (by ring))⟩

omit [FiniteDimensional ℝ V] in
/-- Near an equilibrium at which the error of the tangent is small against the tangent. -/
theorem local_varying {R : V → V} {K D : V → V →L[ℝ] V} {xs : V} {β : ℝ} (hR : ContDiffAt ℝ 2 R xs)
    (hK : ∀ᶠ x in 𝓝 xs, HasFDerivAt R (-(K x + D x)) x) (hD : ContinuousAt D xs) (h0 : R xs = 0)
    (hβ : 0 < β) (hb : ∀ v, ‖v‖ ≤ β * ‖K xs v‖) (hsmall : β * ‖D xs‖ ≤ 1 / 16) {U : Set V} (hU : U ∈ 𝓝 xs) :
    ∃ ρ C : ℝ, 0 < ρ ∧ ∀ (s : Sys V) (solve : (V →L[ℝ] V) → V → V), Assembles s R K U → Solver solve →
      ‖solve s.K0 s.F - xs‖ ≤ ρ →
      ∃ res, program s solve = .ok res ∧ res.broke = true ∧ ‖res.x - xs‖ ≤ C * (1 / 10 ^ 6) := by
  obtain ⟨L, r, hL, hr, h⟩ := local_lipschitz (K := fun x => K x + D x) hR hK
  have hε : ∀ᶠ x in 𝓝 xs, ‖D x‖ < ‖D xs‖ + 1 / (32 * β) :=
    hD.norm.eventually_lt_const (by linarith [show 0 < 1 / (32 * β) by positivity])
  obtain ⟨r', hr', hsub⟩ := Metric.nhds_basis_closedBall.mem_iff.1 (Filter.inter_mem hU hε)
  have hρ0 : 0 < min (min r r') (min 1 (1 / (32 * β * (L + 1)))) := by positivity
  generalize hρ : min (min r r') (min 1 (1 / (32 * β * (L + 1)))) = ρ at hρ0
  have hρr : ρ ≤ r := hρ ▸ (min_le_left _ _).trans (min_le_left _ _)
  have hρr' : ρ ≤ r' := hρ ▸ (min_le_left _ _).trans (min_le_right _ _)
  have hρ1 : ρ ≤ 1 := hρ ▸ (min_le_right _ _).trans (min_le_left _ _)
  have hρk : ρ ≤ 1 / (32 * β * (L + 1)) := hρ ▸ (min_le_right _ _).trans (min_le_right _ _)
  have hq : β * (L * ρ) ≤ 1 / 32 := by
    have h1 : ρ * (32 * β * (L + 1)) ≤ 1 := by rwa [le_div_iff₀ (by positivity)] at hρk
    have h2 : 0 ≤ ρ * (32 * β) := by positivity
    nlinarith
  have hin : ∀ x ∈ Metric.closedBall xs ρ, x ∈ Metric.closedBall xs r := fun x hx =>
    Metric.closedBall_subset_closedBall hρr hx
  have hin' : ∀ x ∈ Metric.closedBall xs ρ, x ∈ Metric.closedBall xs r' := fun x hx =>
    Metric.closedBall_subset_closedBall hρr' hx
  have hβe : β * (‖D xs‖ + 1 / (32 * β)) ≤ 3 / 32 := by
    have : β * (1 / (32 * β)) = 1 / 32 := by field_simp
    rw [mul_add, this]; linarith
  refine ⟨ρ, 4 * (2 * β) * (2 * L * (1 / 10 ^ 6) + (‖D xs‖ + 1 / (32 * β))), hρ0, fun s solve ha hs hx => ?_⟩
  refine inexact_ball (K := K) (D := D) hL (by positivity : 0 < 2 * β) (by positivity) hρ1 (fun x hx => (h x (hin x hx)).1)
    (fun x hx y hy => (h x (hin x hx)).2 y (hin y hy)) (fun x hx v => ?_)
    (fun x hx => (hsub (hin' x hx)).2.le) (by nlinarith) h0 hρ0.le (fun x hx => (hsub (hin' x hx)).1) s solve ha hs hx
  have hs' : xs ∈ Metric.closedBall xs r := Metric.mem_closedBall_self hr.le
  have h1 := (h x (hin x hx)).2 xs hs'
  have h2 : ‖xs - x‖ ≤ ρ := by
    rw [← dist_eq_norm, dist_comm]; exact hx
  have h3 : ‖(-(K xs + D xs) + (K x + D x)) v‖ ≤ L * ρ * ‖v‖ :=
    (ContinuousLinearMap.le_opNorm _ _).trans
      (mul_le_mul_of_nonneg_right (h1.trans (mul_le_mul_of_nonneg_left h2 hL)) (norm_nonneg _))
  have h4 : ‖K xs v‖ ≤ ‖(K x + D x) v‖ + L * ρ * ‖v‖ + ‖D xs‖ * ‖v‖ := by
    have : K xs v = (K x + D x) v - (-(K xs + D xs) + (K x + D x)) v - D xs v := by simp
    rw [this]
    exact (norm_sub_le _ _).trans (add_le_add ((norm_sub_le _ _).trans (by linarith)) (ContinuousLinearMap.le_opNorm _ _))
  have h6 : β * ‖K xs v‖ ≤ β * (‖(K x + D x) v‖ + L * ρ * ‖v‖ + ‖D xs‖ * ‖v‖) := mul_le_mul_of_nonneg_left h4 hβ.le
  have h7 : β * (L * ρ) * ‖v‖ ≤ 1 / 32 * ‖v‖ := mul_le_mul_of_nonneg_right hq (norm_nonneg _)
  have h8 : β * ‖D xs‖ * ‖v‖ ≤ 1 / 16 * ‖v‖ := mul_le_mul_of_nonneg_right hsmall (norm_nonneg _)
  nlinarith [norm_nonneg v, hb v]

/-- A regular state without loads at which the tangent is exact, and close to which its error grows at most
linearly: as `small_loads`; the accuracy of the programs is of the order of the load times the tolerance. -/
theorem small_inexact {R : V → V} {K D : V → V →L[ℝ] V} (hR : ContDiffAt ℝ 2 R 0)
    (hK : ∀ᶠ x in 𝓝 0, HasFDerivAt R (-(K x + D x)) x) (hD : ContDiffAt ℝ 1 D 0) (hD0 : D 0 = 0)
    (hi : Function.Injective (K 0)) (h0 : R 0 = 0) {S : Set V} (hS : S ∈ 𝓝 0) (F xl : V) (hl : K 0 xl = F) :
    ∃ l₀ ρ C : ℝ, 0 < l₀ ∧ 0 < ρ ∧ ∀ l : ℝ, |l| ≤ l₀ → ∃ xs ∈ S, R xs + l • F = 0 ∧
      ‖xs - l • xl‖ ≤ C * l ^ 2 ∧
      (∀ x, ‖x‖ ≤ ρ → R x + l • F = 0 → x = xs) ∧
      ∀ (s : Sys V) (solve : (V →L[ℝ] V) → V → V), Assembles s (fun x => R x + l • F) K S →
        Solver solve → s.K0 = K 0 → s.F = l • F →
        ∃ res, program s solve = .ok res ∧ res.broke = true ∧
          ‖res.x - xs‖ ≤ C * (|l| + 1 / 10 ^ 6) * (1 / 10 ^ 6) := by
  have hK0 : K 0 + D 0 = K 0 := by simp [hD0]
  obtain ⟨l₁, ρ₁, C₁, hl₁, hρ₁, H⟩ := small_loads (K := fun x => K x + D x) hR hK (by rw [hK0]; exact hi) h0 hS F xl
    (by rw [hK0]; exact hl)
  obtain ⟨M, T, hT, hM⟩ := hD.exists_lipschitzOnWith
  obtain ⟨L, β, ρ, hL, hβ, hρ, hρ1, hc, hsub, ht, hb⟩ := local_constants (K := fun x => K x + D x) hR hK
    (by rw [hK0]; exact hi) (Filter.inter_mem hS hT)
  have h0m : (0 : V) ∈ Metric.closedBall (0 : V) ρ := Metric.mem_closedBall_self hρ.le
  have hDn : ∀ x ∈ Metric.closedBall (0 : V) ρ, ‖D x‖ ≤ M * ‖x‖ := by
    intro x hx
    have := hM.dist_le_mul x (hsub hx).2 0 (hsub h0m).2
    rwa [dist_eq_norm, dist_eq_norm, hD0, sub_zero, sub_zero] at this
  have hM0 : (0 : ℝ) ≤ M := M.2
  -- bound of everything by the load
  obtain ⟨N, hN0, hN⟩ : ∃ N : ℝ, 0 < N ∧ |C₁| ≤ N ∧ ‖xl‖ ≤ N :=
    ⟨|C₁| + ‖xl‖ + 1, by positivity, by linarith [norm_nonneg xl], by linarith [abs_nonneg C₁]⟩
  let W : ℝ := 3 * N
  have hW : 0 < W := by positivity
  have hk : 0 < 4 * β * (L + M + 1) * W := by positivity
  refine ⟨min (min l₁ 1) (min (ρ / W) (1 / (4 * β * (L + M + 1) * W))), ρ₁, |C₁| + 4 * β * (2 * L + M * W),
    by positivity, hρ₁, fun l hlb => ?_⟩
  have b1 : |l| ≤ l₁ := hlb.trans ((min_le_left _ _).trans (min_le_left _ _))
  have b2 : |l| ≤ 1 := hlb.trans ((min_le_left _ _).trans (min_le_right _ _))
  have b3 : |l| * W ≤ ρ := by
    have : |l| ≤ ρ / W := hlb.trans ((min_le_right _ _).trans (min_le_left _ _))
    rwa [le_div_iff₀ hW] at this
  have b4 : |l| * (4 * β * (L + M + 1) * W) ≤ 1 := by
    have : |l| ≤ 1 / (4 * β * (L + M + 1) * W) := hlb.trans ((min_le_right _ _).trans (min_le_right _ _))
    rwa [le_div_iff₀ hk] at this
  obtain ⟨xs, hxS, he, hq, hu, -⟩ := H l b1
  have hl2 : l ^ 2 ≤ |l| := by rw [← sq_abs]; nlinarith [abs_nonneg l]
  have hq' : ‖xs - l • xl‖ ≤ N * |l| := by
    refine hq.trans ?_
    calc C₁ * l ^ 2 ≤ |C₁| * l ^ 2 := mul_le_mul_of_nonneg_right (le_abs_self _) (sq_nonneg _)
      _ ≤ N * |l| := mul_le_mul hN.1 hl2 (sq_nonneg _) hN0.le
  have hxs : ‖xs‖ ≤ 2 * N * |l| := by
    have h1 : ‖xs‖ ≤ ‖xs - l • xl‖ + ‖l • xl‖ := by
      calc ‖xs‖ = ‖(xs - l • xl) + l • xl‖ := by congr 1; abel
        _ ≤ _ := norm_add_le _ _
    rw [norm_smul, Real.norm_eq_abs] at h1
    have h2 : |l| * ‖xl‖ ≤ |l| * N := mul_le_mul_of_nonneg_left hN.2 (abs_nonneg _)
    linarith
  have hball : Metric.closedBall xs (N * |l|) ⊆ Metric.closedBall (0 : V) ρ := by
    refine Metric.closedBall_subset_closedBall' ?_
    rw [dist_zero_right]
    have : |l| * W = 3 * N * |l| := by ring
    linarith
  have hC0 : 0 ≤ 4 * β * (2 * L + M * W) := by positivity
  refine ⟨xs, hxS, he, ?_, hu, fun s solve ha hs hs0 hF => ?_⟩
  · refine hq.trans (mul_le_mul_of_nonneg_right ?_ (sq_nonneg _))
    linarith [le_abs_self C₁]
  · have hst : solve s.K0 s.F = l • xl := by
      rw [hs0, hF]
      apply hi
      rw [hs (K 0) hi (l • F), map_smul, hl]
    have hDb : ∀ x ∈ Metric.closedBall xs (N * |l|), ‖D x‖ ≤ M * (W * |l|) := by
      intro x hx
      refine (hDn x (hball hx)).trans (mul_le_mul_of_nonneg_left ?_ hM0)
      have h1 : ‖x - xs‖ ≤ N * |l| := by rw [← dist_eq_norm]; exact hx
      have h2 : ‖x‖ ≤ ‖x - xs‖ + ‖xs‖ := by
        calc ‖x‖ = ‖(x - xs) + xs‖ := by congr 1; abel
          _ ≤ _ := norm_add_le _ _
      have : W * |l| = 3 * N * |l| := rfl
      linarith
    have hcond : β * (L * (N * |l|) + M * (W * |l|)) ≤ 1 / 4 := by
      have e1 : β * (L * (N * |l|)) ≤ β * (L * (W * |l|)) := by
        have : N * |l| ≤ W * |l| := mul_le_mul_of_nonneg_right (by show N ≤ 3 * N; linarith) (abs_nonneg _)
        gcongr
      have e2 : 0 ≤ β * (W * |l|) := by positivity
      nlinarith
    have hNl : N * |l| ≤ 1 := by
      have h1 : |l| * W = 3 * (N * |l|) := by show |l| * (3 * N) = _; ring
      have h2 : 0 ≤ N * |l| := by positivity
      linarith
    obtain ⟨res, k1, k2, k3⟩ := inexact_ball (R := fun x => R x + l • F) (K := K) (D := D) (xs := xs) (L := L) (β := β)
      (ρ := N * |l|) (ε := M * (W * |l|)) hL hβ (by positivity) hNl
      (fun x hx => (ht.deriv x (hball hx)).add_const _)
      (fun x hx y hy => by
        have := ht.close x (hball hx) y (hball hy)
        rwa [add_zero] at this)
      (fun x hx => hb x (hball hx)) hDb hcond he (by positivity) (fun x hx => (hsub (hball hx)).1) s solve ha hs
      (by rw [hst, norm_sub_rev]; exact hq')
    refine ⟨res, k1, k2, k3.trans (mul_le_mul_of_nonneg_right ?_ (by positivity))⟩
    have a1 : 0 ≤ |C₁| * (|l| + 1 / 10 ^ 6) := by positivity
    have a2 : 0 ≤ 4 * β * (2 * L) * |l| := by positivity
    have a3 : 0 ≤ 4 * β * (M * W) * (1 / 10 ^ 6) := by positivity
    nlinarith

end Verif.Solve
