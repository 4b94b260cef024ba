import Verif.Lemmas.JoinedSheet
import Verif.Lemmas.Constrained
import Verif.Props.PlanarSystem

/-! # Property C159: planar patches with weak interfaces and weak Dirichlet sides -/

namespace Verif.JoinedSheet

open Verif.Geometry Verif.Planar Verif.WeakForms Verif.Integrate
open Spec.JoinedSheet Spec.Solve Spec.ShellSystem
open Verif.PlanarSystem (Problem Elastic Sheet)
open Spec.PlanarSystem (Body Admissible)
open Verif.LoadedShell (ofEntries ofEntries_apply)
open Filter Topology RealInnerProductSpace

variable {J κ ι : Type} [Fintype J] (P : Problem J κ) (G : Joins J ι) (r : Rule) (E ν : κ → ℝ)

/-- The linear material at all points. -/
noncomputable abbrev plains (E ν : κ → ℝ) : κ → Material := fun q => plain (E q) (ν q)

/-- Its energy densities. -/
noncomputable abbrev plainEnergy (E ν : κ → ℝ) : κ → T2 → T2 → ℝ :=
  fun q => energyPlain (Linear.Cconst (E q) (ν q)) (Linear.mu (E q) (ν q))

omit [Fintype J] in
variable {P} in
theorem body_sheet (hB : Body P) : Sheet P (plains E ν) (plainEnergy E ν) :=
  ⟨fun q hq => (hB q hq).1, fun q hq => (plain_elastic (E q) (ν q) (PlanarSystem.det_ne (hB q hq).1) (PlanarSystem.metric_sym _)).on⟩

/-! ## Signs -/

/-- **C159** is violated: the residual is minus the gradient of the potential in which the springs along interfaces
and sides push instead of pull.  It is minus the gradient of the potential of the sheet exactly in states in which the
springs do no work. -/
theorem C159_sign_violated (hB : Body P) (hr : ∑ j, r.w j = 1) {x : EuclideanSpace ℝ J} (hx : x ∈ Admissible P) :
    HasGradientAt (potential P (opposite G) (plainEnergy E ν)) (-residual P G (plains E ν) r x) x ∧
    (HasGradientAt (potential P G (plainEnergy E ν)) (-residual P G (plains E ν) r x) x ↔ ∀ j, pull G x j = 0) := by
  have hw : ∀ q ∈ P.Q, PlanarSystem.weight r (P.t q) = P.t q := fun q _ => by
    rw [PlanarSystem.weight, ← Finset.sum_mul, hr, one_mul]
  have h1 := potential_gradient (G := G) (body_sheet E ν hB) hw hx
  refine ⟨h1, ?_⟩
  have h2 : HasGradientAt (potential P G (plainEnergy E ν))
      (-residual P G (plains E ν) r x + (2 : ℝ) • WithLp.toLp 2 (hold G x)) x := by
    have k1 : HasFDerivAt _ _ _ := h1
    have k2 : HasFDerivAt _ _ _ := springs_gradient G x
    show HasFDerivAt _ _ _
    rw [map_add, map_smul]
    refine (k1.add (k2.const_smul (2 : ℝ))).congr_of_eventuallyEq (Eventually.of_forall fun y => ?_)
    simp only [potential_split, springs_opposite, Pi.add_apply, Pi.smul_apply, smul_eq_mul]; ring
  constructor
  · intro h j
    have := h.unique h2
    have h3 : (2 : ℝ) • (WithLp.toLp 2 (hold G x) : EuclideanSpace ℝ J) = 0 := by
      rwa [left_eq_add] at this
    have h4 : (WithLp.toLp 2 (hold G x) : EuclideanSpace ℝ J) = 0 := (smul_eq_zero.1 h3).resolve_left two_ne_zero
    rw [pull_eq]
    exact congrFun (congrArg WithLp.ofLp h4) j
  · intro h
    have h3 : (WithLp.toLp 2 (hold G x) : EuclideanSpace ℝ J) = 0 := by
      ext j
      exact (pull_eq G x j).symm.trans (h j)
    rw [h3, smul_zero, add_zero] at h2
    exact h2

/-- **C159** is violated: minus the derivative of the residual is the tangent with the interfaces pushing instead of
pulling, and the assembled tangent exactly if the springs of the interfaces store no energy in any displacement. -/
theorem C159_tangent_violated (hB : Body P) {x : EuclideanSpace ℝ J} (hx : x ∈ Admissible P) :
    HasFDerivAt (residual P G (plains E ν) r) (-tangent P (apart G) (plains E ν) r x) x ∧
    (HasFDerivAt (residual P G (plains E ν) r) (-tangent P G (plains E ν) r x) x ↔ ∀ v, joint G v = 0) := by
  have h1 := residual_deriv (G := G) (r := r) (body_sheet E ν hB) hx
  refine ⟨h1, fun h v => ?_, fun h => ?_⟩
  · have h2 := neg_injective (h1.unique h)
    rw [tangent_apart, tangent_split, sub_eq_add_neg, add_right_inj] at h2
    have h3 : ofEntries (jointEntry G) = 0 := by
      ext v j
      have := congrArg (fun T : EuclideanSpace ℝ J →L[ℝ] EuclideanSpace ℝ J => T v j) h2
      simp only [_root_.neg_apply, PiLp.neg_apply] at this
      rw [_root_.zero_apply, PiLp.zero_apply]
      linarith
    have h4 := inner_ofEntries (jointEntry G) (WithLp.toLp 2 v) (WithLp.toLp 2 v)
    rw [h3, _root_.zero_apply, inner_zero_left] at h4
    rw [← joint_form]
    exact h4.symm
  · have h2 : jointEntry G = fun _ _ => 0 :=
      zero_of_form (jointEntry_symm G) fun v => (joint_form G v).trans (h v)
    have h3 : ofEntries (jointEntry G) = 0 := by
      rw [h2]; ext v j; simp [ofEntries_apply]
    rw [tangent_apart, h3, sub_zero] at h1
    rw [tangent_split, h3, add_zero]
    exact h1

omit [Fintype J] in
variable {P} in
theorem entries_symm [Fintype J] (hB : Body P) {x : EuclideanSpace ℝ J} (hx : x ∈ Admissible P) (j j' : J) :
    entry P G (plains E ν) r x j j' = entry P G (plains E ν) r x j' j := by
  show _ + sideEntry G j j' + jointEntry G j j' = _ + sideEntry G j' j + jointEntry G j' j
  rw [entry_symm (body_sheet E ν hB) hx, sideEntry_symm, jointEntry_symm]

/-- **C159** (partial: without weak interfaces) The tangent is symmetric and minus the derivative of the residual. -/
theorem C159_tangent_partial (hB : Body P) (h0 : G.Q0 = ∅) {x : EuclideanSpace ℝ J} (hx : x ∈ Admissible P) :
    HasFDerivAt (residual P G (plains E ν) r) (-tangent P G (plains E ν) r x) x ∧
    ∀ j j', entry P G (plains E ν) r x j j' = entry P G (plains E ν) r x j' j :=
  ⟨(C159_tangent_violated P G r E ν hB hx).2.2 fun v => by simp [joint, h0], entries_symm G r E ν hB hx⟩

/-! ## Newton's method -/

/-- **C159** (partial: interfaces that store no energy, as without weak interfaces) The programs converge
quadratically near equilibria with a regular tangent. -/
theorem C159_newton_partial (hB : Body P) (hj : ∀ v, joint G v = 0) {xs : EuclideanSpace ℝ J} (hx : xs ∈ Admissible P)
    (h0 : residual P G (plains E ν) r xs = 0) (hi : Function.Injective (tangent P G (plains E ν) r xs)) :
    ∃ ρ C : ℝ, 0 < ρ ∧ ∀ (s : Solve.Sys (EuclideanSpace ℝ J)) (solve : _ → EuclideanSpace ℝ J → EuclideanSpace ℝ J),
      Assembles s (residual P G (plains E ν) r) (tangent P G (plains E ν) r) (Admissible P) →
      Solver solve → ‖solve s.K0 s.F - xs‖ ≤ ρ →
      ∃ res, Solve.program s solve = .ok res ∧ res.broke = true ∧ ‖res.x - xs‖ ≤ C * (1 / 10 ^ 6) ^ 2 :=
  Solve.local_newton (residual_smooth (body_sheet E ν hB) hx)
    (Filter.mem_of_superset (PlanarSystem.admissible_nhds P hx) fun _ hy => (C159_tangent_violated P G r E ν hB hy).2.2 hj)
    hi h0 (PlanarSystem.admissible_nhds P hx)

omit [Fintype J] in
variable {G} in
theorem joint_nonneg [Fintype J] (hw : ∀ q ∈ G.Q0, 0 ≤ G.w0 q ∧ 0 ≤ G.a0 q ∧ 0 ≤ G.μ0 q) (v : J → ℝ) : 0 ≤ joint G v :=
  Finset.sum_nonneg fun q hq => by
    obtain ⟨h1, h2, h3⟩ := hw q hq
    have : 0 ≤ ∑ i, (∑ j, v j * (G.uL q j i - G.uR q j i)) ^ 2 := Finset.sum_nonneg fun i _ => sq_nonneg _
    positivity

/-- **C159** (partial: interfaces that are soft against the tangent) With springs of the interfaces soft enough, the
programs still converge, linearly. -/
theorem C159_soft_partial (hB : Body P) (hw : ∀ q ∈ G.Q0, 0 ≤ G.w0 q ∧ 0 ≤ G.a0 q ∧ 0 ≤ G.μ0 q)
    {xs : EuclideanSpace ℝ J} (hx : xs ∈ Admissible P) (h0 : residual P G (plains E ν) r xs = 0) {β c : ℝ} (hβ : 0 < β)
    (hb : ∀ v, ‖v‖ ≤ β * ‖tangent P G (plains E ν) r xs v‖)
    (hc : ∀ v : EuclideanSpace ℝ J, joint G v ≤ c * ‖v‖ ^ 2) (hsoft : β * c ≤ 1 / 32) :
    ∃ ρ C : ℝ, 0 < ρ ∧ ∀ (s : Solve.Sys (EuclideanSpace ℝ J)) (solve : _ → EuclideanSpace ℝ J → EuclideanSpace ℝ J),
      Assembles s (residual P G (plains E ν) r) (tangent P G (plains E ν) r) (Admissible P) →
      Solver solve → ‖solve s.K0 s.F - xs‖ ≤ ρ →
      ∃ res, Solve.program s solve = .ok res ∧ res.broke = true ∧ ‖res.x - xs‖ ≤ C * (1 / 10 ^ 6) := by
  have hS := body_sheet E ν hB
  by_cases hne : ∃ v : EuclideanSpace ℝ J, v ≠ 0
  swap
  · push Not at hne
    refine ⟨1, 0, one_pos, fun s solve ha hs _ => ?_⟩
    obtain ⟨ρ, C, hρ, h⟩ := Solve.local_newton (R := residual P G (plains E ν) r) (K := tangent P (apart G) (plains E ν) r)
      (residual_smooth hS hx) (near hS hx) (fun u v _ => (hne u).trans (hne v).symm) h0 (PlanarSystem.admissible_nhds P hx)
    have hK : tangent P (apart G) (plains E ν) r = tangent P G (plains E ν) r := by
      funext y; ext v j
      rw [hne v, map_zero, map_zero]
    rw [hK] at h
    obtain ⟨res, h1, h2, h3⟩ := h s solve ha hs (by rw [hne (solve s.K0 s.F - xs), norm_zero]; exact hρ.le)
    exact ⟨res, h1, h2, by rw [hne (res.x - xs), norm_zero, zero_mul]⟩
  obtain ⟨v₀, hv₀⟩ := hne
  have hc0 : 0 ≤ c := by
    have h1 := (joint_nonneg hw v₀).trans (hc v₀)
    have h2 : 0 < ‖v₀‖ ^ 2 := by have := norm_pos_iff.2 hv₀; positivity
    by_contra hcon
    push Not at hcon
    nlinarith
  have hform : ∀ v : EuclideanSpace ℝ J, ⟪ofEntries (jointEntry G) v, v⟫ = joint G v := fun v => by
    rw [inner_ofEntries]; exact joint_form G v
  have hnorm : ‖ofEntries (jointEntry G)‖ ≤ c := by
    refine ContinuousLinearMap.opNorm_le_bound _ hc0 fun u => ?_
    set w := ofEntries (jointEntry G) u with hw'
    have h1 := Repel.schwarz (symm_ofEntries (jointEntry_symm G)) (fun v => (joint_nonneg hw v).trans_eq (hform v).symm) u w
    rw [hform, hform, ← hw', real_inner_self_eq_norm_sq] at h1
    have h2 : joint G u * joint G w ≤ (c * ‖u‖ ^ 2) * (c * ‖w‖ ^ 2) :=
      mul_le_mul (hc u) (hc w) (joint_nonneg hw w) (by positivity)
    rcases (norm_nonneg w).eq_or_lt with h | h
    · rw [← h]; positivity
    · have h3 : ‖w‖ ^ 2 ≤ (c * ‖u‖) ^ 2 := by
        have h4 : 0 < ‖w‖ ^ 2 := by positivity
        refine le_of_mul_le_mul_right ?_ h4
        calc ‖w‖ ^ 2 * ‖w‖ ^ 2 = (‖w‖ ^ 2) ^ 2 := by ring
          _ ≤ _ := h1.trans h2
          _ = _ := by ring
      exact abs_le_of_sq_le_sq' h3 (by positivity) |>.2
  refine Solve.local_varying (K := tangent P G (plains E ν) r) (D := fun _ => -(ofEntries (jointEntry G) + ofEntries (jointEntry G)))
    (residual_smooth hS hx) ?_ continuousAt_const h0 hβ hb ?_ (PlanarSystem.admissible_nhds P hx)
  · filter_upwards [near (G := G) (r := r) hS hx] with y hy
    rw [tangent_apart] at hy
    rw [tangent_split]
    refine hy.congr_fderiv ?_
    abel
  · rw [norm_neg]
    have h1 := norm_add_le (ofEntries (jointEntry G)) (ofEntries (jointEntry G))
    have h2 := mul_le_mul_of_nonneg_left (h1.trans (add_le_add hnorm hnorm)) hβ.le
    linarith

/-- **C159** is violated: at an equilibrium with a positive definite tangent, if some displacement stores more energy in
the springs of the interfaces than in the patches with their sides, there is a direction such that Newton's method,
started from the equilibrium in this direction at any distance, however small, moves away to a fixed distance. -/
theorem C159_repel_violated (hB : Body P) (hw : ∀ q ∈ G.Q0, 0 ≤ G.w0 q ∧ 0 ≤ G.a0 q ∧ 0 ≤ G.μ0 q)
    {xs : EuclideanSpace ℝ J} (hx : xs ∈ Admissible P) (h0 : residual P G (plains E ν) r xs = 0)
    (hp : ∀ v : J → ℝ, v ≠ 0 → 0 < ∑ j, ∑ j', v j * entry P G (plains E ν) r xs j j' * v j')
    {v : J → ℝ} (hv : (∑ j, ∑ j', v j * PlanarSystem.entry P (plains E ν) r xs j j' * v j') - side G v < joint G v) :
    ∃ d : EuclideanSpace ℝ J, d ≠ 0 ∧ ∃ ρ : ℝ, 0 < ρ ∧ ∀ (x : ℕ → EuclideanSpace ℝ J) (a : ℝ), a ≠ 0 → x 0 = xs + a • d →
      Iterates (residual P G (plains E ν) r) (tangent P G (plains E ν) r) x → ∃ n, ρ < ‖x n - xs‖ := by
  have hS := body_sheet E ν hB
  have hsub : tangent P G (plains E ν) r xs - tangent P (apart G) (plains E ν) r xs = ofEntries (jointEntry G) + ofEntries (jointEntry G) := by
    rw [tangent_split, tangent_apart]; abel
  refine Repel.newton (T := tangent P G (plains E ν) r) (S := tangent P (apart G) (plains E ν) r)
    (residual_smooth hS hx) (near hS hx) (tangent_smooth hS hx) h0
    (symm_ofEntries (entries_symm G r E ν hB hx)) (fun u hu => ?_) (fun u w => ?_) (fun u => ?_) (u := WithLp.toLp 2 v) ?_
  · rw [tangent, inner_ofEntries]
    exact hp u.ofLp fun h => hu (by ext j; exact congrFun h j)
  · rw [hsub, _root_.add_apply, _root_.add_apply, inner_add_left, inner_add_right, symm_ofEntries (jointEntry_symm G)]
  · rw [hsub, _root_.add_apply, inner_add_left, inner_ofEntries, joint_form]
    have := joint_nonneg hw u.ofLp
    exact add_nonneg this this
  · rw [tangent_apart, _root_.sub_apply, _root_.add_apply, inner_sub_left, inner_add_left, PlanarSystem.inner_form,
      inner_ofEntries, inner_ofEntries, joint_form, side_form]
    show (∑ j, ∑ j', v j * PlanarSystem.entry P (plains E ν) r xs j j' * v j') + -side G v - joint G v < 0
    linarith

/-! ## The linear problem -/

omit [Fintype J] in
theorem rest (hB : Body P) {q : κ} (hq : q ∈ P.Q) :
    resultant (plains E ν q) r (P.t q) 0 (P.ori q) (P.ori q) = fun _ => 0 := by
  funext k
  have hJ : Planar.jdet (P.ori q) ≠ 0 := (hB q hq).1
  rw [plain_resultant _ _ r _ hJ hJ, PlanarSystem.integrate_const]
  have : ∀ i j, Linear.Sij (E q) (ν q) (storedAconPlanar (P.ori q)) (strain (P.ori q) (P.ori q)) i j = 0 := by
    intro i j
    simp [Linear.Sij, strain]
  rcases fin3_cases k with rfl | rfl | rfl <;> simp [linStress, Linear.stress, this]

/-- **C159** is violated: with the sheet at rest the residual and the tangent differ from the right-hand side and the
matrix of the linear problem.  The right-hand side lacks the factor `m` of the sides, the matrix has the measure of the
interfaces twice. -/
theorem C159_linear_violated (hB : Body P) (hR : AtRest P G) (X : ι → Vd 2) (j j' : J) :
    residual P G (plains E ν) r 0 j = linearRhs P G X j
      - ∑ q ∈ G.Qd, G.wd q * (G.opt * (G.m q - 1) * (∑ i, G.u q j i * G.g q i) * G.μd q) ∧
    entry P G (plains E ν) r 0 j j' = linearEntry P G (plains E ν) r j j'
      + ∑ q ∈ G.Q0, G.w0 q * (G.a0 q * (1 - G.μ0 q)
          * (∑ i, (G.uL q j i - G.uR q j i) * (G.uL q j' i - G.uR q j' i)) * G.μ0 q) := by
  have hd : ∀ q, PlanarSystem.deformed P 0 q = P.ori q := fun q => by rw [PlanarSystem.deformed_zero, hR.sheet]
  constructor
  · have h1 : PlanarSystem.residual P (plains E ν) r 0 j = P.F j := by
      show (∑ q ∈ P.Q, _) + _ = _
      rw [Finset.sum_eq_zero fun q hq => ?_, zero_add]
      rw [PlanarSystem.forces, hd, rest P r E ν hB hq]
      simp [Planar.internalForce, dotV]
    have h2 : ∀ (u : J → Vd 2) (g : Vd 2), disp u g (0 : EuclideanSpace ℝ J) = g := fun u g => by
      funext i; simp [disp]
    have h3 : quad G.Q0 G.w0 (fun q => c0Vec2 (G.a0 q) (G.μ0 q) (disp (G.uL q) (G.gL q) (0 : EuclideanSpace ℝ J))
        (disp (G.uR q) (G.gR q) 0) (G.uL q j) (G.uR q j)) = 0 := by
      refine Finset.sum_eq_zero fun q hq => ?_
      beta_reduce
      rw [h2, h2, hR.closed q hq]
      simp [c0Vec2, dotd]
    show PlanarSystem.residual P (plains E ν) r 0 j + _ + _ = _
    rw [h1, h3, add_zero, linearRhs, add_sub_assoc]
    congr 1
    simp only [quad]
    rw [← Finset.sum_sub_distrib]
    refine Finset.sum_congr rfl fun q hq => ?_
    rw [h2, hR.side q hq]
    simp only [dirVec, dirVecLin2, dotd, Fin.sum_univ_two, Pi.zero_apply]
    ring
  · have h1 : PlanarSystem.entry P (plains E ν) r 0 j j' = PlanarSystem.linearEntry P (plains E ν) r j j' := by
      refine Finset.sum_congr rfl fun q hq => ?_
      rw [PlanarSystem.forces, PlanarSystem.moduli, hd, rest P r E ν hB hq]
      simp [Planar.stiffness, Planar.EmDer2]
    rw [entry, linearEntry, h1, add_assoc _ _ (Finset.sum G.Q0 _)]
    congr 1
    simp only [quad]
    rw [← Finset.sum_add_distrib]
    refine Finset.sum_congr rfl fun q _ => ?_
    simp only [c0Mat, c0MatLin2, dotd, Fin.sum_univ_two]
    ring

/-- Matrix of the linear problem without the sides. -/
noncomputable def free {J κ ι : Type} (P : Problem J κ) (G : Joins J ι) (r : Rule) (E ν : κ → ℝ) (j j' : J) : ℝ :=
  PlanarSystem.linearEntry P (plains E ν) r j j'
    + ∑ q ∈ G.Q0, G.w0 q * (G.a0 q * (∑ i, (G.uL q j i - G.uR q j i) * (G.uL q j' i - G.uR q j' i)) * G.μ0 q ^ 2)

/-- **C159** is violated: with a growing option `WeakDirichlet`, of either sign, the solution of the linear problem tends
to the one in which the sides are displaced by `g / m` instead of the prescribed `g`, and the error is of the order of
one over the option. -/
theorem C159_limit_violated (X : ι → Vd 2) (hw : ∀ q ∈ G.Qd, 0 < G.wd q ∧ 0 < G.m q ∧ 0 < G.μd q)
    (hp : ∀ v : J → ℝ, Vanishes G v → v ≠ 0 → 0 < ∑ j, ∑ j', v j * free P G r E ν j j' * v j')
    {xs : EuclideanSpace ℝ J} (hxs : Prescribed (free P G r E ν) P.F G (fun q i => G.g q i / G.m q) xs) :
    ∃ c₀ C : ℝ, 0 < c₀ ∧ ∀ c : ℝ, c₀ ≤ |c| → ∃ x : EuclideanSpace ℝ J,
      (∀ y : EuclideanSpace ℝ J, (∀ j, ∑ j', linearEntry P (withOpt G c) (plains E ν) r j j' * y j'
        = linearRhs P (withOpt G c) X j) ↔ y = x) ∧ ‖x - xs‖ ≤ C / |c| := by
  let e : J → J → ℝ := fun j j' => ∑ q ∈ G.Qd, G.wd q * (G.m q * dotd (G.u q j) (G.u q j') * G.μd q)
  let g : EuclideanSpace ℝ J := WithLp.toLp 2 fun j => ∑ q ∈ G.Qd, G.wd q * (dotd (G.u q j) (G.g q) * G.μd q)
  have hes : ∀ j j', e j j' = e j' j := fun j j' => Finset.sum_congr rfl fun q _ => by
    simp only [dotd, Fin.sum_univ_two]; ring
  have hmul : ∀ (v : EuclideanSpace ℝ J) j, ofEntries e v j
      = ∑ q ∈ G.Qd, G.wd q * (G.m q * (∑ i, G.u q j i * ∑ j', v j' * G.u q j' i) * G.μd q) := by
    intro v j
    rw [ofEntries_apply]
    simp only [e, Finset.sum_mul]
    rw [Finset.sum_comm]
    refine Finset.sum_congr rfl fun q _ => ?_
    simp only [dotd, Fin.sum_univ_two, Finset.mul_sum, Finset.sum_mul, ← Finset.sum_add_distrib]
    exact Finset.sum_congr rfl fun j' _ => by ring
  have hform : ∀ v : EuclideanSpace ℝ J, ⟪ofEntries e v, v⟫
      = ∑ q ∈ G.Qd, G.wd q * (G.m q * (∑ i, (∑ j, v j * G.u q j i) ^ 2) * G.μd q) := by
    intro v
    rw [inner_ofEntries]
    simp only [e, Finset.mul_sum, Finset.sum_mul]
    rw [Finset.sum_congr rfl fun j _ => Finset.sum_comm, Finset.sum_comm]
    refine Finset.sum_congr rfl fun q _ => ?_
    rw [← Finset.mul_sum, ← Finset.sum_mul, ← Finset.mul_sum, ← form_sq (G.u q)]
    simp only [Finset.mul_sum, Finset.sum_mul]
    exact Finset.sum_congr rfl fun j _ => Finset.sum_congr rfl fun j' _ => by ring
  have hker : ∀ v : EuclideanSpace ℝ J, ofEntries e v = 0 → Vanishes G v := by
    intro v hv q hq i
    have h1 := hform v
    rw [hv, inner_zero_left] at h1
    have hnn : ∀ q, 0 ≤ ∑ i, (∑ j, v j * G.u q j i) ^ 2 := fun q => Finset.sum_nonneg fun i _ => sq_nonneg _
    have h2 := (Finset.sum_eq_zero_iff_of_nonneg fun q hq => by
      obtain ⟨k1, k2, k3⟩ := hw q hq
      have := hnn q
      positivity).1 h1.symm q hq
    obtain ⟨k1, k2, k3⟩ := hw q hq
    have h3 : ∑ i, (∑ j, v j * G.u q j i) ^ 2 = 0 := by
      by_contra hne
      have := lt_of_le_of_ne (hnn q) (Ne.symm hne)
      have : 0 < G.wd q * (G.m q * (∑ i, (∑ j, v j * G.u q j i) ^ 2) * G.μd q) := by positivity
      exact this.ne' h2
    exact pow_eq_zero_iff two_ne_zero |>.1 ((Finset.sum_eq_zero_iff_of_nonneg fun i _ => sq_nonneg _).1 h3 i (Finset.mem_univ i))
  have hG : ofEntries e xs = g := by
    ext j
    rw [hmul]
    refine Finset.sum_congr rfl fun q hq => ?_
    have hm := (hw q hq).2.1.ne'
    simp only [hxs.place q hq, dotd, Fin.sum_univ_two]
    field_simp
  obtain ⟨c₀, C, h0, h⟩ := Constrained.limit (K := ofEntries (free P G r E ν)) (M := ofEntries e)
    (F := WithLp.toLp 2 P.F) (G := g) (xs := xs) (symm_ofEntries hes)
    (fun v hv hne => by
      rw [inner_ofEntries]
      exact hp v (hker v hv) fun h => hne (by ext j; exact congrFun h j)) hG
    (fun v hv => by
      have := hxs.balance v (hker v hv)
      rw [← this]
      simp only [PiLp.inner_apply, PiLp.sub_apply, ofEntries_apply, RCLike.inner_apply, conj_trivial])
  refine ⟨c₀, C, h0, fun c hc => ?_⟩
  obtain ⟨x, h1, h2⟩ := h (-c) (by rwa [abs_neg])
  rw [abs_neg] at h2
  refine ⟨x, fun y => ?_, h2⟩
  rw [← h1 y]
  have hL : ∀ j, ∑ j', linearEntry P (withOpt G c) (plains E ν) r j j' * y j'
      = (ofEntries (free P G r E ν) y + -c • ofEntries e y) j := by
    intro j
    rw [PiLp.add_apply, PiLp.smul_apply, ofEntries_apply, ofEntries_apply, smul_eq_mul, Finset.mul_sum, ← Finset.sum_add_distrib]
    refine Finset.sum_congr rfl fun j' _ => ?_
    have k1 : quad G.Qd G.wd (fun q => dirMat (c * G.m q) (G.μd q) (G.u q j) (G.u q j')) = -c * e j j' := by
      simp only [quad, e, Finset.mul_sum]
      exact Finset.sum_congr rfl fun q _ => by simp only [dirMat]; ring
    have k2 : quad G.Q0 G.w0 (fun q => c0MatLin2 (G.a0 q) (G.μ0 q) (G.uL q j) (G.uR q j) (G.uL q j') (G.uR q j'))
        = ∑ q ∈ G.Q0, G.w0 q * (G.a0 q * (∑ i, (G.uL q j i - G.uR q j i) * (G.uL q j' i - G.uR q j' i)) * G.μ0 q ^ 2) :=
      Finset.sum_congr rfl fun q _ => by simp only [c0MatLin2, dotd, Fin.sum_univ_two]; ring
    show (PlanarSystem.linearEntry P (plains E ν) r j j' + quad G.Qd G.wd (fun q => dirMat (c * G.m q) (G.μd q) (G.u q j) (G.u q j'))
      + quad G.Q0 G.w0 (fun q => c0MatLin2 (G.a0 q) (G.μ0 q) (G.uL q j) (G.uR q j) (G.uL q j') (G.uR q j'))) * y j' = _
    rw [k1, k2, free]; ring
  have hr : ∀ j, linearRhs P (withOpt G c) X j = (WithLp.toLp 2 P.F + -c • g : EuclideanSpace ℝ J) j := by
    intro j
    rw [PiLp.add_apply, PiLp.smul_apply, smul_eq_mul]
    show P.F j + quad G.Qd G.wd (fun q => dirVecLin2 c (G.μd q) (X q) (G.g q) (G.u q j))
      = P.F j + -c * ∑ q ∈ G.Qd, G.wd q * (dotd (G.u q j) (G.g q) * G.μd q)
    congr 1
    rw [Finset.mul_sum]
    exact Finset.sum_congr rfl fun q _ => by simp only [dirVecLin2, dotd, Fin.sum_univ_two]; ring
  constructor
  · intro hy
    ext j
    rw [← hL, ← hr]; exact hy j
  · intro hy j
    rw [hL, hr, hy]

/-- **C159** (partial: sides with the factor one) With a growing option `WeakDirichlet` the solution of the linear problem
tends to the one with the prescribed displacement. -/
theorem C159_limit_partial (X : ι → Vd 2) (hw : ∀ q ∈ G.Qd, 0 < G.wd q ∧ G.m q = 1 ∧ 0 < G.μd q)
    (hp : ∀ v : J → ℝ, Vanishes G v → v ≠ 0 → 0 < ∑ j, ∑ j', v j * free P G r E ν j j' * v j')
    {xs : EuclideanSpace ℝ J} (hxs : Prescribed (free P G r E ν) P.F G G.g xs) :
    ∃ c₀ C : ℝ, 0 < c₀ ∧ ∀ c : ℝ, c₀ ≤ |c| → ∃ x : EuclideanSpace ℝ J,
      (∀ y : EuclideanSpace ℝ J, (∀ j, ∑ j', linearEntry P (withOpt G c) (plains E ν) r j j' * y j'
        = linearRhs P (withOpt G c) X j) ↔ y = x) ∧ ‖x - xs‖ ≤ C / |c| :=
  C159_limit_violated P G r E ν X (fun q hq => ⟨(hw q hq).1, by rw [(hw q hq).2.1]; norm_num, (hw q hq).2.2⟩) hp
    ⟨fun q hq i => by rw [hxs.place q hq i, (hw q hq).2.1, div_one], hxs.balance⟩

/-- **C159** (partial: sides with the factor one, interfaces with the measure one) The linear problem is the
linearisation of the nonlinear one. -/
theorem C159_linear_partial (hB : Body P) (hR : AtRest P G) (hm : ∀ q ∈ G.Qd, G.m q = 1) (hμ : ∀ q ∈ G.Q0, G.μ0 q = 1)
    (X : ι → Vd 2) (j j' : J) :
    residual P G (plains E ν) r 0 j = linearRhs P G X j ∧
    entry P G (plains E ν) r 0 j j' = linearEntry P G (plains E ν) r j j' := by
  obtain ⟨h1, h2⟩ := C159_linear_violated P G r E ν hB hR X j j'
  rw [h1, h2, Finset.sum_eq_zero fun q hq => by rw [hm q hq]; ring, Finset.sum_eq_zero fun q hq => by rw [hμ q hq]; ring]
  simp

/-! ## Examples -/

/-- The free end of a strip is joined to a fixed patch with the factor `a`, and to be displaced by one with the option
`c` and the modulus `m`. -/
def seam (a c m : ℝ) : Joins Unit Unit where
  Q0 := {()}
  w0 _ := 1
  a0 _ := a
  μ0 _ := 1
  uL _ _ i := if i = 0 then 1 else 0
  uR _ _ _ := 0
  gL _ _ := 0
  gR _ _ := 0
  opt := c
  Qd := {()}
  wd _ := 1
  m _ := m
  μd _ := 1
  u _ _ i := if i = 0 then 1 else 0
  u0 _ _ := 0
  g _ i := if i = 0 then 1 else 0

/-- One point through the thickness. -/
noncomputable abbrev one : Rule := ⟨1, fun _ => 0, fun _ => 1⟩

theorem strip_linear (f : ℝ) : PlanarSystem.linearEntry (PlanarSystem.strip f) (plains (fun _ => 1) fun _ => 0) one () () = 1 := by
  have hJ : jdet PlanarSystem.unitJac ≠ 0 := by simp [PlanarSystem.unitJac, jdet]
  have h : modulus (plain 1 0) one 1 0 PlanarSystem.unitJac PlanarSystem.unitJac 0 0 = 1 := by
    rw [plain_modulus _ _ one _ hJ hJ, PlanarSystem.integrate_const]
    simp [PlanarSystem.weight, linMatrix, Linear.matrix, storedAconPlanar, AcovPlanar, PlanarSystem.unitJac, Linear.Cval,
      Linear.Cconst, Linear.mu, Linear.lam]
    norm_num
  show ∑ q ∈ {()}, _ = _
  rw [Finset.sum_singleton]
  simp [EmDer, dot2, PlanarSystem.strip, PlanarSystem.unitJac, dotV, Variation.rowMul, Fin.sum_univ_three]
  exact h

theorem seam_rest (f a c m : ℝ) : AtRest (PlanarSystem.strip f) (seam a c m) := ⟨rfl, fun _ _ => rfl, fun _ _ => rfl⟩

theorem seam_joint (a c m : ℝ) (v : Unit → ℝ) : joint (seam a c m) v = a * v () ^ 2 := by
  simp [joint, seam]

theorem seam_side (a c m : ℝ) (v : Unit → ℝ) : side (seam a c m) v = c * m * v () ^ 2 := by
  simp [side, seam]

theorem seam_entry (f a c m : ℝ) :
    entry (PlanarSystem.strip f) (seam a c m) (plains (fun _ => 1) fun _ => 0) one 0 () () = 1 - c * m + a := by
  rw [(C159_linear_violated _ _ _ _ _ (PlanarSystem.strip_body f) (seam_rest f a c m) (fun _ _ => 0) () ()).2, linearEntry,
    strip_linear]
  simp [seam, quad, dirMat, c0MatLin2, dotd]
  ring

theorem seam_residual (f a c m : ℝ) (j : Unit) :
    residual (PlanarSystem.strip f) (seam a c m) (plains (fun _ => 1) fun _ => 0) one 0 j = f - c * m := by
  rw [(C159_linear_violated _ _ _ _ _ (PlanarSystem.strip_body f) (seam_rest f a c m) (fun _ _ => 0) j ()).1, linearRhs]
  simp [seam, quad, dirVecLin2, dotd, PlanarSystem.strip]
  ring

theorem seam_tangent (f a c m : ℝ) (v : EuclideanSpace ℝ Unit) (j : Unit) :
    tangent (PlanarSystem.strip f) (seam a c m) (plains (fun _ => 1) fun _ => 0) one 0 v j = (1 - c * m + a) * v () := by
  rw [tangent, ofEntries_apply, Fintype.sum_unique, seam_entry]

theorem seam_zero (a : ℝ) : residual (PlanarSystem.strip 0) (seam a 0 1) (plains (fun _ => 1) fun _ => 0) one 0 = 0 := by
  ext j
  rw [seam_residual]; simp

/-- Witness of the sign: the springs do work in a displaced state. -/
example : Body (PlanarSystem.strip 0) ∧ ∑ j, one.w j = 1 ∧
    EuclideanSpace.single () 1 ∈ Admissible (PlanarSystem.strip 0) ∧
    pull (seam 1 0 1) (EuclideanSpace.single () 1) () ≠ 0 :=
  ⟨PlanarSystem.strip_body 0, by simp, PlanarSystem.strip_admissible 0 _ (by simp), by simp [pull, seam]⟩

/-- Witness of the tangent: it is not minus the derivative of the residual. -/
example : ¬HasFDerivAt (residual (PlanarSystem.strip 0) (seam 1 0 1) (plains (fun _ => 1) fun _ => 0) one)
    (-tangent (PlanarSystem.strip 0) (seam 1 0 1) (plains (fun _ => 1) fun _ => 0) one 0) 0 := fun h => by
  have := (C159_tangent_violated _ _ _ _ _ (PlanarSystem.strip_body 0) (PlanarSystem.strip_admissible 0 _ (by simp))).2.1 h fun _ => 1
  rw [seam_joint] at this
  norm_num at this

/-- Non-vacuity: without interfaces; a weak side; the tangent is regular, the state an equilibrium. -/
example : ({ seam 0 (-1) 2 with Q0 := ∅ } : Joins Unit Unit).Q0 = ∅ ∧ (∀ v, joint (seam 0 (-1) 2) v = 0) ∧
    residual (PlanarSystem.strip (-2)) (seam 0 (-1) 2) (plains (fun _ => 1) fun _ => 0) one 0 = 0 ∧
    Function.Injective (tangent (PlanarSystem.strip (-2)) (seam 0 (-1) 2) (plains (fun _ => 1) fun _ => 0) one 0) := by
  refine ⟨rfl, fun v => by rw [seam_joint, zero_mul], ?_, fun u v h => ?_⟩
  · ext j
    rw [seam_residual]; simp
  · ext j
    have := congrArg (fun w : EuclideanSpace ℝ Unit => w ()) h
    simp only [seam_tangent] at this
    cases j
    linarith

/-- Non-vacuity: an interface softer than the strip. -/
example : (∀ v : EuclideanSpace ℝ Unit,
      ‖v‖ ≤ 1 * ‖tangent (PlanarSystem.strip 0) (seam (1 / 64) 0 1) (plains (fun _ => 1) fun _ => 0) one 0 v‖) ∧
    (∀ v : EuclideanSpace ℝ Unit, joint (seam (1 / 64) 0 1) v ≤ 1 / 64 * ‖v‖ ^ 2) ∧ (1 : ℝ) * (1 / 64) ≤ 1 / 32 ∧
    residual (PlanarSystem.strip 0) (seam (1 / 64) 0 1) (plains (fun _ => 1) fun _ => 0) one 0 = 0 := by
  refine ⟨fun v => ?_, fun v => ?_, by norm_num, seam_zero _⟩
  · rw [one_mul, EuclideanSpace.norm_eq, EuclideanSpace.norm_eq, Fintype.sum_unique, Fintype.sum_unique]
    refine Real.sqrt_le_sqrt ?_
    simp only [seam_tangent, Real.norm_eq_abs, sq_abs, PUnit.default_eq_unit]
    nlinarith [sq_nonneg (v ())]
  · rw [seam_joint, EuclideanSpace.norm_sq_eq, Fintype.sum_unique]
    simp

/-- Witness of the divergence: an interface twice as stiff as the strip at rest. -/
example : ∃ d : EuclideanSpace ℝ Unit, d ≠ 0 ∧ ∃ ρ : ℝ, 0 < ρ ∧ ∀ (x : ℕ → EuclideanSpace ℝ Unit) (a : ℝ), a ≠ 0 →
    x 0 = 0 + a • d → Iterates (residual (PlanarSystem.strip 0) (seam 2 0 1) (plains (fun _ => 1) fun _ => 0) one)
      (tangent (PlanarSystem.strip 0) (seam 2 0 1) (plains (fun _ => 1) fun _ => 0) one) x → ∃ n, ρ < ‖x n - 0‖ := by
  refine C159_repel_violated _ _ _ _ _ (PlanarSystem.strip_body 0) (fun _ _ => by norm_num [seam])
    (PlanarSystem.strip_admissible 0 _ (by simp)) (seam_zero 2) (fun v hv => ?_) (v := fun _ => 1) ?_
  · have h0 : v () ≠ 0 := fun h => hv (funext fun _ => h)
    rw [Fintype.sum_unique, Fintype.sum_unique, PUnit.default_eq_unit, seam_entry]
    have : 0 < v () ^ 2 := by positivity
    nlinarith
  · have := seam_entry 0 0 0 1
    rw [entry] at this
    simp [seam, quad, dirMat, c0Mat, dotd] at this
    rw [Fintype.sum_unique, Fintype.sum_unique, PUnit.default_eq_unit, this, seam_joint, seam_side]
    norm_num

/-- Witness of the linear problem: the residual at rest is not its right-hand side. -/
example : residual (PlanarSystem.strip 3) (seam 0 1 2) (plains (fun _ => 1) fun _ => 0) one 0 () = 1 ∧
    linearRhs (PlanarSystem.strip 3) (seam 0 1 2) (fun _ _ => 0) () = 2 := by
  rw [seam_residual]
  constructor
  · norm_num
  · simp [linearRhs, seam, quad, dirVecLin2, dotd, PlanarSystem.strip]; norm_num

/-- Witness of the limit: prescribed is the displacement one, with the modulus two the solutions tend to one half. -/
example : ∃ c₀ C : ℝ, 0 < c₀ ∧ ∀ c : ℝ, c₀ ≤ |c| → ∃ x : EuclideanSpace ℝ Unit,
    (∀ y : EuclideanSpace ℝ Unit, (∀ j, ∑ j', linearEntry (PlanarSystem.strip 3) (withOpt (seam 0 0 2) c)
      (plains (fun _ => 1) fun _ => 0) one j j' * y j'
        = linearRhs (PlanarSystem.strip 3) (withOpt (seam 0 0 2) c) (fun _ _ => 0) j) ↔ y = x) ∧
    ‖x - EuclideanSpace.single () (1 / 2)‖ ≤ C / |c| := by
  refine C159_limit_violated _ _ _ _ _ _ (fun _ _ => by norm_num [seam]) (fun v hv hne => ?_) ⟨fun q hq i => ?_, fun v hv => ?_⟩
  · have := hv () (by simp [seam]) 0
    simp [seam] at this
    exact absurd (funext fun _ => this) hne
  · rcases fin2_cases i with rfl | rfl <;> simp [seam]
  · have := hv () (by simp [seam]) 0
    simp [seam] at this
    simp [this]

end Verif.JoinedSheet
