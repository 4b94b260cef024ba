import Verif.Spec.DWRShell
import Verif.Lemmas.LocalNewton
import Verif.Lemmas.ShellSystemLaw
import Verif.Lemmas.DWRObject
import Verif.Props.ShellSystem
import Verif.Props.DWR
import Verif.Props.DWRError
import Mathlib.Analysis.InnerProductSpace.Dual

/-! # Lemmas for the error estimate of a nonlinear shell -/

namespace Verif.DWR

open V3 Verif.Geometry Verif.Variation Verif.Balance Verif.ShellSystem Spec.ShellSystem Spec.Solve
open Filter Topology RealInnerProductSpace

/-! ## Second-order remainders -/

section Abstract

variable {V : Type} [NormedAddCommGroup V] [InnerProductSpace ℝ V] [FiniteDimensional ℝ V]

omit [FiniteDimensional ℝ V] in
/-- Taylor's formula with a constant that is the same near a point. -/
theorem local_taylor {G : V → ℝ} {xs : V} (hG : ContDiffAt ℝ 2 G xs) :
    ∃ L B r : ℝ, 0 ≤ L ∧ 0 ≤ B ∧ 0 < r ∧ ∀ x ∈ Metric.closedBall xs r, ‖fderiv ℝ G x‖ ≤ B ∧
      ∀ y ∈ Metric.closedBall xs r, |G y - G x - fderiv ℝ G x (y - x)| ≤ L * ‖y - x‖ ^ 2 := by
  have h1 : ContDiffAt ℝ 1 (fderiv ℝ G) xs := hG.fderiv_right (by norm_num)
  obtain ⟨L, t, ht, hL⟩ := h1.exists_lipschitzOnWith
  have hd : ∀ᶠ x in 𝓝 xs, DifferentiableAt ℝ G x :=
    (hG.eventually (by simp)).mono fun x hx => hx.differentiableAt (by norm_num)
  obtain ⟨r, hr, hsub⟩ := Metric.nhds_basis_closedBall.mem_iff.1 (Filter.inter_mem ht hd)
  refine ⟨L, ‖fderiv ℝ G xs‖ + L * r, r, L.2, by positivity, hr, fun x hx => ⟨?_, fun y hy => ?_⟩⟩
  · have h := hL.dist_le_mul x (hsub hx).1 xs (hsub (Metric.mem_closedBall_self hr.le)).1
    rw [dist_eq_norm, dist_eq_norm] at h
    have h2 : ‖fderiv ℝ G x‖ ≤ ‖fderiv ℝ G xs‖ + ‖fderiv ℝ G x - fderiv ℝ G xs‖ := by
      have := norm_add_le (fderiv ℝ G xs) (fderiv ℝ G x - fderiv ℝ G xs)
      rwa [add_sub_cancel] at this
    have h3 : ‖x - xs‖ ≤ r := by simpa [dist_eq_norm] using hx
    have h4 : (L : ℝ) * ‖x - xs‖ ≤ L * r := mul_le_mul_of_nonneg_left h3 L.2
    linarith
  · have hs : segment ℝ x y ⊆ Metric.closedBall xs r := (convex_closedBall xs r).segment_subset hx hy
    have := (convex_segment (𝕜 := ℝ) x y).norm_image_sub_le_of_norm_hasFDerivWithin_le' (f := G)
      (f' := fderiv ℝ G) (φ := fderiv ℝ G x) (C := L * ‖y - x‖)
      (fun z hz => ((hsub (hs hz)).2.hasFDerivAt).hasFDerivWithinAt)
      (fun z hz => by
        have h := hL.dist_le_mul z (hsub (hs hz)).1 x (hsub hx).1
        rw [dist_eq_norm, dist_eq_norm] at h
        exact h.trans (mul_le_mul_of_nonneg_left (norm_sub_le_of_mem_segment hz) L.2))
      (left_mem_segment ℝ x y) (right_mem_segment ℝ x y)
    rw [Real.norm_eq_abs] at this
    linarith [this, sq ‖y - x‖, mul_assoc (L : ℝ) ‖y - x‖ ‖y - x‖]

/-- The change of a goal between two states, and the residual of the first state weighted with the
dual. -/
theorem dual_weighted {R : V → V} {K : V → V →L[ℝ] V} {G : V → ℝ} {xs : V} (hR : ContDiffAt ℝ 2 R xs)
    (hK : ∀ᶠ x in 𝓝 xs, HasFDerivAt R (-K x) x) (hi : Function.Injective (K xs)) (hG : ContDiffAt ℝ 2 G xs)
    {S : Set V} (hS : S ∈ 𝓝 xs) (hsym : ∀ x ∈ S, ∀ u v, ⟪K x u, v⟫ = ⟪u, K x v⟫) :
    ∃ C ρ : ℝ, 0 ≤ C ∧ 0 < ρ ∧ Metric.closedBall xs ρ ⊆ S ∧
      ∀ x ∈ Metric.closedBall xs ρ, Function.Injective (K x) ∧ ∀ y ∈ Metric.closedBall xs ρ,
        ∀ z, (∀ v, ⟪K x z, v⟫ = fderiv ℝ G x v) →
          |G y - G x - ⟪z, R x - R y⟫| ≤ C * ‖y - x‖ ^ 2 := by
  obtain ⟨L, β, ρ, hL, hβ, hρ, -, -, hsub, ht, hb⟩ := Solve.local_constants hR hK hi hS
  obtain ⟨L', B, r, hL', hB, hr, hT⟩ := local_taylor hG
  have hm : ∀ x ∈ Metric.closedBall xs (min ρ r), x ∈ Metric.closedBall xs ρ ∧ x ∈ Metric.closedBall xs r :=
    fun x hx => ⟨Metric.closedBall_subset_closedBall (min_le_left _ _) hx,
      Metric.closedBall_subset_closedBall (min_le_right _ _) hx⟩
  refine ⟨L' + β * B * L, min ρ r, by positivity, lt_min hρ hr,
    (Metric.closedBall_subset_closedBall (min_le_left _ _)).trans hsub, fun x hx => ⟨?_, fun y hy z hz => ?_⟩⟩
  · refine (injective_iff_map_eq_zero _).2 fun v hv => ?_
    have := hb x (hm x hx).1 v
    rw [hv, norm_zero, mul_zero] at this
    exact norm_le_zero_iff.1 this
  have h1 := ht.remainder hL (convex_closedBall xs ρ) (hm x hx).1 (hm y hy).1
  obtain ⟨h2, h3⟩ := hT x (hm x hx).2
  have h4 := h3 y (hm y hy).2
  have hz1 : ‖K x z‖ ≤ B := by
    rcases eq_or_ne (K x z) 0 with h0 | h0
    · rw [h0, norm_zero]; exact hB
    · have e := hz (K x z)
      rw [real_inner_self_eq_norm_sq] at e
      have e2 := (fderiv ℝ G x).le_opNorm (K x z)
      rw [← e, Real.norm_eq_abs, abs_of_nonneg (sq_nonneg _), sq] at e2
      exact (le_of_mul_le_mul_right e2 (norm_pos_iff.2 h0)).trans h2
  have hz2 : ‖z‖ ≤ β * B := (hb x (hm x hx).1 z).trans (mul_le_mul_of_nonneg_left hz1 hβ.le)
  have e1 : fderiv ℝ G x (y - x) = ⟪z, K x (y - x)⟫ := by
    rw [← hz, hsym x (hsub (hm x hx).1)]
  have e2 : G y - G x - ⟪z, R x - R y⟫
      = (G y - G x - fderiv ℝ G x (y - x)) + ⟪z, R y - R x + K x (y - x)⟫ := by
    rw [e1, inner_add_right, inner_sub_right, inner_sub_right]; ring
  rw [e2]
  refine (abs_add_le _ _).trans ?_
  have h5 := (abs_real_inner_le_norm z (R y - R x + K x (y - x))).trans
    (mul_le_mul hz2 h1 (norm_nonneg _) (by positivity))
  calc _ ≤ L' * ‖y - x‖ ^ 2 + β * B * ((L * ‖y - x‖ + 0) * ‖y - x‖) := add_le_add h4 h5
    _ = _ := by ring

end Abstract

/-! ## The goal as a function of the unknowns -/

/-- Value of `select`. -/
noncomputable def pick (c : ℕ) (μ : ℝ) (q : Voigt) : ℝ :=
  if c = 9 then dotV q q * μ else if h : c < 3 then q ⟨c, h⟩ * μ else 0

theorem select_eq {c : ℕ} (hc : Comp3 c) (μ : ℝ) (q : Voigt) : select c μ q = .ok (pick c μ q) := by
  unfold select pick
  rcases hc with rfl | h
  · simp
  · have : c ≠ 9 := by omega
    simp [this, h]

theorem goalAt_eq {g : Goal} (hg : Direct g) {c : ℕ} (hc : Comp3 c) (p : Pt) :
    goalAt .domain g c p = .ok (pick c (Variation.measure p.ori) (quantity p g)) := by
  cases g <;> first | exact hg.elim | exact select_eq hc _ _

theorem goal_eq {g : Goal} (hg : Direct g) {c : ℕ} (hc : Comp3 c) (l : List (ℝ × Pt)) :
    DWR.goal .domain g c l
      = .ok (l.map fun p => p.1 * pick c (Variation.measure p.2.ori) (quantity p.2 g)).sum := by
  induction l with
  | nil => rfl
  | cons a l ih =>
    obtain ⟨w, p⟩ := a
    rw [DWR.goal, goalAt_eq hg hc, ih]
    rfl

theorem pick_smooth {V : Type} [NormedAddCommGroup V] [NormedSpace ℝ V] {x : V} (c : ℕ) (μ : ℝ) {e : V → Voigt}
    (he : ∀ k, ContDiffAt ℝ 2 (fun y => e y k) x) : ContDiffAt ℝ 2 (fun y => pick c μ (e y)) x := by
  unfold pick
  split
  · unfold dotV
    exact (ContDiffAt.sum fun k _ => (he k).mul (he k)).mul contDiffAt_const
  · split
    · exact (he _).mul contDiffAt_const
    · exact contDiffAt_const

theorem list_smooth {V ι : Type} [NormedAddCommGroup V] [NormedSpace ℝ V] {x : V} (l : List ι) {f : ι → V → ℝ}
    (hf : ∀ q ∈ l, ContDiffAt ℝ 2 (f q) x) : ContDiffAt ℝ 2 (fun y => (l.map fun q => f q y).sum) x := by
  induction l with
  | nil => exact contDiffAt_const
  | cons a l ih =>
    simp only [List.map_cons, List.sum_cons]
    exact (hf a List.mem_cons_self).add (ih fun q hq => hf q (List.mem_cons_of_mem _ hq))

variable {n : ℕ} {κ β γ : Type} [DecidableEq κ] (D : Fine n κ β γ) (r : Integrate.Rule) (E ν τ : ℝ)

theorem quantity_smooth {g : Goal} (hg : Direct g) {x : EuclideanSpace ℝ (Fin n)} {q : κ}
    (hx : Indep ((deformed D.problem x q).a 0) ((deformed D.problem x q).a 1)) (k : Fin 3) :
    ContDiffAt ℝ 2 (fun y => quantity (D.point E ν τ y q) g k) x := by
  have hs := deformed_smooth D.problem x q
  have hm := fun k => hs.membrane (D.ori q) k
  have hb := fun k => hs.bending hx (D.ori q) k
  have h0 : ∀ k, ContDiffAt ℝ 2 (fun y => Linear.stress E ν (Acon (D.ori q))
      (Geometry.membraneStrain (D.ori q) (deformed D.problem y q)) k) x := fun k => by
    simp only [lin_S0]
    exact ContDiffAt.sum fun j _ => contDiffAt_const.mul (hm j)
  have h1 : ∀ k, ContDiffAt ℝ 2 (fun y => Linear.stress E ν (Acon (D.ori q))
      (Geometry.bendingStrain (D.ori q) (deformed D.problem y q)) k) x := fun k => by
    simp only [lin_S1]
    exact ContDiffAt.sum fun j _ => contDiffAt_const.mul (hb j)
  have hp := (comb_smooth (D.pos q) (fun j => D.val q j) x).sub (VSmooth.const (D.X q))
  cases g
  case displacement =>
    rcases fin3_cases k with rfl | rfl | rfl
    · exact hp.1
    · exact hp.2.1
    · exact hp.2.2
  case membraneStrain =>
    show ContDiffAt ℝ 2 (fun y => Em (D.ori q) (deformed D.problem y q) k) x
    simp only [Em_eq]; exact hm k
  case flexuralStrain =>
    show ContDiffAt ℝ 2 (fun y => Ef (D.ori q) (deformed D.problem y q) k) x
    simp only [Ef_eq]; exact hb k
  case membraneStress => exact h0 k
  case membraneForce => exact contDiffAt_const.mul (h0 k)
  case flexuralStress => exact h1 k
  case flexuralMoment => exact contDiffAt_const.mul (h1 k)
  all_goals exact hg.elim

/-- Value of the goal. -/
noncomputable def goalVal (g : Goal) (c : ℕ) (x : EuclideanSpace ℝ (Fin n)) : ℝ :=
  (D.elems.flatten.map fun q => D.wt q * pick c (Variation.measure (D.ori q)) (quantity (D.point E ν τ x q) g)).sum

variable {D}

theorem fine_goal {g : Goal} (hg : Direct g) {c : ℕ} (hc : Comp3 c) (x : EuclideanSpace ℝ (Fin n)) :
    D.goal E ν τ g c x = .ok (goalVal D E ν τ g c x) := by
  rw [Fine.goal, goal_eq hg hc, List.map_map]
  rfl

theorem goalVal_smooth {g : Goal} (hg : Direct g) (c : ℕ) {x : EuclideanSpace ℝ (Fin n)}
    (hx : x ∈ Admissible D.problem) : ContDiffAt ℝ 2 (goalVal D E ν τ g c) x :=
  list_smooth _ fun q hq => contDiffAt_const.mul (pick_smooth c _ fun k =>
    quantity_smooth D E ν τ hg (hx q (List.mem_toFinset.2 hq)) k)

/-- The state without material. -/
noncomputable def bare (D : Fine n κ β γ) (x : EuclideanSpace ℝ (Fin n)) (q : κ) : Pt :=
  { ori := D.ori q, X := D.X q, defo := deformed D.problem x q
    x := D.pos q + vsum Finset.univ fun j => x j • D.val q j
    primal := D.pos q + (vsum Finset.univ fun j => x j • D.val q j) - D.X q
    T := fun _ _ => 0, Tp := fun _ _ => 0, mmA := fun _ _ => 0, mmD := fun _ _ => 0
    mmAi := fun _ _ => 0, mmBi := fun _ _ => 0, mmCi := fun _ _ => 0, mmDi := fun _ _ => 0
    S0 := fun _ => 0, S1 := fun _ => 0, N := fun _ => 0, M := fun _ => 0, P0 := fun _ => 0 }

theorem bare_shift (x : EuclideanSpace ℝ (Fin n)) (q : κ) (j : Fin n) (i : ℕ) (t : ℝ) :
    displaced (bare D x q) ⟨D.val q j, D.field q j, i⟩ t = bare D (x + t • EuclideanSpace.single j (1 : ℝ)) q := by
  have h := deformed_shift D.problem x q j t
  have h2 := comb_shift (D.pos q) (fun j => D.val q j) x j t
  simp only [displaced, bare, h, h2]
  rfl

/-- The dual vector is the derivative of the goal. -/
theorem goal_line {g : Goal} (hg : Direct g) {c : ℕ} (hc : Comp3 c) {x : EuclideanSpace ℝ (Fin n)}
    (hx : x ∈ Admissible D.problem) (j : Fin n) :
    ∃ d, D.dual E ν τ g c x j = .ok d ∧
      HasDerivAt (fun t : ℝ => goalVal D E ν τ g c (x + t • EuclideanSpace.single j (1 : ℝ))) d 0 := by
  obtain ⟨f, d, hf, hd, hfd⟩ := C90_linear_partial E ν τ g hg c hc
    (D.elems.flatten.map fun q => (D.wt q, bare D x q, ⟨D.val q j, D.field q j, j⟩)) (by
      intro p hp
      obtain ⟨q, hq, rfl⟩ := List.mem_map.1 hp
      exact hx q (List.mem_toFinset.2 hq))
  have h0 : x + (0 : ℝ) • EuclideanSpace.single j (1 : ℝ) = x := by simp
  refine ⟨d, ?_, hfd.congr_of_eventuallyEq (Eventually.of_forall fun t => ?_)⟩
  · rw [← hd]
    simp only [List.map_map, Function.comp_def, bare_shift, h0]
    rfl
  · have h := hf t
    simp only [List.map_map, Function.comp_def, bare_shift] at h
    have h2 := fine_goal (D := D) E ν τ hg hc (x + t • EuclideanSpace.single j (1 : ℝ))
    have h3 : D.goal E ν τ g c (x + t • EuclideanSpace.single j (1 : ℝ)) = .ok (f t) := h
    rw [h2] at h3
    exact Outcome.ok.inj h3

/-- The dual solution represents the derivative of the goal. -/
theorem dual_fderiv {g : Goal} (hg : Direct g) {c : ℕ} (hc : Comp3 c) {x : EuclideanSpace ℝ (Fin n)}
    (hx : x ∈ Admissible D.problem) {z : Fin n → ℝ} (hz : SolvesDual D r E ν τ g c x z)
    (v : EuclideanSpace ℝ (Fin n)) :
    ⟪tangent D.problem (D.law r E ν τ) x (WithLp.toLp 2 z), v⟫ = fderiv ℝ (goalVal D E ν τ g c) x v := by
  have hdiff := (goalVal_smooth E ν τ hg c hx).differentiableAt (by norm_num)
  have h := fderiv_of_lines (L := InnerProductSpace.toDual ℝ (EuclideanSpace ℝ (Fin n))
    (tangent D.problem (D.law r E ν τ) x (WithLp.toLp 2 z))) hdiff fun j => by
      obtain ⟨d, h1, h2⟩ := goal_line (D := D) E ν τ hg hc hx j
      refine h2.congr_deriv ?_
      rw [hz j] at h1
      rw [InnerProductSpace.toDual_apply_apply, EuclideanSpace.inner_single_right, ← Outcome.ok.inj h1]
      simp [tangent_apply]
  rw [h.fderiv, InnerProductSpace.toDual_apply_apply]

/-! ## The estimate as a weighted residual -/

omit [DecidableEq κ] in
theorem list_finset [DecidableEq κ] {l : List κ} (hl : l.Nodup) (f : κ → ℝ) :
    ∑ q ∈ l.toFinset, f q = (l.map f).sum := List.sum_toFinset f hl

theorem setup_residual (hnd : D.elems.flatten.Nodup) {law : Law κ} {x : EuclideanSpace ℝ (Fin n)}
    (hx : x ∈ Admissible D.problem) (j : Fin n) :
    DWR.residual .shell (D.setup law x) (D.basis j) = ShellSystem.residual D.problem law x j := by
  rw [residual_eq .shell (D.setup law x) ⟨fun _ => rfl, fun _ => rfl⟩
    (fun _ q hq => hx q (List.mem_toFinset.2 hq))]
  show total _ _ + _ + _ = (∑ q ∈ D.elems.flatten.toFinset, _) + D.rhs j
  rw [list_finset hnd, Fine.rhs, ← add_assoc, ← add_assoc, total, ← list_sum_add]
  congr 1
  · congr 1
    · congr 1
      apply List.map_congr_left
      intro q _
      show D.wt q * resAt .shell (D.setup law x) (D.basis j) q * area (D.ori q) = _
      simp only [resAt, internalForce]
      show D.wt q * (dot (D.val q j) (D.force q) - (dotV _ _ + dotV _ _)) * Variation.measure (D.ori q)
        = -(_ + _) * (D.wt q * Variation.measure (D.ori q)) + _
      show _ = -(dotV _ (EmDer _ (D.field q j)) + dotV _ (EfDer _ (D.field q j))) * _ + _
      have e : ∀ a b c N M : ℝ, a * (b - (N + M)) * c = -(N + M) * (a * c) + a * (b * c) := by intros; ring
      exact e _ _ _ _ _
    · congr 1
      apply List.map_congr_left
      intro q _
      show D.bwt q * dot (D.bval q j) (D.gN q) * D.tv q = _
      ring

theorem setup_regular {law : Law κ} {x : EuclideanSpace ℝ (Fin n)} (hx : x ∈ Admissible D.problem) :
    RegularDef (D.setup law x) := fun q hq => hx q (List.mem_toFinset.2 hq)

/-- The estimate at a solution of the coarser problem. -/
theorem estimate_eq (hnd : D.elems.flatten.Nodup) {law : Law κ} {x : EuclideanSpace ℝ (Fin n)}
    (hx : x ∈ Admissible D.problem) {m : ℕ} {A : Fin m → Fin n → ℝ} (hc : SolvesCoarse D law A x)
    (zL : Fin m → ℝ) (zH : Fin n → ℝ) (res : Result) {wl : Bool} (hw : wl = true ∨ D.loads = [] ∧ D.bdr = []) :
    totalError false .shell wl (D.setup law x) (coarse D A zL) (comb zH D.basis) res
      = .ok ⟪(WithLp.toLp 2 zH : EuclideanSpace ℝ (Fin n)), ShellSystem.residual D.problem law x⟫ := by
  have hp : DeadLoads (D.setup law x) := ⟨fun _ => rfl, fun _ => rfl⟩
  have hr : Form.shell = .shell → RegularDef (D.setup law x) := fun _ => setup_regular hx
  rw [C94_residual_partial .shell wl _ _ _ res hp hr (hw.imp_right fun h => ⟨h.1, fun _ => h.2⟩), coarse, residual_comb .shell _ hp hr,
    residual_comb .shell _ hp hr]
  congr 1
  simp only [residual_comb .shell _ hp hr, setup_residual hnd hx]
  have h0 : ∑ i, zL i * ∑ j, A i j * ShellSystem.residual D.problem law x j = 0 :=
    Finset.sum_eq_zero fun i _ => by rw [hc i, mul_zero]
  rw [h0, sub_zero]
  simp only [PiLp.inner_apply, RCLike.inner_apply, conj_trivial]
  exact Finset.sum_congr rfl fun j _ => mul_comm _ _

end Verif.DWR
