import Verif.Spec.HeldShell
import Verif.Lemmas.JoinedShell
import Verif.Lemmas.LoadedShell
import Verif.Props.HyperShell

/-! # Helper lemmas: a shell held by weak boundary conditions -/

namespace Verif.HeldShell

open V3 Verif.Geometry Verif.Variation Verif.WeakForms Spec.HeldShell
open Verif.ShellSystem (Problem Law deformed VSmooth SSmooth fderiv_of_lines linear linear_plain' Constants)
open Verif.LoadedShell (ofEntries ofEntries_apply)
open Verif.JoinedShell (Edge disp disp_line disp_smooth surf_smooth surf_shift indep_near var2_smooth)
open Filter Topology

variable {J κ ι : Type} [Fintype J] {P : Problem J κ} {H : Holds J ι} {x : EuclideanSpace ℝ J}

/-- What the sides add to the residual. -/
noncomputable def hold (H : Holds J ι) (x : EuclideanSpace ℝ J) (j : J) : ℝ :=
  quad H.Q0 H.w0 (fun q => dirVec (H.a0 q) (H.μ0 q) (disp (H.u q) (H.u0 q) x) (H.g q) (H.u q j))
    + quad H.Q1 H.w1 (fun q => clampVec (H.a1 q) (H.μ1 q) (H.S.surf x q) (H.n0 q) (H.len q • H.out q)
        (H.S.field q j))

/-- What the sides add to the tangent. -/
noncomputable def holdEntry (H : Holds J ι) (x : EuclideanSpace ℝ J) (j j' : J) : ℝ :=
  quad H.Q0 H.w0 (fun q => dirMat (H.a0 q) (H.μ0 q) (H.u q j) (H.u q j'))
    + quad H.Q1 H.w1 (fun q => clampMat (H.a1 q) (H.μ1 q) (H.S.surf x q) (H.n0 q) (H.out q)
        (H.S.field q j) (H.S.field q j'))

/-- Minus the derivative of the clamping vector. -/
noncomputable def clampSlope (H : Holds J ι) (x : EuclideanSpace ℝ J) (j j' : J) (q : ι) : ℝ :=
  H.a1 q * (dot (var1 (H.S.surf x q) (H.S.field q j')) (H.len q • H.out q)
      * dot (var1 (H.S.surf x q) (H.S.field q j)) (H.n0 q)
    + (dot (normal (H.S.surf x q)) (H.len q • H.out q) - dot (H.n0 q) (H.len q • H.out q))
      * dot (var2 (H.S.surf x q) (H.S.field q j) (H.S.field q j')) (H.n0 q)) * H.μ1 q

/-- Minus the derivative of what the sides add to the residual. -/
noncomputable def holdSlope (H : Holds J ι) (x : EuclideanSpace ℝ J) (j j' : J) : ℝ :=
  quad H.Q0 H.w0 (fun q => dirMat (H.a0 q) (H.μ0 q) (H.u q j) (H.u q j')) + quad H.Q1 H.w1 (clampSlope H x j j')

theorem residual_split (law : Law κ) : residual P H law x = ShellSystem.residual P law x + WithLp.toLp 2 (hold H x) := by
  ext j
  exact add_assoc _ _ _

theorem entry_split (law : Law κ) (j j' : J) :
    entry P H law x j j' = ShellSystem.entry P law x j j' + holdEntry H x j j' := by
  rw [entry, holdEntry, add_assoc]

theorem add_entries (law : Law κ) (e : J → J → ℝ) :
    ofEntries (fun j j' => ShellSystem.entry P law x j j' + e j j') = ShellSystem.tangent P law x + ofEntries e := by
  ext v j
  rw [_root_.add_apply, PiLp.add_apply, ofEntries_apply, ofEntries_apply, ShellSystem.tangent_apply,
    ← Finset.sum_add_distrib]
  exact Finset.sum_congr rfl fun j' _ => by ring

theorem tangent_split (law : Law κ) :
    tangent P H law x = ShellSystem.tangent P law x + ofEntries (holdEntry H x) := by
  rw [tangent, ← add_entries]
  congr 1
  funext j j'
  exact entry_split law j j'

theorem hold_line [DecidableEq J] (hx : x ∈ Admissible P H) (j j' : J) :
    HasDerivAt (fun τ : ℝ => hold H (x + τ • EuclideanSpace.single j' (1 : ℝ)) j) (-holdSlope H x j j') 0 := by
  have h0 : HasDerivAt (fun τ : ℝ => quad H.Q0 H.w0 (fun q => dirVec (H.a0 q) (H.μ0 q)
      (fun i => disp (H.u q) (H.u0 q) x i + τ * H.u q j' i) (H.g q) (H.u q j)))
      (-quad H.Q0 H.w0 (fun q => dirMat (H.a0 q) (H.μ0 q) (H.u q j) (H.u q j'))) 0 :=
    C71_tangent_partial H.Q0 H.w0 H.a0 H.μ0 (fun q => disp (H.u q) (H.u0 q) x) H.g (fun q => H.u q j)
      fun q => H.u q j'
  have h1 := quad_hasDeriv H.Q1 H.w1 _ _ 0 fun q hq => C74_vector_partial (H.a1 q) (H.μ1 q) (H.S.surf x q)
    (hx.2 q hq) (H.n0 q) (H.len q • H.out q) (H.S.field q j) (H.S.field q j')
  refine ((h0.add h1).congr_deriv ?_).congr_of_eventuallyEq (Eventually.of_forall fun τ => ?_)
  · rw [quad_neg, holdSlope, neg_add]; rfl
  · simp only [hold, disp_line, surf_shift, Pi.add_apply]

theorem hold_smooth (hx : x ∈ Admissible P H) (j : J) : ContDiffAt ℝ 2 (fun y => hold H y j) x := by
  unfold hold quad
  refine (ContDiffAt.sum fun q _ => contDiffAt_const.mul ?_).add (ContDiffAt.sum fun q hq => contDiffAt_const.mul ?_)
  · unfold dirVec dotd
    exact (contDiffAt_const.mul ((ContDiffAt.sum fun i _ => contDiffAt_const.mul (disp_smooth (H.u q) (H.u0 q) x i)).sub
      contDiffAt_const)).mul contDiffAt_const
  · have hs := surf_smooth H.S x q
    exact ((contDiffAt_const.mul (((hs.normal (hx.2 q hq)).dot (VSmooth.const _)).sub contDiffAt_const)).mul
      ((hs.var1 (hx.2 q hq) _).dot (VSmooth.const _))).mul contDiffAt_const

theorem holdEntry_smooth (hx : x ∈ Admissible P H) (j j' : J) : ContDiffAt ℝ 2 (fun y => holdEntry H y j j') x := by
  unfold holdEntry quad
  refine contDiffAt_const.add (ContDiffAt.sum fun q hq => contDiffAt_const.mul ?_)
  have hs := surf_smooth H.S x q
  have h2 := var2_smooth hs (hx.2 q hq) (H.S.field q j) (H.S.field q j')
  have hv : ContDiffAt ℝ 2 (fun y => var2deriv2 (H.S.surf y q) (H.S.field q j) (H.S.field q j')
      (vec3 (H.out q).x (H.out q).y (H.out q).z)) x := by
    unfold var2deriv2 dotV
    refine ContDiffAt.sum fun k _ => contDiffAt_const.mul ?_
    rcases fin3_cases k with rfl | rfl | rfl
    · exact hs.d11.dot h2
    · exact hs.d22.dot h2
    · exact contDiffAt_const.mul (hs.d12.dot h2)
  exact (((contDiffAt_const.mul (((hs.normal (hx.2 q hq)).dot (VSmooth.const _)).sub contDiffAt_const)).mul hv).add
    (contDiffAt_const.mul (((hs.var1 (hx.2 q hq) _).dot (VSmooth.const _)).mul
      ((hs.var1 (hx.2 q hq) _).dot (VSmooth.const _))))).mul contDiffAt_const

theorem admissible_nhds (hx : x ∈ Admissible P H) : Admissible P H ∈ 𝓝 x := by
  have h : ∀ q ∈ H.Q1, ∀ᶠ y in 𝓝 x, Indep ((H.S.surf y q).a 0) ((H.S.surf y q).a 1) := fun q hq =>
    indep_near (surf_smooth H.S x q) (hx.2 q hq)
  filter_upwards [ShellSystem.admissible_nhds P hx.1, (Filter.eventually_all_finset H.Q1).2 h] with y h1 h2
  exact ⟨h1, h2⟩

theorem hold_vec_smooth (hx : x ∈ Admissible P H) :
    ContDiffAt ℝ 2 (fun y => (WithLp.toLp 2 (hold H y) : EuclideanSpace ℝ J)) x :=
  (contDiffAt_euclidean (𝕜 := ℝ)).2 fun j => hold_smooth hx j

theorem hold_deriv [DecidableEq J] (hx : x ∈ Admissible P H) :
    HasFDerivAt (fun y => (WithLp.toLp 2 (hold H y) : EuclideanSpace ℝ J)) (-ofEntries (holdSlope H x)) x := by
  refine fderiv_of_lines ((hold_vec_smooth hx).differentiableAt (by norm_num)) fun j' => ?_
  have h : ∀ j, HasDerivAt (fun τ : ℝ => hold H (x + τ • EuclideanSpace.single j' (1 : ℝ)) j)
      ((-ofEntries (holdSlope H x)) (EuclideanSpace.single j' 1) j) 0 := fun j => by
    refine (hold_line hx j j').congr_deriv ?_
    simp [ofEntries_apply, PiLp.single_apply]
  rw [hasDerivAt_iff_hasFDerivAt, ← hasFDerivWithinAt_univ, hasFDerivWithinAt_euclidean]
  intro j
  rw [hasFDerivWithinAt_univ]
  refine (h j).hasFDerivAt.congr_fderiv ?_
  ext; simp

/-- Minus the derivative of the residual. -/
noncomputable def slope (P : Problem J κ) (H : Holds J ι) (law : Law κ) (x : EuclideanSpace ℝ J) (j j' : J) : ℝ :=
  ShellSystem.entry P law x j j' + holdSlope H x j j'

variable (r : Integrate.Rule) (E ν t : κ → ℝ)

theorem residual_smooth (hx : x ∈ Admissible P H) : ContDiffAt ℝ 2 (residual P H (linear P r E ν t)) x := by
  have h := (ShellSystem.near P r E ν t hx.1).2.add (hold_vec_smooth hx)
  exact h.congr_of_eventuallyEq (Eventually.of_forall fun y => residual_split _)

theorem residual_deriv (hx : x ∈ Admissible P H) :
    HasFDerivAt (residual P H (linear P r E ν t)) (-ofEntries (slope P H (linear P r E ν t) x)) x := by
  classical
  have h := (ShellSystem.C149_tangent P r E ν t hx.1).1.add (hold_deriv hx)
  rw [← neg_add] at h
  have e : ofEntries (slope P H (linear P r E ν t) x)
      = ShellSystem.tangent P (linear P r E ν t) x + ofEntries (holdSlope H x) := add_entries _ _
  rw [e]
  exact h.congr_of_eventuallyEq (Eventually.of_forall fun y => residual_split _)

/-- The springs. -/
noncomputable def springs (H : Holds J ι) (x : EuclideanSpace ℝ J) : ℝ :=
  ∑ q ∈ H.Q0, H.w0 q * (H.a0 q / 2 * off H x q * H.μ0 q)

theorem springs_smooth (H : Holds J ι) (x : EuclideanSpace ℝ J) : ContDiffAt ℝ 2 (springs H) x := by
  unfold springs off
  exact ContDiffAt.sum fun q _ => contDiffAt_const.mul ((contDiffAt_const.mul (ContDiffAt.sum fun i _ =>
    ((disp_smooth (H.u q) (H.u0 q) x i).sub contDiffAt_const).pow 2)).mul contDiffAt_const)

/-- Work of the springs on the fields. -/
noncomputable def push (H : Holds J ι) (x : EuclideanSpace ℝ J) (j : J) : ℝ :=
  quad H.Q0 H.w0 (fun q => dirVec (H.a0 q) (H.μ0 q) (disp (H.u q) (H.u0 q) x) (H.g q) (H.u q j))

theorem springs_line [DecidableEq J] (H : Holds J ι) (x : EuclideanSpace ℝ J) (j : J) :
    HasDerivAt (fun τ : ℝ => springs H (x + τ • EuclideanSpace.single j (1 : ℝ))) (push H x j) 0 := by
  have h := quad_hasDeriv H.Q0 H.w0 _ _ 0 fun q _ => C71_energy_violated (H.a0 q) (H.μ0 q)
    (disp (H.u q) (H.u0 q) x) (H.g q) (H.u q j)
  refine h.congr_of_eventuallyEq (Eventually.of_forall fun τ => ?_)
  refine Finset.sum_congr rfl fun q _ => ?_
  have e : off H (x + τ • EuclideanSpace.single j (1 : ℝ)) q
      = ∑ i, (disp (H.u q) (H.u0 q) x i + τ * H.u q j i - H.g q i) ^ 2 := by
    refine Finset.sum_congr rfl fun i _ => ?_
    have := congrFun (disp_line (H.u q) (H.u0 q) x j τ) i
    rw [← this]; rfl
  rw [e]; rfl

theorem springs_gradient (H : Holds J ι) (x : EuclideanSpace ℝ J) :
    HasGradientAt (springs H) (WithLp.toLp 2 (push H x)) x := by
  classical
  show HasFDerivAt _ _ _
  refine fderiv_of_lines ((springs_smooth H x).differentiableAt (by norm_num)) fun j =>
    (springs_line H x j).congr_deriv ?_
  simp [InnerProductSpace.toDual_apply_apply, EuclideanSpace.inner_single_right]

theorem push_opposite (H : Holds J ι) (x : EuclideanSpace ℝ J) (j : J) : push (opposite H) x j = -push H x j := by
  unfold push
  rw [← quad_neg]
  refine Finset.sum_congr rfl fun q _ => ?_
  show H.w0 q * dirVec (-H.a0 q) (H.μ0 q) (disp (H.u q) (H.u0 q) x) (H.g q) (H.u q j)
    = H.w0 q * -dirVec (H.a0 q) (H.μ0 q) (disp (H.u q) (H.u0 q) x) (H.g q) (H.u q j)
  unfold dirVec; ring

end Verif.HeldShell
