import Verif.Spec.ClampNewton
import Verif.Lemmas.SlowNewton
import Verif.Props.HeldShell

/-! # Helper lemmas: Newton's method for a shell with clamped sides -/

namespace Verif.ClampNewton

open V3 Verif.Geometry Verif.Variation Verif.WeakForms Verif.HeldShell Spec.HeldShell Spec.ClampNewton
open Verif.ShellSystem (Problem Law linear linear_plain' VSmooth SSmooth fderiv_of_lines)
open Verif.LoadedShell (ofEntries ofEntries_apply)
open Verif.JoinedShell (Edge surf_smooth surf_shift surf_zero)
open RealInnerProductSpace Filter Topology

variable {J κ ι : Type} [Fintype J] {P : Problem J κ} {H : Holds J ι} (r : Integrate.Rule) (E ν t : κ → ℝ)

theorem inner_entries (e : J → J → ℝ) (u v : EuclideanSpace ℝ J) :
    ⟪ofEntries e u, v⟫ = ∑ j, ∑ j', v j * e j j' * u j' := by
  rw [PiLp.inner_apply]
  refine Finset.sum_congr rfl fun j _ => ?_
  show v j * (ofEntries e u j) = _
  rw [ofEntries_apply, Finset.mul_sum]
  exact Finset.sum_congr rfl fun j' _ => by ring

theorem symmetric_entries {e : J → J → ℝ} (h : ∀ j j', e j j' = e j' j) (u v : EuclideanSpace ℝ J) :
    ⟪ofEntries e u, v⟫ = ⟪u, ofEntries e v⟫ := by
  rw [inner_entries, real_inner_comm (ofEntries e v) u, inner_entries, Finset.sum_comm]
  exact Finset.sum_congr rfl fun j _ => Finset.sum_congr rfl fun j' _ => by rw [h j' j]; ring

theorem entries_add (e f : J → J → ℝ) : ofEntries (fun j j' => e j j' + f j j') = ofEntries e + ofEntries f := by
  ext v j
  rw [_root_.add_apply, PiLp.add_apply, ofEntries_apply, ofEntries_apply, ofEntries_apply, ← Finset.sum_add_distrib]
  exact Finset.sum_congr rfl fun j' _ => by ring

theorem entries_sum [DecidableEq J] (e : J → J → ℝ) : ofEntries e
    = ∑ j, ∑ j', e j j' • ofEntries (fun a b : J => if a = j ∧ b = j' then (1 : ℝ) else 0) := by
  ext v k
  simp only [_root_.sum_apply, _root_.smul_apply, WithLp.ofLp_sum, Finset.sum_apply, PiLp.smul_apply,
    ofEntries_apply, smul_eq_mul, ite_mul, one_mul, zero_mul, ite_and]
  symm
  rw [Finset.sum_eq_single k]
  · simp
  · intro j _ hj
    simp [hj.symm]
  · simp

/-! ## The clamping as a form -/

/-- Matrix of the clamped sides in the linear problem. -/
noncomputable def clampEntry {J ι : Type} (H : Holds J ι) (j j' : J) : ℝ :=
  quad H.Q1 H.w1 (fun q => clampMatLin (H.a1 q) (H.μ1 q) (H.S.ori q) (H.out q) (H.S.field q j) (H.S.field q j'))

omit [Fintype J] in
theorem linear_split (law : Law κ) (j j' : J) :
    linearEntry P H law j j' = linearEntry P (hinged H) law j j' + clampEntry H j j' := by
  have e : clampEntry (hinged H) j j' = 0 := by
    refine Finset.sum_eq_zero fun q _ => ?_
    simp [clampMatLin, hinged]
  have e2 : linearEntry P (hinged H) law j j' = ShellSystem.linearEntry P law j j'
      + quad H.Q0 H.w0 (fun q => dirMat (H.a0 q) (H.μ0 q) (H.u q j) (H.u q j')) + clampEntry (hinged H) j j' := rfl
  rw [e2, e, add_zero]; rfl

theorem operator_split (law : Law κ) :
    ofEntries (linearEntry P H law) = ofEntries (linearEntry P (hinged H) law) + ofEntries (clampEntry H) := by
  rw [← entries_add]
  congr 1
  funext j j'
  exact linear_split law j j'

omit [Fintype J] in
theorem clamp_symmetric (j j' : J) : clampEntry H j j' = clampEntry H j' j :=
  Finset.sum_congr rfl fun q _ => by simp only [clampMatLin]; ring

theorem clamp_rigid (c : ℝ) : ofEntries (clampEntry (rigid H c)) = c • ofEntries (clampEntry H) := by
  ext v j
  rw [_root_.smul_apply, PiLp.smul_apply, ofEntries_apply, ofEntries_apply, smul_eq_mul, Finset.mul_sum]
  refine Finset.sum_congr rfl fun j' _ => ?_
  have : clampEntry (rigid H c) j j' = c * clampEntry H j j' := by
    unfold clampEntry quad
    rw [Finset.mul_sum]
    refine Finset.sum_congr rfl fun q _ => ?_
    show H.w1 q * clampMatLin (c * H.a1 q) (H.μ1 q) (H.S.ori q) (H.out q) (H.S.field q j) (H.S.field q j') = _
    simp only [clampMatLin]; ring
  rw [this]; ring

variable (P) in
theorem turning_eq (h : AtRest P H) (hx : (0 : EuclideanSpace ℝ J) ∈ Spec.HeldShell.Admissible P H) {q : ι} (hq : q ∈ H.Q1)
    (v : EuclideanSpace ℝ J) :
    turning H q v = ∑ j, v j * dot (var1 (H.S.ori q) (H.S.field q j)) (H.out q) := by
  classical
  have hi := hx.2 q hq
  have hout : Spec.JoinedShell.outer H.S q (H.S.ori q) = H.out q := rfl
  have hsm : ContDiffAt ℝ 2 (fun y => tilt H q (H.S.surf y q)) 0 :=
    (((surf_smooth H.S 0 q).normal hi).dot (VSmooth.const _)).sub contDiffAt_const
  let L : EuclideanSpace ℝ J →L[ℝ] ℝ :=
    LinearMap.toContinuousLinearMap { toFun := fun v => ∑ j, v j * dot (var1 (H.S.ori q) (H.S.field q j)) (H.out q)
                                      map_add' := fun u w => by
                                        rw [← Finset.sum_add_distrib]
                                        exact Finset.sum_congr rfl fun j _ => by rw [PiLp.add_apply]; ring
                                      map_smul' := fun a u => by
                                        simp only [RingHom.id_apply, smul_eq_mul]
                                        rw [Finset.mul_sum]
                                        exact Finset.sum_congr rfl fun j _ => by rw [PiLp.smul_apply, smul_eq_mul]; ring }
  have hL : HasFDerivAt (fun y => tilt H q (H.S.surf y q)) L 0 := by
    refine fderiv_of_lines (hsm.differentiableAt (by norm_num)) fun j => ?_
    have e1 : L (EuclideanSpace.single j 1) = dot (var1 (H.S.ori q) (H.S.field q j)) (H.out q) := by
      show ∑ i, (EuclideanSpace.single j (1 : ℝ)) i * _ = _
      simp [PiLp.single_apply]
    rw [e1]
    have hi' := hi
    rw [rest_surf h] at hi'
    have h2 := ((hasVDeriv_normal (H.S.ori q) (H.S.field q j) hi').dot_const (H.out q)).sub_const
      (dot (normal (H.S.ori q)) (H.out q))
    refine h2.congr_of_eventuallyEq (Eventually.of_forall fun τ => ?_)
    show tilt H q (H.S.surf (0 + τ • EuclideanSpace.single j (1 : ℝ)) q) = _
    rw [surf_shift, rest_surf h]
    rfl
  rw [turning, hL.fderiv]; rfl

variable (P) in
/-- The form of the clamped sides: work of the torsion springs when the sides turn. -/
theorem clamp_form (h : AtRest P H) (hx : (0 : EuclideanSpace ℝ J) ∈ Spec.HeldShell.Admissible P H)
    (v : EuclideanSpace ℝ J) :
    ⟪ofEntries (clampEntry H) v, v⟫ = ∑ q ∈ H.Q1, H.w1 q * (H.a1 q * turning H q v ^ 2 * H.μ1 q) := by
  rw [inner_entries]
  have e : ∀ j j', v j * clampEntry H j j' * v j' = ∑ q ∈ H.Q1, H.w1 q * (H.a1 q * (v j *
      dot (var1 (H.S.ori q) (H.S.field q j)) (H.out q) * (v j' * dot (var1 (H.S.ori q) (H.S.field q j')) (H.out q))) * H.μ1 q) := by
    intro j j'
    unfold clampEntry quad clampMatLin
    rw [Finset.mul_sum, Finset.sum_mul]
    exact Finset.sum_congr rfl fun q _ => by ring
  simp only [e]
  rw [Finset.sum_congr rfl fun j _ => Finset.sum_comm, Finset.sum_comm]
  refine Finset.sum_congr rfl fun q hq => ?_
  rw [turning_eq P h hx hq, sq, Finset.sum_mul_sum, Finset.mul_sum, Finset.sum_mul, Finset.mul_sum]
  refine Finset.sum_congr rfl fun j _ => ?_
  rw [Finset.mul_sum, Finset.sum_mul, Finset.mul_sum]

variable (P) in
theorem clamp_nonneg (hf : Factors H) (h : AtRest P H) (hx : (0 : EuclideanSpace ℝ J) ∈ Spec.HeldShell.Admissible P H)
    (v : EuclideanSpace ℝ J) : 0 ≤ ⟪ofEntries (clampEntry H) v, v⟫ := by
  rw [clamp_form P h hx]
  refine Finset.sum_nonneg fun q hq => ?_
  obtain ⟨h1, h2, h3⟩ := hf q hq
  exact mul_nonneg h1 (mul_nonneg (mul_nonneg h2 (sq_nonneg _)) h3)

theorem hinged_symmetric (h : AtRest P H) (hx : (0 : EuclideanSpace ℝ J) ∈ Spec.HeldShell.Admissible P H) (j j' : J) :
    linearEntry P (hinged H) (linear P r E ν t) j j' = linearEntry P (hinged H) (linear P r E ν t) j' j := by
  have h1 : ∀ j j', ShellSystem.linearEntry P (linear P r E ν t) j j' = ShellSystem.linearEntry P (linear P r E ν t) j' j := by
    intro j j'
    rw [← (ShellSystem.C149_linear P r E ν t h.shell j j').2, ← (ShellSystem.C149_linear P r E ν t h.shell j' j).2]
    exact (ShellSystem.C149_tangent P r E ν t hx.1).2.1 j j'
  unfold linearEntry
  rw [h1 j j']
  congr 1
  · congr 1
    exact Finset.sum_congr rfl fun q _ => by
      simp only [dirMat, dotd, mul_comm]
  · exact clamp_symmetric (H := hinged H) j j'

/-! ## Near the undeformed state -/

theorem tangent_smooth (hx : (0 : EuclideanSpace ℝ J) ∈ Spec.HeldShell.Admissible P H) :
    ContDiffAt ℝ 1 (tangent P H (linear P r E ν t)) 0 := by
  have h1 : ContDiffAt ℝ 1 (ShellSystem.tangent P (linear P r E ν t)) 0 := by
    obtain ⟨n1, n2⟩ := ShellSystem.near P r E ν t hx.1
    have := (n2.fderiv_right (m := 1) (by norm_num)).neg
    refine this.congr_of_eventuallyEq ?_
    filter_upwards [n1] with y hy
    rw [hy.fderiv, neg_neg]
  have h2 : ContDiffAt ℝ 1 (fun y => ofEntries (holdEntry H y)) 0 := by
    classical
    have e : (fun y => ofEntries (holdEntry H y)) = fun y => ∑ j, ∑ j', holdEntry H y j j' •
        ofEntries (fun a b : J => if a = j ∧ b = j' then (1 : ℝ) else 0) := by
      funext y
      exact entries_sum _
    rw [e]
    exact ContDiffAt.sum fun j _ => ContDiffAt.sum fun j' _ =>
      ((holdEntry_smooth hx j j').of_le (by norm_num)).smul contDiffAt_const
  exact (h1.add h2).congr_of_eventuallyEq (Eventually.of_forall fun y => tangent_split _)

theorem tangent_rest (h : AtRest P H) :
    tangent P H (linear P r E ν t) 0 = ofEntries (linearEntry P H (linear P r E ν t)) := by
  rw [tangent]
  congr 1
  funext j j'
  exact (C158_linear P H r E ν t h j j').2

/-- The residual without load. -/
noncomputable def bare (P : Problem J κ) (H : Holds J ι) (r : Integrate.Rule) (E ν t : κ → ℝ) :
    EuclideanSpace ℝ J → EuclideanSpace ℝ J := residual (P.scale 0) (H.scale 0) (linear P r E ν t)

theorem bare_zero (h : AtRest P H) : bare P H r E ν t 0 = 0 := by
  ext j
  refine Eq.trans (C158_linear (P.scale 0) (H.scale 0) r E ν t ⟨h.shell, h.side, h.place⟩ j j).1 ?_
  rw [scaled_rhs, zero_mul]; rfl

/-- Everything that is used of the shell near the undeformed state. -/
theorem near (h : AtRest P H) (hx : (0 : EuclideanSpace ℝ J) ∈ Spec.HeldShell.Admissible P H) (hf : Factors H)
    (hs : Stable P H (linear P r E ν t)) :
    ∃ L ρ k, SlowNewton.Near (bare P H r E ν t) (tangent P H (linear P r E ν t))
      (ofEntries (linearEntry P (hinged H) (linear P r E ν t))) L ρ k := by
  have h' : AtRest (P.scale 0) (H.scale 0) := ⟨h.shell, h.side, h.place⟩
  have hx' : (0 : EuclideanSpace ℝ J) ∈ Spec.HeldShell.Admissible (P.scale 0) (H.scale 0) := hx
  have h1 := SlowNewton.near_of (R := bare P H r E ν t) (T := tangent P H (linear P r E ν t))
    (D := fun x => ofEntries (slope (P.scale 0) (H.scale 0) (linear P r E ν t) x))
    (residual_smooth (P := P.scale 0) (H := H.scale 0) r E ν t hx')
    (Filter.mem_of_superset (admissible_nhds hx') fun y hy => residual_deriv (P := P.scale 0) (H := H.scale 0) r E ν t hy)
    (tangent_smooth r E ν t hx) (fun v hv => by
      rw [tangent_rest r E ν t h, operator_split, _root_.add_apply, inner_add_left, inner_entries]
      linarith [hs v hv, clamp_nonneg P hf h hx v])
  have e : slope (P.scale 0) (H.scale 0) (linear P r E ν t) 0 = linearEntry P (hinged H) (linear P r E ν t) :=
    slope_rest (P := P.scale 0) (H := H.scale 0) r E ν t h' hx'
  beta_reduce at h1
  rw [e] at h1
  exact h1

end Verif.ClampNewton
