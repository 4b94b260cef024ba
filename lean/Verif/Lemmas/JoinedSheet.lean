import Verif.Spec.JoinedSheet
import Verif.Lemmas.PlanarSystem
import Verif.Lemmas.HyperShell
import Verif.Lemmas.LoadedShell
import Verif.Lemmas.Repel
import Verif.Props.WeakForms

/-! # Helper lemmas: planar patches with weak interfaces and weak Dirichlet sides -/

namespace Verif.JoinedSheet

open Verif.Geometry Verif.Planar Verif.WeakForms Verif.Integrate
open Spec.JoinedSheet Spec.ShellTangent Spec.Hyper
open Verif.PlanarSystem (Problem Elastic Sheet)
open Verif.LoadedShell (ofEntries ofEntries_apply)
open Verif.Hyper (up)
open Filter Topology RealInnerProductSpace

/-! ## The linear material -/

theorem down_up (i : Fin 2) : down (up i) = i := by
  rcases fin2_cases i with rfl | rfl <;> simp [down]

theorem metric_data {A : T2} (hA : det2 A ≠ 0) (C : T2) : metric (Hyper.data A C) = A := by
  have e : (fun i j => (Hyper.data A C).Gori (up i) (up j)) = inv2 A := by
    funext i j; simp only [Hyper.data, Hyper.embed_up]
  rw [metric, e]
  have hd : A 0 0 * A 1 1 - A 0 1 * A 1 0 ≠ 0 := hA
  have hd2 : det2 (inv2 A) = 1 / det2 A := by
    simp [det2, inv2]; field_simp
  funext i j
  rcases fin2_cases i with rfl | rfl <;> rcases fin2_cases j with rfl | rfl <;>
    (simp only [inv2] at hd2 ⊢; simp [hd2]; field_simp)

theorem plain_stress (E ν : ℝ) {A : T2} (hA : det2 A ≠ 0) (C : T2) (i j : Fin 2) :
    (plain E ν).stress (Hyper.data A C) (up i) (up j)
      = Linear.Sij E ν A (fun a b => 0.5 * (C a b - A a b)) i j := by
  simp only [plain, metric_data hA, down_up]
  simp only [Hyper.data, Hyper.embed_up]

theorem plain_elastic (E ν : ℝ) {A : T2} (hA : det2 A ≠ 0) (hs : A 0 1 = A 1 0) :
    Elastic (plain E ν) (energyPlain (Linear.Cconst E ν) (Linear.mu E ν)) A where
  symm C _ _ := by
    have hsy : ∀ i j, A i j = A j i := fun i j => by
      rcases fin2_cases i with rfl | rfl <;> rcases fin2_cases j with rfl | rfl <;> first | rfl | exact hs | exact hs.symm
    intro i j k l
    simp only [plain, metric_data hA, Linear.Cval]
    refine ⟨?_, ?_, ?_⟩
    · rw [hsy (down i) (down j)]; ring
    · rw [hsy (down k) (down l)]; ring
    · rw [hsy (down i) (down k), hsy (down j) (down l), hsy (down i) (down l), hsy (down j) (down k)]; ring
  tangent C _ _ := by
    rintro C' H hc rfl i j
    have h : ∀ a b, HasDerivAt (fun τ => 0.5 * (C' τ a b - A a b)) (0.5 * H a b) 0 := fun a b =>
      ((hc.deriv a b).sub_const _).const_mul _
    have h2 := ((((h 0 0).const_mul (Linear.Cval E ν A i j 0 0)).add ((h 0 1).const_mul (Linear.Cval E ν A i j 0 1))).add
      ((h 1 0).const_mul (Linear.Cval E ν A i j 1 0))).add ((h 1 1).const_mul (Linear.Cval E ν A i j 1 1))
    refine (h2.congr_of_eventuallyEq (Eventually.of_forall fun τ => ?_)).congr_deriv ?_
    · simp only [plain_stress E ν hA, Linear.Sij, Pi.add_apply]
    · simp only [contract, plain, metric_data hA, down_up, Fin.sum_univ_two]
      ring
  stress C hC _ := by
    rintro C' H hc rfl
    have h : ∀ a b, HasDerivAt (fun τ => (C' τ a b - A a b) / 2) (H a b / 2) 0 := fun a b =>
      ((hc.deriv a b).sub_const _).div_const _
    have h1 : HasDerivAt (fun τ => ∑ i, ∑ j, A i j * ((C' τ i j - A i j) / 2)) (∑ i, ∑ j, A i j * (H i j / 2)) 0 :=
      HasDerivAt.fun_sum fun i _ => HasDerivAt.fun_sum fun j _ => (h i j).const_mul _
    have h2 : HasDerivAt (fun τ => ∑ i, ∑ j, ∑ k, ∑ l, A i k * A j l * ((C' τ i j - A i j) / 2) * ((C' τ k l - A k l) / 2))
        (∑ i, ∑ j, ∑ k, ∑ l, (A i k * A j l * (H i j / 2) * ((C' 0 k l - A k l) / 2)
          + A i k * A j l * ((C' 0 i j - A i j) / 2) * (H k l / 2))) 0 :=
      HasDerivAt.fun_sum fun i _ => HasDerivAt.fun_sum fun j _ => HasDerivAt.fun_sum fun k _ =>
        HasDerivAt.fun_sum fun l _ => ((h i j).const_mul _).mul (h k l)
    have h3 := (((h1.pow 2).const_mul (Linear.Cconst E ν)).add (h2.const_mul (2 * Linear.mu E ν))).const_mul (1 / 2)
    refine (h3.congr_of_eventuallyEq (Eventually.of_forall fun τ => ?_)).congr_deriv ?_
    · simp only [energyPlain, Pi.add_apply, Pi.pow_apply]
    · have hC' : C' 0 1 0 = C' 0 0 1 := hc.symm.symm
      have hH : H 1 0 = H 0 1 := hc.symmH.symm
      simp only [plain_stress E ν hA, Linear.Sij, Linear.Cval, Fin.sum_univ_two, hC', hH, ← hs]
      push_cast
      ring
  sym C hC := by
    simp only [plain, metric_data hA, down]
    simp only [Linear.Sij, Linear.Cval, hs]
    norm_num [hs]
    simp only [Hyper.data]
    show _ * (_ * (embed C 0 0 - _)) + _ * (_ * (embed C 0 1 - _)) + _ * (_ * (embed C 1 0 - _)) + _ = _ * (_ * (embed C 0 0 - _)) + _ * (_ * (embed C 0 1 - _)) + _ * (_ * (embed C 1 0 - _)) + _
    ring
  smooth C x h _ := by
    refine ⟨fun i j => ?_, ?_⟩
    · simp only [plain_stress E ν hA, Linear.Sij]
      have h2 : ∀ a b, ContDiffAt ℝ 2 (fun y => 0.5 * (C y a b - A a b)) x := fun a b =>
        contDiffAt_const.mul ((h a b).sub contDiffAt_const)
      exact (((contDiffAt_const.mul (h2 0 0)).add (contDiffAt_const.mul (h2 0 1))).add
        (contDiffAt_const.mul (h2 1 0))).add (contDiffAt_const.mul (h2 1 1))
    · have h2 : ∀ a b, ContDiffAt ℝ 2 (fun y => (C y a b - A a b) / 2) x := fun a b =>
        ((h a b).sub contDiffAt_const).div_const _
      exact contDiffAt_const.mul ((contDiffAt_const.mul ((ContDiffAt.sum fun i _ => ContDiffAt.sum fun j _ =>
        contDiffAt_const.mul (h2 i j)).pow 2)).add (contDiffAt_const.mul (ContDiffAt.sum fun i _ => ContDiffAt.sum fun j _ =>
          ContDiffAt.sum fun k _ => ContDiffAt.sum fun l _ => (contDiffAt_const.mul (h2 i j)).mul (h2 k l))))

/-- The forces of this material are those of the planar code. -/
theorem plain_resultant (E ν : ℝ) (r : Rule) (t : ℝ) {Jo K : Jac} (hJ : Planar.jdet Jo ≠ 0) (hK : Planar.jdet K ≠ 0) (k : Fin 3) :
    resultant (plain E ν) r t 0 Jo K k = integrateZ r t 0 fun _ => linStress E ν Jo K k := by
  rw [PlanarSystem.resultant_eq _ r t hJ hK, PlanarSystem.integrate_const]
  have h := plain_stress E ν (PlanarSystem.det_ne hJ) (AcovPlanar K)
  congr 1
  rcases fin3_cases k with rfl | rfl | rfl
  · exact h 0 0
  · exact h 1 1
  · exact h 0 1

/-- The moduli of this material are those of the planar code. -/
theorem plain_modulus (E ν : ℝ) (r : Rule) (t : ℝ) {Jo K : Jac} (hJ : Planar.jdet Jo ≠ 0) (hK : Planar.jdet K ≠ 0) (k l : Fin 3) :
    modulus (plain E ν) r t 0 Jo K k l = integrateZ r t 0 fun _ => linMatrix E ν Jo k l := by
  rw [PlanarSystem.modulus_eq _ r t hJ hK, PlanarSystem.integrate_const]
  congr 1
  rcases fin3_cases k with rfl | rfl | rfl <;> rcases fin3_cases l with rfl | rfl | rfl <;>
    simp [Hyper.fillMatrix, linMatrix, Linear.matrix, plain, metric_data (PlanarSystem.det_ne hJ), storedAconPlanar, down]

/-! ## Sides and interfaces -/

variable {J κ ι : Type} [Fintype J] {P : Problem J κ} {G : Joins J ι} {M : κ → Material} {ψ : κ → T2 → T2 → ℝ}
  {r : Rule} {x : EuclideanSpace ℝ J}

theorem disp_line [DecidableEq J] (u : J → Vd 2) (g : Vd 2) (x : EuclideanSpace ℝ J) (j : J) (τ : ℝ) :
    disp u g (x + τ • EuclideanSpace.single j (1 : ℝ)) = fun i => disp u g x i + τ * u j i := by
  funext i
  simp [disp, add_mul, Finset.sum_add_distrib, PiLp.single_apply, add_assoc]

theorem disp_smooth (u : J → Vd 2) (g : Vd 2) (x : EuclideanSpace ℝ J) (i : Fin 2) :
    ContDiffAt ℝ 2 (fun y => disp u g y i) x := by
  unfold disp
  exact contDiffAt_const.add (ContDiffAt.sum fun j _ => (ShellSystem.coord_smooth j x).mul contDiffAt_const)

/-- What sides and interfaces add to the residual. -/
noncomputable def hold (G : Joins J ι) (x : EuclideanSpace ℝ J) (j : J) : ℝ :=
  quad G.Qd G.wd (fun q => dirVec (G.opt * G.m q) (G.μd q) (disp (G.u q) (G.u0 q) x) (G.g q) (G.u q j))
    + quad G.Q0 G.w0 (fun q => c0Vec2 (G.a0 q) (G.μ0 q) (disp (G.uL q) (G.gL q) x) (disp (G.uR q) (G.gR q) x)
        (G.uL q j) (G.uR q j))

/-- What the sides add to the tangent. -/
noncomputable def sideEntry {J ι : Type} (G : Joins J ι) (j j' : J) : ℝ :=
  quad G.Qd G.wd (fun q => dirMat (G.opt * G.m q) (G.μd q) (G.u q j) (G.u q j'))

/-- What the interfaces add to the tangent. -/
noncomputable def jointEntry {J ι : Type} (G : Joins J ι) (j j' : J) : ℝ :=
  quad G.Q0 G.w0 (fun q => c0Mat (G.a0 q) (G.μ0 q) (G.uL q j) (G.uR q j) (G.uL q j') (G.uR q j'))

theorem residual_split : residual P G M r x = PlanarSystem.residual P M r x + WithLp.toLp 2 (hold G x) := by
  ext j
  exact add_assoc _ _ _

theorem ofEntries_add (e e' : J → J → ℝ) : ofEntries (fun j j' => e j j' + e' j j') = ofEntries e + ofEntries e' := by
  ext v j
  rw [_root_.add_apply, PiLp.add_apply, ofEntries_apply, ofEntries_apply, ofEntries_apply, ← Finset.sum_add_distrib]
  exact Finset.sum_congr rfl fun j' _ => by ring

theorem tangent_split : tangent P G M r x
    = PlanarSystem.tangent P M r x + ofEntries (sideEntry G) + ofEntries (jointEntry G) := by
  have h : PlanarSystem.tangent P M r x = ofEntries (PlanarSystem.entry P M r x) := rfl
  rw [h, ← ofEntries_add, ← ofEntries_add]
  rfl

theorem jointEntry_apart {J ι : Type} (G : Joins J ι) (j j' : J) : jointEntry (apart G) j j' = -jointEntry G j j' := by
  simp only [jointEntry, ← quad_neg, apart]
  exact Finset.sum_congr rfl fun q _ => by simp only [c0Mat]; ring

theorem sideEntry_apart {J ι : Type} (G : Joins J ι) (j j' : J) : sideEntry (apart G) j j' = sideEntry G j j' := rfl

theorem tangent_apart : tangent P (apart G) M r x
    = PlanarSystem.tangent P M r x + ofEntries (sideEntry G) - ofEntries (jointEntry G) := by
  rw [tangent_split]
  have h : ofEntries (jointEntry (apart G)) = -ofEntries (jointEntry G) := by
    ext v j
    rw [_root_.neg_apply, PiLp.neg_apply, ofEntries_apply, ofEntries_apply, ← Finset.sum_neg_distrib]
    exact Finset.sum_congr rfl fun j' _ => by rw [jointEntry_apart]; ring
  rw [h, sub_eq_add_neg]
  rfl

theorem hold_line [DecidableEq J] (j j' : J) :
    HasDerivAt (fun τ : ℝ => hold G (x + τ • EuclideanSpace.single j' (1 : ℝ)) j)
      (-(sideEntry G j j' + jointEntry (apart G) j j')) 0 := by
  have h0 : HasDerivAt (fun τ : ℝ => quad G.Qd G.wd (fun q => dirVec (G.opt * G.m q) (G.μd q)
      (fun i => disp (G.u q) (G.u0 q) x i + τ * G.u q j' i) (G.g q) (G.u q j)))
      (-quad G.Qd G.wd (fun q => dirMat (G.opt * G.m q) (G.μd q) (G.u q j) (G.u q j'))) 0 :=
    C71_tangent_partial G.Qd G.wd (fun q => G.opt * G.m q) G.μd (fun q => disp (G.u q) (G.u0 q) x) G.g (fun q => G.u q j)
      fun q => G.u q j'
  have h1 := quad_hasDeriv G.Q0 G.w0 (fun q (τ : ℝ) => c0Vec2 (G.a0 q) (G.μ0 q)
      (fun i => disp (G.uL q) (G.gL q) x i + τ * G.uL q j' i) (fun i => disp (G.uR q) (G.gR q) x i + τ * G.uR q j' i)
      (G.uL q j) (G.uR q j)) (fun q => c0Mat (G.a0 q) (G.μ0 q) (G.uL q j) (G.uR q j) (G.uL q j') (G.uR q j')) 0
    fun q _ => by
      have k1 := (dotd_line (G.uL q j) (disp (G.uL q) (G.gL q) x) (G.uL q j')).sub
        (dotd_line (G.uL q j) (disp (G.uR q) (G.gR q) x) (G.uR q j'))
      have k2 := (dotd_line (G.uR q j) (disp (G.uL q) (G.gL q) x) (G.uL q j')).sub
        (dotd_line (G.uR q j) (disp (G.uR q) (G.gR q) x) (G.uR q j'))
      have h := ((k1.const_mul (G.a0 q)).mul_const (G.μ0 q)).add ((k2.const_mul (-G.a0 q)).mul_const (G.μ0 q))
      refine (h.congr_deriv ?_).congr_of_eventuallyEq (Eventually.of_forall fun t => ?_)
      · unfold c0Mat; ring
      · simp only [c0Vec2, dotd_sub, Pi.add_apply, Pi.sub_apply]
  refine ((h0.add h1).congr_deriv ?_).congr_of_eventuallyEq (Eventually.of_forall fun τ => ?_)
  · rw [jointEntry_apart, neg_add, neg_neg]; rfl
  · simp only [hold, disp_line, Pi.add_apply]

theorem hold_smooth (j : J) : ContDiffAt ℝ 2 (fun y => hold G y j) x := by
  unfold hold quad
  refine (ContDiffAt.sum fun q _ => contDiffAt_const.mul ?_).add (ContDiffAt.sum fun q _ => contDiffAt_const.mul ?_)
  · unfold dirVec dotd
    exact (contDiffAt_const.mul ((ContDiffAt.sum fun i _ => contDiffAt_const.mul (disp_smooth (G.u q) (G.u0 q) x i)).sub
      contDiffAt_const)).mul contDiffAt_const
  · unfold c0Vec2
    have h : ∀ v : Vd 2, ContDiffAt ℝ 2 (fun y => dotd v fun i => disp (G.uL q) (G.gL q) y i - disp (G.uR q) (G.gR q) y i) x :=
      fun v => by
        unfold dotd
        exact ContDiffAt.sum fun i _ => contDiffAt_const.mul
          ((disp_smooth (G.uL q) (G.gL q) x i).sub (disp_smooth (G.uR q) (G.gR q) x i))
    exact ((contDiffAt_const.mul (h _)).mul contDiffAt_const).add ((contDiffAt_const.mul (h _)).mul contDiffAt_const)

theorem hold_vec_smooth : ContDiffAt ℝ 2 (fun y => (WithLp.toLp 2 (hold G y) : EuclideanSpace ℝ J)) x :=
  (contDiffAt_euclidean (𝕜 := ℝ)).2 fun j => hold_smooth j

theorem hold_deriv : HasFDerivAt (fun y => (WithLp.toLp 2 (hold G y) : EuclideanSpace ℝ J))
    (-(ofEntries (sideEntry G) - ofEntries (jointEntry G))) x := by
  classical
  refine ShellSystem.fderiv_of_lines (hold_vec_smooth.differentiableAt (by norm_num)) fun j' => ?_
  have h : ∀ j, HasDerivAt (fun τ : ℝ => hold G (x + τ • EuclideanSpace.single j' (1 : ℝ)) j)
      ((-(ofEntries (sideEntry G) - ofEntries (jointEntry G))) (EuclideanSpace.single j' 1) j) 0 := fun j => by
    refine (hold_line j j').congr_deriv ?_
    rw [_root_.neg_apply, PiLp.neg_apply, _root_.sub_apply, PiLp.sub_apply, LoadedShell.ofEntries_single,
      LoadedShell.ofEntries_single, jointEntry_apart]
    ring
  rw [hasDerivAt_iff_hasFDerivAt, ← hasFDerivWithinAt_univ, hasFDerivWithinAt_euclidean]
  intro j
  rw [hasFDerivWithinAt_univ]
  refine (h j).hasFDerivAt.congr_fderiv ?_
  ext; simp

theorem residual_smooth (hS : Sheet P M ψ) (hx : x ∈ Spec.PlanarSystem.Admissible P) :
    ContDiffAt ℝ 2 (residual P G M r) x :=
  ((PlanarSystem.residual_smooth hS hx).add hold_vec_smooth).congr_of_eventuallyEq
    (Eventually.of_forall fun _ => residual_split)

/-- The derivative of the residual is minus the tangent with the interfaces pushing. -/
theorem residual_deriv (hS : Sheet P M ψ) (hx : x ∈ Spec.PlanarSystem.Admissible P) :
    HasFDerivAt (residual P G M r) (-tangent P (apart G) M r x) x := by
  classical
  have h := (PlanarSystem.residual_deriv (r := r) hS hx).add (hold_deriv (G := G) (x := x))
  rw [← neg_add] at h
  rw [tangent_apart, add_sub_assoc]
  exact h.congr_of_eventuallyEq (Eventually.of_forall fun _ => residual_split)

theorem tangent_smooth (hS : Sheet P M ψ) (hx : x ∈ Spec.PlanarSystem.Admissible P) :
    ContDiffAt ℝ 1 (tangent P G M r) x := by
  classical
  have h1 : ContDiffAt ℝ 1 (fderiv ℝ (PlanarSystem.residual P M r)) x :=
    (PlanarSystem.residual_smooth (r := r) hS hx).fderiv_right (by norm_num)
  have h2 : ContDiffAt ℝ 1 (fun y => PlanarSystem.tangent P M r y) x := by
    refine h1.neg.congr_of_eventuallyEq ?_
    filter_upwards [PlanarSystem.admissible_nhds P hx] with y hy
    rw [(PlanarSystem.residual_deriv (r := r) hS hy).fderiv, neg_neg]
  exact ((h2.add contDiffAt_const).add contDiffAt_const).congr_of_eventuallyEq
    (Eventually.of_forall fun _ => tangent_split)

theorem near (hS : Sheet P M ψ) (hx : x ∈ Spec.PlanarSystem.Admissible P) :
    ∀ᶠ y in 𝓝 x, HasFDerivAt (residual P G M r) (-tangent P (apart G) M r y) y :=
  Filter.mem_of_superset (PlanarSystem.admissible_nhds P hx) fun _ hy => residual_deriv hS hy

/-! ## Forms -/

theorem inner_ofEntries (e : J → J → ℝ) (u v : EuclideanSpace ℝ J) :
    ⟪ofEntries e u, v⟫ = ∑ j, ∑ j', v j * e j j' * u j' := by
  simp only [PiLp.inner_apply, ofEntries_apply, RCLike.inner_apply, conj_trivial, Finset.mul_sum]
  exact Finset.sum_congr rfl fun j _ => Finset.sum_congr rfl fun j' _ => by ring

theorem symm_ofEntries {e : J → J → ℝ} (h : ∀ j j', e j j' = e j' j) (u v : EuclideanSpace ℝ J) :
    ⟪ofEntries e u, v⟫ = ⟪u, ofEntries e v⟫ := by
  rw [real_inner_comm (ofEntries e v) u, inner_ofEntries, inner_ofEntries, Finset.sum_comm]
  exact Finset.sum_congr rfl fun j _ => Finset.sum_congr rfl fun j' _ => by rw [h j' j]; ring

theorem jointEntry_symm {J ι : Type} (G : Joins J ι) (j j' : J) : jointEntry G j j' = jointEntry G j' j := by
  refine Finset.sum_congr rfl fun q _ => ?_
  simp only [c0Mat, dotd, Fin.sum_univ_two]; ring

theorem sideEntry_symm {J ι : Type} (G : Joins J ι) (j j' : J) : sideEntry G j j' = sideEntry G j' j := by
  refine Finset.sum_congr rfl fun q _ => ?_
  simp only [dirMat, dotd, Fin.sum_univ_two]; ring

theorem entry_symm (hS : Sheet P M ψ) (hx : x ∈ Spec.PlanarSystem.Admissible P) (j j' : J) :
    PlanarSystem.entry P M r x j j' = PlanarSystem.entry P M r x j' j := by
  refine Finset.sum_congr rfl fun q hq => ?_
  congr 1
  refine PlanarSystem.stiffness_symm _ _ _ _ (fun i k => ?_) _
  have hJ : Planar.jdet (P.ori q) ≠ 0 := hS.ori q hq
  have hK : Planar.jdet (PlanarSystem.deformed P x q) ≠ 0 := hx q hq
  rw [PlanarSystem.moduli, PlanarSystem.modulus_eq _ r _ hJ hK, PlanarSystem.modulus_eq _ r _ hJ hK]
  rcases fin3_cases i with rfl | rfl | rfl <;> rcases fin3_cases k with rfl | rfl | rfl <;> simp [Hyper.fillMatrix]

/-- The form of products is the sum of squares. -/
theorem form_sq (f : J → Vd 2) (v : J → ℝ) : ∑ j, ∑ j', v j * dotd (f j) (f j') * v j' = ∑ i, (∑ j, v j * f j i) ^ 2 := by
  simp only [dotd, sq, Finset.mul_sum, Finset.sum_mul]
  rw [Finset.sum_congr rfl fun j _ => Finset.sum_comm, Finset.sum_comm]
  exact Finset.sum_congr rfl fun i _ => Finset.sum_congr rfl fun j _ => Finset.sum_congr rfl fun j' _ => by ring

theorem joint_form (G : Joins J ι) (v : J → ℝ) : ∑ j, ∑ j', v j * jointEntry G j j' * v j' = joint G v := by
  simp only [jointEntry, quad, Finset.mul_sum, Finset.sum_mul]
  rw [Finset.sum_congr rfl fun j _ => Finset.sum_comm, Finset.sum_comm]
  refine Finset.sum_congr rfl fun q _ => ?_
  rw [← form_sq (fun j i => G.uL q j i - G.uR q j i)]
  simp only [Finset.mul_sum, Finset.sum_mul]
  refine Finset.sum_congr rfl fun j _ => Finset.sum_congr rfl fun j' _ => ?_
  simp only [c0Mat, dotd, Fin.sum_univ_two]; ring

theorem side_form (G : Joins J ι) (v : J → ℝ) : ∑ j, ∑ j', v j * sideEntry G j j' * v j' = -side G v := by
  simp only [sideEntry, quad, Finset.mul_sum, Finset.sum_mul]
  rw [Finset.sum_congr rfl fun j _ => Finset.sum_comm, Finset.sum_comm, side, ← Finset.sum_neg_distrib]
  refine Finset.sum_congr rfl fun q _ => ?_
  rw [← form_sq (G.u q)]
  simp only [Finset.mul_sum, Finset.sum_mul, ← Finset.sum_neg_distrib]
  refine Finset.sum_congr rfl fun j _ => Finset.sum_congr rfl fun j' _ => ?_
  simp only [dirMat]; ring

/-- A symmetric matrix whose form vanishes is zero. -/
theorem zero_of_form {e : J → J → ℝ} (hs : ∀ j j', e j j' = e j' j) (h : ∀ v : J → ℝ, ∑ j, ∑ j', v j * e j j' * v j' = 0) :
    e = fun _ _ => 0 := by
  classical
  have h1 : ∀ v : EuclideanSpace ℝ J, ⟪ofEntries e v, v⟫ = 0 := fun v => by rw [inner_ofEntries]; exact h v
  have h2 : ∀ u v : EuclideanSpace ℝ J, ⟪ofEntries e u, v⟫ = 0 := fun u v => by
    have k := h1 (u + v)
    rw [map_add, inner_add_left, inner_add_right, inner_add_right, h1, h1, symm_ofEntries hs v u, real_inner_comm (ofEntries e u) v] at k
    linarith
  funext j j'
  have := h2 (EuclideanSpace.single j' 1) (EuclideanSpace.single j 1)
  rwa [EuclideanSpace.inner_single_right, LoadedShell.ofEntries_single, one_mul, conj_trivial] at this

/-! ## The springs -/

/-- Energy of the springs. -/
noncomputable def springs (G : Joins J ι) (x : EuclideanSpace ℝ J) : ℝ :=
  (∑ q ∈ G.Qd, G.wd q * (G.opt * G.m q / 2 * off G x q * G.μd q))
    + ∑ q ∈ G.Q0, G.w0 q * (G.a0 q / 2 * gap G x q * G.μ0 q)

theorem springs_opposite (G : Joins J ι) (x : EuclideanSpace ℝ J) : springs (opposite G) x = -springs G x := by
  rw [springs, springs, neg_add, ← Finset.sum_neg_distrib, ← Finset.sum_neg_distrib]
  congr 1
  · exact Finset.sum_congr rfl fun q _ => by
      show G.wd q * (-G.opt * G.m q / 2 * off G x q * G.μd q) = _
      ring
  · exact Finset.sum_congr rfl fun q _ => by
      show G.w0 q * (-G.a0 q / 2 * gap G x q * G.μ0 q) = _
      ring

theorem pull_eq (G : Joins J ι) (x : EuclideanSpace ℝ J) (j : J) : pull G x j = hold G x j := by
  rw [pull, hold]
  congr 1 <;> refine Finset.sum_congr rfl fun q _ => ?_
  · simp only [dirVec, dotd, disp, Fin.sum_univ_two]; ring
  · simp only [c0Vec2, dotd, disp, Fin.sum_univ_two]; ring

theorem sq_line (c g : ℝ) (u : ℝ) : HasDerivAt (fun τ : ℝ => (c + τ * u - g) ^ 2) (2 * (c - g) * u) 0 := by
  have := ((((hasDerivAt_id' (0 : ℝ)).mul_const u).const_add c).sub_const g).pow 2
  refine this.congr_deriv ?_
  simp

theorem springs_gradient (G : Joins J ι) (x : EuclideanSpace ℝ J) :
    HasGradientAt (springs G) (WithLp.toLp 2 (hold G x)) x := by
  classical
  have hd : DifferentiableAt ℝ (springs G) x := by
    refine ContDiffAt.differentiableAt (n := 2) ?_ (by norm_num)
    unfold springs off gap
    refine (ContDiffAt.sum fun q _ => contDiffAt_const.mul ((contDiffAt_const.mul (ContDiffAt.sum fun i _ => ?_)).mul
      contDiffAt_const)).add (ContDiffAt.sum fun q _ => contDiffAt_const.mul ((contDiffAt_const.mul
        (ContDiffAt.sum fun i _ => ?_)).mul contDiffAt_const))
    · exact ((disp_smooth (G.u q) (G.u0 q) x i).sub contDiffAt_const).pow 2
    · exact ((disp_smooth (G.uL q) (G.gL q) x i).sub (disp_smooth (G.uR q) (G.gR q) x i)).pow 2
  refine ShellSystem.fderiv_of_lines hd fun j => ?_
  have h1 : ∀ q, HasDerivAt (fun τ : ℝ => G.wd q * (G.opt * G.m q / 2
      * (∑ i, (disp (G.u q) (G.u0 q) x i + τ * G.u q j i - G.g q i) ^ 2) * G.μd q))
      (G.wd q * dirVec (G.opt * G.m q) (G.μd q) (disp (G.u q) (G.u0 q) x) (G.g q) (G.u q j)) 0 := fun q => by
    refine ((((HasDerivAt.fun_sum fun (i : Fin 2) _ => sq_line (disp (G.u q) (G.u0 q) x i) (G.g q i) (G.u q j i)).const_mul
      (G.opt * G.m q / 2)).mul_const (G.μd q)).const_mul (G.wd q)).congr_deriv ?_
    simp only [dirVec, dotd, Fin.sum_univ_two]; ring
  have h2 : ∀ q, HasDerivAt (fun τ : ℝ => G.w0 q * (G.a0 q / 2
      * (∑ i, (disp (G.uL q) (G.gL q) x i + τ * G.uL q j i - (disp (G.uR q) (G.gR q) x i + τ * G.uR q j i)) ^ 2) * G.μ0 q))
      (G.w0 q * c0Vec2 (G.a0 q) (G.μ0 q) (disp (G.uL q) (G.gL q) x) (disp (G.uR q) (G.gR q) x) (G.uL q j) (G.uR q j)) 0 :=
    fun q => by
      refine ((((HasDerivAt.fun_sum fun (i : Fin 2) _ => (sq_line (disp (G.uL q) (G.gL q) x i) (disp (G.uR q) (G.gR q) x i)
        (G.uL q j i - G.uR q j i)).congr_of_eventuallyEq (f₁ := fun τ => (disp (G.uL q) (G.gL q) x i + τ * G.uL q j i
          - (disp (G.uR q) (G.gR q) x i + τ * G.uR q j i)) ^ 2)
        (Eventually.of_forall fun τ => by ring)).const_mul
        (G.a0 q / 2)).mul_const (G.μ0 q)).const_mul (G.w0 q)).congr_deriv ?_
      simp only [c0Vec2, dotd, Fin.sum_univ_two]; ring
  have h3 := (HasDerivAt.fun_sum (u := G.Qd) fun q _ => h1 q).add (HasDerivAt.fun_sum (u := G.Q0) fun q _ => h2 q)
  refine (h3.congr_of_eventuallyEq (Eventually.of_forall fun τ => ?_)).congr_deriv ?_
  · have e : ∀ (u : J → Vd 2) (g : Vd 2) i, g i + ∑ k, (x + τ • EuclideanSpace.single j (1 : ℝ)) k * u k i
        = disp u g x i + τ * u j i := fun u g i => congrFun (disp_line u g x j τ) i
    simp only [springs, off, gap, e, Pi.add_apply]
  · simp [InnerProductSpace.toDual_apply_apply, EuclideanSpace.inner_single_right, hold, quad]

theorem potential_split (x : EuclideanSpace ℝ J) :
    potential P G ψ x = Spec.PlanarSystem.potential P ψ x + springs G x := by
  rw [potential, springs, add_assoc]

theorem potential_gradient (hS : Sheet P M ψ) (hr : ∀ q ∈ P.Q, PlanarSystem.weight r (P.t q) = P.t q)
    (hx : x ∈ Spec.PlanarSystem.Admissible P) :
    HasGradientAt (potential P (opposite G) ψ) (-residual P G M r x) x := by
  classical
  have h1 : HasFDerivAt _ _ _ := PlanarSystem.potential_gradient hS hr hx
  have h2 : HasFDerivAt _ _ _ := springs_gradient G x
  have h3 := h1.sub h2
  show HasFDerivAt _ _ _
  rw [residual_split, neg_add, ← sub_eq_add_neg, map_sub]
  refine h3.congr_of_eventuallyEq (Eventually.of_forall fun y => ?_)
  rw [potential_split, springs_opposite, ← sub_eq_add_neg]; rfl

end Verif.JoinedSheet
