import Verif.Lemmas.LocalNewton
import Verif.Lemmas.System
import Verif.Props.Integrate
import Mathlib.Analysis.InnerProductSpace.Calculus
import Mathlib.Analysis.SpecialFunctions.Sqrt
import Mathlib.Analysis.Calculus.ContDiff.Operations

/-! # Helper lemmas: the nonlinear system of a shell -/

namespace Verif.ShellSystem

open V3 Verif.Geometry Verif.Variation Verif.Balance Verif.Integrate Spec.ShellSystem Spec.Solve
open Filter Topology

/-! ## Smooth vector-valued functions -/

section Smooth

variable {V : Type} [NormedAddCommGroup V] [NormedSpace ℝ V] {f g : V → V3} {c : V → ℝ} {x : V}

/-- Twice differentiable by components. -/
def VSmooth (f : V → V3) (x : V) : Prop :=
  ContDiffAt ℝ 2 (fun y => (f y).x) x ∧ ContDiffAt ℝ 2 (fun y => (f y).y) x ∧
    ContDiffAt ℝ 2 (fun y => (f y).z) x

theorem VSmooth.const (w : V3) : VSmooth (fun _ : V => w) x :=
  ⟨contDiffAt_const, contDiffAt_const, contDiffAt_const⟩

theorem VSmooth.add (hf : VSmooth f x) (hg : VSmooth g x) : VSmooth (fun y => f y + g y) x :=
  ⟨hf.1.add hg.1, hf.2.1.add hg.2.1, hf.2.2.add hg.2.2⟩

theorem VSmooth.sub (hf : VSmooth f x) (hg : VSmooth g x) : VSmooth (fun y => f y - g y) x :=
  ⟨hf.1.sub hg.1, hf.2.1.sub hg.2.1, hf.2.2.sub hg.2.2⟩

theorem VSmooth.smul (hc : ContDiffAt ℝ 2 c x) (hf : VSmooth f x) : VSmooth (fun y => c y • f y) x :=
  ⟨hc.mul hf.1, hc.mul hf.2.1, hc.mul hf.2.2⟩

theorem VSmooth.dot (hf : VSmooth f x) (hg : VSmooth g x) : ContDiffAt ℝ 2 (fun y => V3.dot (f y) (g y)) x :=
  ((hf.1.mul hg.1).add (hf.2.1.mul hg.2.1)).add (hf.2.2.mul hg.2.2)

theorem VSmooth.cross (hf : VSmooth f x) (hg : VSmooth g x) : VSmooth (fun y => V3.cross (f y) (g y)) x :=
  ⟨(hf.2.1.mul hg.2.2).sub (hf.2.2.mul hg.2.1), (hf.2.2.mul hg.1).sub (hf.1.mul hg.2.2),
    (hf.1.mul hg.2.1).sub (hf.2.1.mul hg.1)⟩

theorem VSmooth.norm (hf : VSmooth f x) (h0 : f x ≠ 0) : ContDiffAt ℝ 2 (fun y => V3.norm (f y)) x :=
  (hf.dot hf).sqrt (dot_self_pos h0).ne'

theorem VSmooth.inv_norm (hf : VSmooth f x) (h0 : f x ≠ 0) :
    ContDiffAt ℝ 2 (fun y => 1 / V3.norm (f y)) x :=
  contDiffAt_const.div (hf.norm h0) (norm_pos h0).ne'

theorem VSmooth.normalized (hf : VSmooth f x) (h0 : f x ≠ 0) : VSmooth (fun y => V3.normalized (f y)) x :=
  VSmooth.smul (hf.inv_norm h0) hf

/-- A surface that depends smoothly on `V`. -/
structure SSmooth (s : V → Surf) (x : V) : Prop where
  a : ∀ i, VSmooth (fun y => (s y).a i) x
  d11 : VSmooth (fun y => (s y).d11) x
  d22 : VSmooth (fun y => (s y).d22) x
  d12 : VSmooth (fun y => (s y).d12) x

variable {s : V → Surf}

theorem SSmooth.normal (hs : SSmooth s x) (h : Indep ((s x).a 0) ((s x).a 1)) :
    VSmooth (fun y => normal (s y)) x :=
  ((hs.a 0).cross (hs.a 1)).normalized h.cross_ne

theorem SSmooth.mvec (hs : SSmooth s x) (h : Indep ((s x).a 0) ((s x).a 1)) (u : Surf) :
    VSmooth (fun y => mvec (s y) u) x :=
  VSmooth.smul (((hs.a 0).cross (hs.a 1)).inv_norm h.cross_ne)
    (((VSmooth.const (u.a 0)).cross (hs.a 1)).sub ((VSmooth.const (u.a 1)).cross (hs.a 0)))

theorem SSmooth.var1 (hs : SSmooth s x) (h : Indep ((s x).a 0) ((s x).a 1)) (u : Surf) :
    VSmooth (fun y => var1 (s y) u) x :=
  (hs.mvec h u).sub (VSmooth.smul ((hs.mvec h u).dot (hs.normal h)) (hs.normal h))

theorem SSmooth.EmDer (hs : SSmooth s x) (u : Surf) (k : Fin 3) :
    ContDiffAt ℝ 2 (fun y => EmDer (s y) u k) x := by
  rcases fin3_cases k with rfl | rfl | rfl
  · exact (hs.a 0).dot (VSmooth.const _)
  · exact (hs.a 1).dot (VSmooth.const _)
  · exact ((hs.a 0).dot (VSmooth.const _)).add ((hs.a 1).dot (VSmooth.const _))

theorem SSmooth.EfDer (hs : SSmooth s x) (h : Indep ((s x).a 0) ((s x).a 1)) (u : Surf) (k : Fin 3) :
    ContDiffAt ℝ 2 (fun y => EfDer (s y) u k) x := by
  have hn := hs.normal h
  have hv := hs.var1 h u
  rcases fin3_cases k with rfl | rfl | rfl
  · exact (((VSmooth.const u.d11).dot hn).add (hs.d11.dot hv)).neg
  · exact (((VSmooth.const u.d22).dot hn).add (hs.d22.dot hv)).neg
  · exact (contDiffAt_const.mul (((VSmooth.const u.d12).dot hn).add (hs.d12.dot hv))).neg

theorem SSmooth.force (hs : SSmooth s x) (h : Indep ((s x).a 0) ((s x).a 1)) (u : Surf)
    {N M : V → Voigt} (hN : ∀ k, ContDiffAt ℝ 2 (fun y => N y k) x)
    (hM : ∀ k, ContDiffAt ℝ 2 (fun y => M y k) x) :
    ContDiffAt ℝ 2 (fun y => internalForce (s y) u (N y) (M y)) x := by
  have e := fun k => (hN k).mul (hs.EmDer u k)
  have e' := fun k => (hM k).mul (hs.EfDer h u k)
  have := (((e 0).add (e 1)).add (e 2)).add (((e' 0).add (e' 1)).add (e' 2))
  refine this.neg.congr_of_eventuallyEq (Eventually.of_forall fun y => ?_)
  simp [internalForce, dotV, Fin.sum_univ_three]

theorem SSmooth.membrane (hs : SSmooth s x) (ori : Surf) (k : Fin 3) :
    ContDiffAt ℝ 2 (fun y => voigtMembrane ori (s y) k) x := by
  rcases fin3_cases k with rfl | rfl | rfl
  · exact (((hs.a 0).dot (hs.a 0)).sub contDiffAt_const).div_const 2
  · exact (((hs.a 1).dot (hs.a 1)).sub contDiffAt_const).div_const 2
  · exact ((hs.a 0).dot (hs.a 1)).sub contDiffAt_const

theorem SSmooth.unitNormal (hs : SSmooth s x) (h : Indep ((s x).a 0) ((s x).a 1)) :
    VSmooth (fun y => unitNormal ((s y).a 0) ((s y).a 1)) x := hs.normal h

theorem SSmooth.bending (hs : SSmooth s x) (h : Indep ((s x).a 0) ((s x).a 1)) (ori : Surf) (k : Fin 3) :
    ContDiffAt ℝ 2 (fun y => voigtBending ori (s y) k) x := by
  have hn := hs.unitNormal h
  rcases fin3_cases k with rfl | rfl | rfl
  · exact contDiffAt_const.sub (hs.d11.dot hn)
  · exact contDiffAt_const.sub (hs.d22.dot hn)
  · exact contDiffAt_const.mul (contDiffAt_const.sub (hs.d12.dot hn))

end Smooth

/-! ## The deformed surface -/

variable {J κ : Type} [Fintype J]

theorem coord_smooth (j : J) (x : EuclideanSpace ℝ J) : ContDiffAt ℝ 2 (fun y : EuclideanSpace ℝ J => y j) x :=
  (contDiffAt_euclidean (𝕜 := ℝ) (f := fun y : EuclideanSpace ℝ J => y)).1 contDiffAt_id j

theorem comb_smooth (w : V3) (f : J → V3) (x : EuclideanSpace ℝ J) :
    VSmooth (fun y : EuclideanSpace ℝ J => w + vsum Finset.univ fun j => y j • f j) x := by
  refine (VSmooth.const w).add ⟨?_, ?_, ?_⟩ <;>
  · exact ContDiffAt.sum fun j _ => (coord_smooth j x).mul contDiffAt_const

theorem deformed_smooth (P : Problem J κ) (x : EuclideanSpace ℝ J) (q : κ) :
    SSmooth (fun y => deformed P y q) x :=
  ⟨fun _ => comb_smooth _ _ x, comb_smooth _ _ x, comb_smooth _ _ x, comb_smooth _ _ x⟩

theorem comb_shift [DecidableEq J] (w : V3) (f : J → V3) (x : EuclideanSpace ℝ J) (j : J) (τ : ℝ) :
    (w + vsum Finset.univ fun i => (x + τ • EuclideanSpace.single j (1 : ℝ)) i • f i)
      = (w + vsum Finset.univ fun i => x i • f i) + τ • f j := by
  ext <;> simp [vsum, add_mul, Finset.sum_add_distrib, PiLp.single_apply, add_assoc]

/-- Adding to one unknown moves the surface along its field. -/
theorem deformed_shift [DecidableEq J] (P : Problem J κ) (x : EuclideanSpace ℝ J) (q : κ) (j : J) (τ : ℝ) :
    deformed P (x + τ • EuclideanSpace.single j (1 : ℝ)) q = shift (deformed P x q) (P.field q j) τ := by
  simp only [deformed, shift, comb_shift]

theorem deformed_zero (P : Problem J κ) (q : κ) : deformed P 0 q = P.pre q := by
  have : ∀ (w : V3) (f : J → V3), (w + vsum Finset.univ fun i => (0 : EuclideanSpace ℝ J) i • f i) = w := by
    intro w f; ext <;> simp [vsum]
  simp only [deformed, this]

theorem indep_of_cross {u v : V3} (h : cross u v ≠ 0) : Indep u v := by
  intro c d hcd
  have hx := congrArg V3.x hcd
  have hy := congrArg V3.y hcd
  have hz := congrArg V3.z hcd
  simp at hx hy hz
  by_contra hne
  apply h
  rw [not_and_or] at hne
  rcases hne with hc | hd
  · ext <;> simp only [cross, zero_x, zero_y, zero_z] <;>
      refine mul_left_cancel₀ hc ?_
    · linear_combination v.z * hy - v.y * hz
    · linear_combination v.x * hz - v.z * hx
    · linear_combination v.y * hx - v.x * hy
  · ext <;> simp only [cross, zero_x, zero_y, zero_z] <;>
      refine mul_left_cancel₀ hd ?_
    · linear_combination u.y * hz - u.z * hy
    · linear_combination u.z * hx - u.x * hz
    · linear_combination u.x * hy - u.y * hx

theorem indep_iff {u v : V3} : Indep u v ↔ cross u v ≠ 0 := ⟨Indep.cross_ne, indep_of_cross⟩

/-- Admissible states are an open set. -/
theorem admissible_nhds (P : Problem J κ) {x : EuclideanSpace ℝ J} (hx : x ∈ Admissible P) :
    Admissible P ∈ 𝓝 x := by
  have h : ∀ q ∈ P.Q, ∀ᶠ y in 𝓝 x, Indep ((deformed P y q).a 0) ((deformed P y q).a 1) := by
    intro q hq
    have hs := deformed_smooth P x q
    have hc := ((hs.a 0).cross (hs.a 1))
    have hd := (hc.dot hc).continuousAt
    have hne := dot_self_pos (hx q hq).cross_ne
    refine (hd.eventually_ne hne.ne').mono fun y hy => indep_of_cross fun h0 => hy ?_
    rw [h0]; simp [V3.dot]
  exact (Filter.eventually_all_finset P.Q).2 h

/-! ## Materials with constant moduli -/

/-- Resultants `A ε` and `D κ`, moduli without coupling. -/
structure Plain (law : Surf → Section) (ori : Surf) (A D : T3) : Prop where
  hA : ∀ s, (law s).A = A
  hB : ∀ s i j, (law s).B i j = 0
  hC : ∀ s i j, (law s).C i j = 0
  hD : ∀ s, (law s).D = D
  hN : ∀ s, (law s).N = mulVec3 A (voigtMembrane ori s)
  hM : ∀ s, (law s).M = mulVec3 D (voigtBending ori s)

theorem mul_smooth {V : Type} [NormedAddCommGroup V] [NormedSpace ℝ V] {x : V} (A : T3) {e : V → Voigt}
    (he : ∀ k, ContDiffAt ℝ 2 (fun y => e y k) x) (i : Fin 3) :
    ContDiffAt ℝ 2 (fun y => mulVec3 A (e y) i) x := by
  unfold mulVec3
  exact ContDiffAt.sum fun j _ => contDiffAt_const.mul (he j)

variable {P : Problem J κ} {law : Law κ} {A D : κ → T3} {x : EuclideanSpace ℝ J}

theorem residual_smooth (hl : ∀ q ∈ P.Q, Plain (law q) (P.ori q) (A q) (D q)) (hx : x ∈ Admissible P) :
    ContDiffAt ℝ 2 (residual P law) x := by
  refine (contDiffAt_euclidean (𝕜 := ℝ)).2 fun j => ?_
  show ContDiffAt ℝ 2 (fun y => (∑ q ∈ P.Q, internalForce (deformed P y q) (P.field q j)
    (law q (deformed P y q)).N (law q (deformed P y q)).M * P.μ q) + P.F j) x
  refine (ContDiffAt.sum fun q hq => ?_).add contDiffAt_const
  refine ContDiffAt.mul ?_ contDiffAt_const
  have hs := deformed_smooth P x q
  refine hs.force (hx q hq) _ (fun k => ?_) fun k => ?_
  · simp only [(hl q hq).hN]
    exact mul_smooth _ (fun k => hs.membrane _ k) k
  · simp only [(hl q hq).hM]
    exact mul_smooth _ (fun k => hs.bending (hx q hq) _ k) k

/-- Derivative of the residual along one unknown. -/
theorem residual_line [DecidableEq J] (hl : ∀ q ∈ P.Q, Plain (law q) (P.ori q) (A q) (D q))
    (hx : x ∈ Admissible P) (j j' : J) :
    HasDerivAt (fun τ : ℝ => residual P law (x + τ • EuclideanSpace.single j' (1 : ℝ)) j)
      (-entry P law x j j') 0 := by
  have hq : ∀ q ∈ P.Q, HasDerivAt (fun τ : ℝ => internalForce (shift (deformed P x q) (P.field q j') τ)
      (P.field q j) (law q (shift (deformed P x q) (P.field q j') τ)).N
      (law q (shift (deformed P x q) (P.field q j') τ)).M * P.μ q)
      (-stiffness (deformed P x q) (P.field q j) (P.field q j') (law q (deformed P x q)).A
        (law q (deformed P x q)).B (law q (deformed P x q)).C (law q (deformed P x q)).D
        (law q (deformed P x q)).N (law q (deformed P x q)).M * P.μ q) 0 := by
    intro q hq
    have h := hl q hq
    have c := C66_stiffness (Q := Unit) (fun _ => 1) (fun _ => deformed P x q) (fun _ => P.field q j)
      (fun _ => P.field q j') (fun _ => hx q hq) (fun _ => A q) (fun _ => (law q (deformed P x q)).B)
      (fun _ => (law q (deformed P x q)).C) (fun _ => D q)
      (fun _ τ => mulVec3 (A q) (voigtMembrane (P.ori q) (shift (deformed P x q) (P.field q j') τ)))
      (fun _ τ => mulVec3 (D q) (voigtBending (P.ori q) (shift (deformed P x q) (P.field q j') τ)))
      (fun _ i => by
        simp only [mulVec3, h.hC, zero_mul, add_zero]
        exact HasDerivAt.fun_sum fun k _ => (C66_membrane (P.ori q) _ _ k).const_mul _)
      (fun _ i => by
        simp only [mulVec3, h.hB, zero_mul, zero_add]
        exact HasDerivAt.fun_sum fun k _ => (C66_bending (P.ori q) _ _ (hx q hq) k).const_mul _)
    simp only [Finset.univ_unique, Finset.sum_singleton, one_mul, shift_zero] at c
    simp only [h.hN, h.hM, h.hA, h.hD]
    exact c.mul_const _
  have hs := (HasDerivAt.fun_sum hq).add_const (P.F j)
  refine (hs.congr_deriv ?_).congr_of_eventuallyEq (Eventually.of_forall fun τ => ?_)
  · simp [entry, neg_mul, Finset.sum_neg_distrib]
  · simp [residual, deformed_shift]

theorem tangent_apply (P : Problem J κ) (law : Law κ) (x v : EuclideanSpace ℝ J) (j : J) :
    tangent P law x v j = ∑ j', entry P law x j j' * v j' := rfl

/-- A differentiable function is determined by its derivatives along the unknowns. -/
theorem fderiv_of_lines [DecidableEq J] {W : Type} [NormedAddCommGroup W] [NormedSpace ℝ W]
    {f : EuclideanSpace ℝ J → W} {L : EuclideanSpace ℝ J →L[ℝ] W}
    (hf : DifferentiableAt ℝ f x)
    (h : ∀ j, HasDerivAt (fun τ : ℝ => f (x + τ • EuclideanSpace.single j (1 : ℝ)))
      (L (EuclideanSpace.single j 1)) 0) : HasFDerivAt f L x := by
  have hfd := hf.hasFDerivAt
  have : fderiv ℝ f x = L := by
    refine ContinuousLinearMap.coe_injective (Module.Basis.ext (EuclideanSpace.basisFun J ℝ).toBasis fun j => ?_)
    have h1 : HasDerivAt (fun τ : ℝ => x + τ • EuclideanSpace.single j (1 : ℝ))
        (EuclideanSpace.single j (1 : ℝ)) 0 := by
      simpa using ((hasDerivAt_id' (0 : ℝ)).smul_const (EuclideanSpace.single j (1 : ℝ))).const_add x
    have hfd' : HasFDerivAt f (fderiv ℝ f x) (x + (0 : ℝ) • EuclideanSpace.single j (1 : ℝ)) := by
      simpa using hfd
    have h2 := hfd'.comp_hasDerivAt 0 h1
    have := h2.unique (h j)
    simpa using this
  rw [← this]; exact hfd

theorem residual_deriv [DecidableEq J] (hl : ∀ q ∈ P.Q, Plain (law q) (P.ori q) (A q) (D q))
    (hx : x ∈ Admissible P) : HasFDerivAt (residual P law) (-tangent P law x) x := by
  refine fderiv_of_lines ((residual_smooth hl hx).differentiableAt (by norm_num)) fun j' => ?_
  have h : ∀ j, HasDerivAt (fun τ : ℝ => residual P law (x + τ • EuclideanSpace.single j' (1 : ℝ)) j)
      ((-tangent P law x) (EuclideanSpace.single j' 1) j) 0 := fun j => by
    refine (residual_line hl hx j j').congr_deriv ?_
    simp [tangent_apply, PiLp.single_apply]
  rw [hasDerivAt_iff_hasFDerivAt, ← hasFDerivWithinAt_univ, hasFDerivWithinAt_euclidean]
  intro j
  rw [hasFDerivWithinAt_univ]
  refine (h j).hasFDerivAt.congr_fderiv ?_
  ext; simp

/-! ## The energy -/

/-- Energy per area with constant moduli. -/
noncomputable def quadEnergy (A D : T3) (ori s : Surf) : ℝ :=
  1 / 2 * dotV (voigtMembrane ori s) (mulVec3 A (voigtMembrane ori s))
    + 1 / 2 * dotV (voigtBending ori s) (mulVec3 D (voigtBending ori s))

theorem quad_smooth (A D : T3) (ori : Surf) (q : κ) (hx : Indep ((deformed P x q).a 0) ((deformed P x q).a 1)) :
    ContDiffAt ℝ 2 (fun y => quadEnergy A D ori (deformed P y q)) x := by
  have hs := deformed_smooth P x q
  have h1 := fun k => hs.membrane ori k
  have h2 := fun k => hs.bending hx ori k
  unfold quadEnergy dotV
  exact (contDiffAt_const.mul (ContDiffAt.sum fun k _ => (h1 k).mul (mul_smooth A h1 k))).add
    (contDiffAt_const.mul (ContDiffAt.sum fun k _ => (h2 k).mul (mul_smooth D h2 k)))

theorem quad_line (A : T3) (hA : ∀ i j, A i j = A j i) {e : ℝ → Voigt} {e' : Voigt}
    (he : ∀ k, HasDerivAt (fun τ => e τ k) (e' k) 0) :
    HasDerivAt (fun τ => 1 / 2 * dotV (e τ) (mulVec3 A (e τ))) (dotV (mulVec3 A (e 0)) e') 0 := by
  have h := (HasDerivAt.fun_sum (u := Finset.univ) fun k _ =>
    (he k).fun_mul (HasDerivAt.fun_sum (u := Finset.univ) fun j _ => (he j).const_mul (A k j))).const_mul (1 / 2 : ℝ)
  refine (h.congr_deriv ?_).congr_of_eventuallyEq (Eventually.of_forall fun τ => ?_)
  · simp only [dotV, mulVec3, Fin.sum_univ_three, hA 1 0, hA 2 0, hA 2 1]; ring
  · simp only [dotV, mulVec3]

theorem energy_line [DecidableEq J] (hl : ∀ q ∈ P.Q, Plain (law q) (P.ori q) (A q) (D q))
    (hA : ∀ q ∈ P.Q, ∀ i j, A q i j = A q j i) (hD : ∀ q ∈ P.Q, ∀ i j, D q i j = D q j i)
    (hx : x ∈ Admissible P) (j : J) :
    HasDerivAt (fun τ : ℝ => (∑ q ∈ P.Q, quadEnergy (A q) (D q) (P.ori q)
        (deformed P (x + τ • EuclideanSpace.single j (1 : ℝ)) q) * P.μ q)
        - ∑ i, P.F i * (x + τ • EuclideanSpace.single j (1 : ℝ)) i)
      (-residual P law x j) 0 := by
  have hq : ∀ q ∈ P.Q, HasDerivAt (fun τ : ℝ => quadEnergy (A q) (D q) (P.ori q)
      (shift (deformed P x q) (P.field q j) τ) * P.μ q)
      (-internalForce (deformed P x q) (P.field q j) (law q (deformed P x q)).N
        (law q (deformed P x q)).M * P.μ q) 0 := by
    intro q hq
    have h1 := quad_line (A q) (hA q hq) (fun k => C66_membrane (P.ori q) (deformed P x q) (P.field q j) k)
    have h2 := quad_line (D q) (hD q hq) (fun k => C66_bending (P.ori q) (deformed P x q) (P.field q j) (hx q hq) k)
    refine ((h1.add h2).congr_deriv ?_).mul_const _
    rw [(hl q hq).hN, (hl q hq).hM, shift_zero]
    simp [internalForce]
  have hF : HasDerivAt (fun τ : ℝ => ∑ i, P.F i * (x + τ • EuclideanSpace.single j (1 : ℝ)) i) (P.F j) 0 := by
    have := HasDerivAt.fun_sum (u := Finset.univ) fun i (_ : i ∈ Finset.univ) =>
      (((hasDerivAt_id' (0 : ℝ)).mul_const ((EuclideanSpace.single j (1 : ℝ) : EuclideanSpace ℝ J) i)).const_add (x i)).const_mul (P.F i)
    refine (this.congr_deriv ?_).congr_of_eventuallyEq (Eventually.of_forall fun τ => ?_)
    · simp [PiLp.single_apply]
    · simp
  have hs := (HasDerivAt.fun_sum hq).sub hF
  refine (hs.congr_deriv ?_).congr_of_eventuallyEq (Eventually.of_forall fun τ => ?_)
  · simp only [residual, neg_mul, Finset.sum_neg_distrib]; ring
  · simp [deformed_shift]

theorem energy_gradient [DecidableEq J] (hl : ∀ q ∈ P.Q, Plain (law q) (P.ori q) (A q) (D q))
    (hA : ∀ q ∈ P.Q, ∀ i j, A q i j = A q j i) (hD : ∀ q ∈ P.Q, ∀ i j, D q i j = D q j i)
    (hx : x ∈ Admissible P) :
    HasGradientAt (fun y : EuclideanSpace ℝ J => (∑ q ∈ P.Q, quadEnergy (A q) (D q) (P.ori q)
        (deformed P y q) * P.μ q) - ∑ i, P.F i * y i) (-residual P law x) x := by
  have hd : DifferentiableAt ℝ (fun y : EuclideanSpace ℝ J => (∑ q ∈ P.Q, quadEnergy (A q) (D q) (P.ori q)
        (deformed P y q) * P.μ q) - ∑ i, P.F i * y i) x := by
    refine ContDiffAt.differentiableAt (n := 2) ?_ (by norm_num)
    exact (ContDiffAt.sum fun q hq => (quad_smooth _ _ _ q (hx q hq)).mul contDiffAt_const).sub
      (ContDiffAt.sum fun i _ => contDiffAt_const.mul (coord_smooth i x))
  refine fderiv_of_lines hd fun j => (energy_line hl hA hD hx j).congr_deriv ?_
  simp [InnerProductSpace.toDual_apply_apply, EuclideanSpace.inner_single_right]

end Verif.ShellSystem
