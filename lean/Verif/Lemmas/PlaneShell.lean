import Verif.Model.PlaneShell
import Verif.Lemmas.HyperShell
import Verif.Lemmas.PlaneSheet

/-! # Helper lemmas: the nonlinear system of a shell of compressible material -/

namespace Verif.PlaneShell

open V3 Verif.Geometry Verif.Variation Verif.Balance Verif.Integrate Verif.ShellSystem
open Spec.ShellTangent Spec.HyperShell Spec.Hyper Filter Topology
open Verif.LoadedShell (ofEntries ofEntries_apply)
open Verif.PlanarSystem (det_smooth inv_smooth)
open Verif.HyperShell (metric_smooth states_indep states_nhds third_is third_smooth entries_smooth)
open Spec.PosDef (Metric)

/-! ## The metric at a height is positive definite -/

theorem block_gram (s : Surf) (h : cross (s.a 0) (s.a 1) ≠ 0) (z : ℝ) (i j : Fin 2) :
    Gblock s z i j = dot (s.a i + z • ncov s i) (s.a j + z • ncov s j) := by
  have h1 := ncov_dot_a s h i j
  have h2 := ncov_dot_a s h j i
  have hs : Bcov s j i = Bcov s i j := by
    rcases fin2_cases i with rfl | rfl <;> rcases fin2_cases j with rfl | rfl <;> rfl
  have e : dot (s.a i + z • ncov s i) (s.a j + z • ncov s j)
      = dot (s.a i) (s.a j) + z * dot (ncov s i) (s.a j) + z * dot (ncov s j) (s.a i)
        + z * z * dot (ncov s i) (ncov s j) := by
    simp [dot]; ring
  rw [e, h1, h2, hs, Gblock, Acov]
  ring

theorem block_metric (s : Surf) (z : ℝ) (h : det2 (Gblock s z) ≠ 0) : Metric (Gblock s z) := by
  have hc : cross (s.a 0) (s.a 1) ≠ 0 := by
    intro h0
    have hn : normal s = 0 := by
      rw [normal, h0]; ext <;> simp [normalized]
    have hB : ∀ i j, Bcov s i j = 0 := by
      intro i j
      rcases fin2_cases i with rfl | rfl <;> rcases fin2_cases j with rfl | rfl <;> simp [Bcov, hn, dot]
    have hnc : ∀ i, ncov s i = 0 := by
      intro i; ext <;> simp [ncov, mixedB, hB]
    have hG : Gblock s z = Acov s := by
      funext i j; simp [Gblock, hB, hnc, dot]
    have hd : det2 (Acov s) = dot (cross (s.a 0) (s.a 1)) (cross (s.a 0) (s.a 1)) := by
      simp [det2, Acov, dot, cross]; ring
    rw [hG, hd, h0] at h
    simp [dot] at h
  have hg := block_gram s hc z
  have hd : det2 (Gblock s z) = dot (cross (s.a 0 + z • ncov s 0) (s.a 1 + z • ncov s 1))
      (cross (s.a 0 + z • ncov s 0) (s.a 1 + z • ncov s 1)) := by
    simp only [det2, hg]
    generalize s.a 0 + z • ncov s 0 = u
    generalize s.a 1 + z • ncov s 1 = v
    simp [dot, cross]; ring
  have hnn : ∀ u : V3, 0 ≤ dot u u := fun u => by
    simp only [dot]
    nlinarith [mul_self_nonneg u.x, mul_self_nonneg u.y, mul_self_nonneg u.z]
  have hpos : 0 < det2 (Gblock s z) := lt_of_le_of_ne (hd ▸ hnn _) h.symm
  have hs := ShellTangent.metric_symm s z
  refine ⟨hs, ?_, hpos⟩
  have h0 : 0 ≤ Gblock s z 0 0 := by rw [hg]; exact hnn _
  refine lt_of_le_of_ne h0 fun e => ?_
  simp only [det2, ← e, zero_mul, zero_sub, ← hs] at hpos
  nlinarith [mul_self_nonneg (Gblock s z 0 1)]

/-! ## Materials -/

/-- What the system needs of a material: the tangent belongs to the stress, both are smooth. -/
structure Lawful (M : Planar.Material) (A : T2) : Prop where
  symm : ∀ C, Metric C → ElasticSymm (M.tangent (Hyper.data A C))
  tangent : ∀ C, Metric C → Spec.ShellTangent.IsTangent (fun G i j => M.stress (Hyper.data A G) (Hyper.up i) (Hyper.up j))
      (fun i j k l => M.tangent (Hyper.data A C) (Hyper.up i) (Hyper.up j) (Hyper.up k) (Hyper.up l)) C
  stress : ∀ {V : Type} [NormedAddCommGroup V] [NormedSpace ℝ V] (C : V → T2) (x : V),
    (∀ i j, ContDiffAt ℝ 2 (fun y => C y i j) x) → Metric (C x) →
    ∀ i j : Fin 2, ContDiffAt ℝ 2 (fun y => M.stress (Hyper.data A (C y)) (Hyper.up i) (Hyper.up j)) x
  moduli : ∀ {V : Type} [NormedAddCommGroup V] [NormedSpace ℝ V] (C : V → T2) (x : V),
    (∀ i j, ContDiffAt ℝ 2 (fun y => C y i j) x) → Metric (C x) →
    ∀ i j k l : Fin 2, ContDiffAt ℝ 2 (fun y => M.tangent (Hyper.data A (C y)) (Hyper.up i) (Hyper.up j) (Hyper.up k) (Hyper.up l)) x

variable {J κ : Type} [Fintype J] {P : Problem J κ} {r : Rule} {M : κ → Planar.Material} {t : κ → ℝ}
  {x : EuclideanSpace ℝ J}

theorem good {M : Planar.Material} (hM : ∀ A, Metric A → Lawful M A) {ori s : Surf} {t : ℝ} (hr : Regular r t ori s) :
    ShellTangent.Good (heights M ori) r t s := by
  intro j
  have he := hM _ (block_metric ori _ (hr j).1)
  exact ⟨he.symm _ (block_metric s _ (hr j).2), he.tangent _ (block_metric s _ (hr j).2)⟩

section
variable {V : Type} [NormedAddCommGroup V] [NormedSpace ℝ V] {s : V → Surf} {y : V} {ori : Surf} {T : ℝ}

theorem resultant_smooth {M : Planar.Material} (hM : ∀ A, Metric A → Lawful M A) (hs : SSmooth s y)
    (h : Indep ((s y).a 0) ((s y).a 1)) (hr : Regular r T ori (s y)) (m : ℕ) (k : Fin 3) :
    ContDiffAt ℝ 2 (fun z => ShellTangent.resultant (heights M ori) r T m (s z) k) y := by
  unfold ShellTangent.resultant integrateZ
  refine ContDiffAt.sum fun j _ => ContDiffAt.mul (ContDiffAt.mul contDiffAt_const ?_) contDiffAt_const
  have hc := (hM _ (block_metric ori _ (hr j).1)).stress (fun z => Gblock (s z) (r.ξ j * T)) y (metric_smooth hs h _)
    (block_metric _ _ (hr j).2)
  rcases fin3_cases k with rfl | rfl | rfl
  · exact hc 0 0
  · exact hc 1 1
  · exact hc 0 1

theorem modulus_smooth {M : Planar.Material} (hM : ∀ A, Metric A → Lawful M A) (hs : SSmooth s y)
    (h : Indep ((s y).a 0) ((s y).a 1)) (hr : Regular r T ori (s y)) (m : ℕ) (k l : Fin 3) :
    ContDiffAt ℝ 2 (fun z => ShellTangent.modulus (heights M ori) r T m (s z) k l) y := by
  unfold ShellTangent.modulus integrateZ
  refine ContDiffAt.sum fun j _ => ContDiffAt.mul (ContDiffAt.mul contDiffAt_const ?_) contDiffAt_const
  have hc := (hM _ (block_metric ori _ (hr j).1)).moduli (fun z => Gblock (s z) (r.ξ j * T)) y (metric_smooth hs h _)
    (block_metric _ _ (hr j).2)
  rcases fin3_cases k with rfl | rfl | rfl <;> rcases fin3_cases l with rfl | rfl | rfl
  · exact hc 0 0 0 0
  · exact hc 0 0 1 1
  · exact hc 0 0 0 1
  · exact hc 0 0 1 1
  · exact hc 1 1 1 1
  · exact hc 1 1 0 1
  · exact hc 0 0 0 1
  · exact hc 1 1 0 1
  · exact hc 0 1 0 1

end

/-! ## The system -/

variable (hM : ∀ q ∈ P.Q, ∀ A, Metric A → Lawful (M q) A)
include hM

theorem residual_smooth (hx : x ∈ States P r t) : ContDiffAt ℝ 2 (residual P (shells P r M t)) x := by
  refine (contDiffAt_euclidean (𝕜 := ℝ)).2 fun j => ?_
  show ContDiffAt ℝ 2 (fun y => (∑ q ∈ P.Q, internalForce (deformed P y q) (P.field q j)
    (ShellTangent.resultant (heights (M q) (P.ori q)) r (t q) 0 (deformed P y q))
    (ShellTangent.resultant (heights (M q) (P.ori q)) r (t q) 1 (deformed P y q)) * P.μ q) + P.F j) x
  refine (ContDiffAt.sum fun q hq => ?_).add contDiffAt_const
  refine ContDiffAt.mul ?_ contDiffAt_const
  have hs := deformed_smooth P x q
  exact hs.force (hx q hq).1 _ (resultant_smooth (hM q hq) hs (hx q hq).1 (hx q hq).2 0)
    (resultant_smooth (hM q hq) hs (hx q hq).1 (hx q hq).2 1)

omit hM in
/-- What the tangent lacks. -/
noncomputable abbrev rest (P : Problem J κ) (r : Rule) (M : κ → Planar.Material) (t : κ → ℝ)
    (x : EuclideanSpace ℝ J) : J → J → ℝ := third P (fun q => heights (M q) (P.ori q)) r t x

theorem residual_line [DecidableEq J] (hx : x ∈ States P r t) (j j' : J) :
    HasDerivAt (fun τ : ℝ => residual P (shells P r M t) (x + τ • EuclideanSpace.single j' (1 : ℝ)) j)
      (-(entry P (shells P r M t) x j j' + rest P r M t x j j')) 0 := by
  have hq : ∀ q ∈ P.Q, HasDerivAt (fun τ : ℝ => ShellTangent.force (heights (M q) (P.ori q)) r (t q)
      (shift (deformed P x q) (P.field q j') τ) (P.field q j) * P.μ q)
      ((-ShellTangent.tangentStiffness (heights (M q) (P.ori q)) r (t q) (deformed P x q) (P.field q j)
        (P.field q j') - thirdWork (heights (M q) (P.ori q)) r (t q) (deformed P x q) (P.field q j)
          (P.field q j')) * P.μ q) 0 := by
    intro q hq
    have h := ShellTangent.force_deriv _ r (t q) (deformed P x q) (P.field q j) (P.field q j') (hx q hq).1 _
      (third_is _ (P.field q j') (hx q hq).1) (good (hM q hq) (hx q hq).2)
    refine (h.congr_deriv ?_).mul_const _
    simp only [internalForce, ShellTangent.defect, thirdWork, dotV, Fin.sum_univ_three]
    ring
  have hs := (HasDerivAt.fun_sum hq).add_const (P.F j)
  refine (hs.congr_deriv ?_).congr_of_eventuallyEq (Eventually.of_forall fun τ => ?_)
  · rw [rest, third, entry, ← Finset.sum_add_distrib, ← Finset.sum_neg_distrib]
    refine Finset.sum_congr rfl fun q _ => ?_
    simp only [shells, integrated, ShellTangent.tangentStiffness]
    ring
  · simp only [ShellSystem.residual, deformed_shift, shells, integrated, ShellTangent.force]

theorem residual_deriv [DecidableEq J] (hx : x ∈ States P r t) :
    HasFDerivAt (residual P (shells P r M t))
      (-(tangent P (shells P r M t) x + ofEntries (rest P r M t x))) x := by
  refine fderiv_of_lines ((residual_smooth hM hx).differentiableAt (by norm_num)) fun j' => ?_
  have h : ∀ j, HasDerivAt (fun τ : ℝ => residual P (shells P r M t) (x + τ • EuclideanSpace.single j' (1 : ℝ)) j)
      ((-(tangent P (shells P r M t) x + ofEntries (rest P r M t x))) (EuclideanSpace.single j' 1) j) 0 :=
    fun j => by
    refine (residual_line hM hx j j').congr_deriv ?_
    simp [tangent_apply, ofEntries_apply, PiLp.single_apply]
  rw [hasDerivAt_iff_hasFDerivAt, ← hasFDerivWithinAt_univ, hasFDerivWithinAt_euclidean]
  intro j
  rw [hasFDerivWithinAt_univ]
  refine (h j).hasFDerivAt.congr_fderiv ?_
  ext; simp

theorem rest_smooth [DecidableEq J] (hx : x ∈ States P r t) (j j' : J) :
    ContDiffAt ℝ 1 (fun y => rest P r M t y j j') x := by
  refine ContDiffAt.sum fun q hq => ContDiffAt.mul ?_ contDiffAt_const
  have hs := deformed_smooth P x q
  have hi := (hx q hq).1
  have hn : ∀ᶠ y in 𝓝 x, Indep ((deformed P y q).a 0) ((deformed P y q).a 1) :=
    Filter.mem_of_superset (states_nhds hx) fun y hy => (hy q hq).1
  have hT : ∀ l, ContDiffAt ℝ 1 (fun y => half (thirdRate (deformed P y q) (P.field q j')) l) x := by
    intro l
    have h := third_smooth (P := P) q hi hn j'
    rcases fin3_cases l with rfl | rfl | rfl
    · exact (h 0 0).div_const 2
    · exact (h 1 1).div_const 2
    · exact h 0 1
  refine ContDiffAt.sum fun k _ => ContDiffAt.sum fun l _ => ContDiffAt.mul ?_ (hT l)
  refine ContDiffAt.of_le ?_ (show (1 : WithTop ℕ∞) ≤ 2 by norm_num)
  exact ((hs.EmDer _ k).mul (modulus_smooth (hM q hq) hs hi (hx q hq).2 2 k l)).add
    ((hs.EfDer hi _ k).mul (modulus_smooth (hM q hq) hs hi (hx q hq).2 3 k l))

theorem smooth_at {x : EuclideanSpace ℝ J} (hx : x ∈ States P r t) :
    (∀ᶠ y in 𝓝 x, HasFDerivAt (residual P (shells P r M t))
      (-(tangent P (shells P r M t) y + ofEntries (rest P r M t y))) y) ∧
    ContDiffAt ℝ 2 (residual P (shells P r M t)) x ∧
    ContDiffAt ℝ 1 (fun y => ofEntries (rest P r M t y)) x := by
  classical
  exact ⟨Filter.mem_of_superset (states_nhds hx) fun y hy => residual_deriv hM hy, residual_smooth hM hx,
    entries_smooth fun j j' => rest_smooth hM hx j j'⟩

end Verif.PlaneShell

namespace Verif.PlaneShell

open Verif.Geometry Verif.Hyper Verif.PlaneSheet Spec.PlaneSheet Spec.PosDef
open Verif.PlanarSystem (det_smooth inv_smooth)

/-! ## The moduli with the exact stretch are smooth -/

section
variable {V : Type} [NormedAddCommGroup V] [NormedSpace ℝ V] {C : V → T2} {ξ : V → ℝ} {x : V} {A : T2}

theorem thick_smooth {B : V → T2} {z : V → ℝ} (h : ∀ i j, ContDiffAt ℝ 2 (fun y => B y i j) x) (hz : ContDiffAt ℝ 2 z x)
    (i j : Fin 3) : ContDiffAt ℝ 2 (fun y => withThickness (embed (B y)) (z y) i j) x := by
  rcases fin3_cases i with rfl | rfl | rfl <;> rcases fin3_cases j with rfl | rfl | rfl
  · exact h 0 0
  · exact h 0 1
  · exact contDiffAt_const
  · exact h 1 0
  · exact h 1 1
  · exact contDiffAt_const
  · exact contDiffAt_const
  · exact contDiffAt_const
  · exact hz

theorem full_smooth (s : Solid) (p : Par) (hA : Metric A) (h : ∀ i j, ContDiffAt ℝ 2 (fun y => C y i j) x)
    (hC : Metric (C x)) (hξ : ContDiffAt ℝ 2 ξ x) (h0 : 0 < ξ x) (i j k l : Fin 3) :
    ContDiffAt ℝ 2 (fun y => s.tangent p (cdata (data A (C y)) (ξ y)) i j k l) x := by
  have hg : ∀ i j, ContDiffAt ℝ 2 (fun y => (cdata (data A (C y)) (ξ y)).cinv i j) x :=
    thick_smooth (inv_smooth h hC.2.2.ne') (contDiffAt_const.div hξ h0.ne')
  have hJ0 : ContDiffAt ℝ 2 (fun y => (data A (C y)).J0) x := (det_smooth h).div_const _
  have hJ : ContDiffAt ℝ 2 (fun y => (cdata (data A (C y)) (ξ y)).J) x := hJ0.mul hξ
  have hJp : (cdata (data A (C x)) (ξ x)).J ≠ 0 := (mul_pos (ratio_pos hA hC) h0).ne'
  have hrp : ∀ a : ℝ, ContDiffAt ℝ 2 (fun y => (cdata (data A (C y)) (ξ y)).J ^ a) x := fun a => hJ.rpow_const_of_ne hJp
  have htr : ContDiffAt ℝ 2 (fun y => traceCt (data A (C y))) x :=
    ((((h 0 0).mul contDiffAt_const).add ((h 0 1).mul contDiffAt_const)).add ((h 1 0).mul contDiffAt_const)).add
      ((h 1 1).mul contDiffAt_const)
  have hI1 : ContDiffAt ℝ 2 (fun y => I1 (cdata (data A (C y)) (ξ y))) x := htr.add hξ
  have hI2 : ContDiffAt ℝ 2 (fun y => I2 (cdata (data A (C y)) (ξ y))) x := (hξ.mul htr).add hJ0
  have hG : ∀ i j k l, ContDiffAt ℝ 2 (fun y => dCinv (cdata (data A (C y)) (ξ y)) i j k l) x := fun i j k l =>
    contDiffAt_const.mul (((hg i k).mul (hg j l)).add ((hg i l).mul (hg j k)))
  have hd1 : ∀ i j, ContDiffAt ℝ 2 (fun y => dI1 (cdata (data A (C y)) (ξ y)) i j) x := fun i j => contDiffAt_const
  have hd2 : ∀ i j, ContDiffAt ℝ 2 (fun y => dI2 (cdata (data A (C y)) (ξ y)) i j) x := fun i j =>
    (contDiffAt_const.mul ((hξ.mul (hd1 i j)).add (hJ0.mul (hg i j)))).add (contDiffAt_const.mul htr)
  have hdd : ∀ i j k l, ContDiffAt ℝ 2 (fun y => d2I2 (cdata (data A (C y)) (ξ y)) i j k l) x := fun i j k l =>
    ((contDiffAt_const.mul (hJ0.mul (((hg i j).mul (hg k l)).add (hG i j k l)))).add
      (contDiffAt_const.mul (hd1 k l))).add (contDiffAt_const.mul (hd1 i j))
  have hGo : ∀ i j, ContDiffAt ℝ 2 (fun y => (cdata (data A (C y)) (ξ y)).D.Gori i j) x := fun i j => contDiffAt_const
  cases s
  · simp only [Solid.tangent, cNHc]
    fun_prop
  · simp only [Solid.tangent, cMRc]
    fun_prop
  · simp only [Solid.tangent, cNHe]
    fun_prop

end

theorem lawful {s : Solid} {p : Par} (hc : Constants s p) (A : T2) (hA : Metric A) :
    Lawful (material s p (exact s p)) A := by
  have hp := positive_of hc
  have ho := on_metrics hp hA
  refine ⟨ho.symm, ho.tangent, fun C x h hC => (ho.smooth C x h hC).1, fun C x h hC i j k l => ?_⟩
  have hξ := exact_smooth hp hA h hC
  have h0 := (exact_spec hp (tr_pos hA hC) (ratio_pos hA hC)).1
  have hT := full_smooth s p hA h hC hξ h0
  show ContDiffAt ℝ 2 (fun y => condense (s.tangent p (cdata (data A (C y)) (exact s p (data A (C y))))) _ _ _ _) x
  unfold condense
  exact (hT _ _ _ _).sub (((hT _ _ _ _).mul (hT _ _ _ _)).div (hT _ _ _ _) (stiff hp hA hC).ne')

end Verif.PlaneShell
