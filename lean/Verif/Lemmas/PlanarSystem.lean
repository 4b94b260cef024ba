import Verif.Spec.PlanarSystem
import Verif.Spec.PosDef
import Verif.Lemmas.Planar
import Verif.Lemmas.ShellTangent
import Verif.Lemmas.ShellSystem
import Verif.Lemmas.LocalNewton

/-! # Helper lemmas: the nonlinear system of a planar sheet -/

namespace Verif.PlanarSystem

open Verif.Geometry Verif.Variation Verif.Planar Verif.Integrate Verif.Hyper
open Spec.PlanarSystem Spec.ShellTangent Spec.Hyper
open Filter Topology RealInnerProductSpace

/-- What is used of a material with the energy density `ψ` at the undeformed metric `A`. -/
structure Elastic (M : Material) (ψ : T2 → T2 → ℝ) (A : T2) : Prop where
  symm : ∀ C, C 0 1 = C 1 0 → det2 C ≠ 0 → ElasticSymm (M.tangent (Hyper.data A C))
  tangent : ∀ C, C 0 1 = C 1 0 → det2 C ≠ 0 →
    IsTangent (fun G i j => M.stress (Hyper.data A G) (up i) (up j))
      (fun i j k l => M.tangent (Hyper.data A C) (up i) (up j) (up k) (up l)) C
  stress : ∀ C, C 0 1 = C 1 0 → det2 C ≠ 0 →
    IsStress (ψ A) (fun i j => M.stress (Hyper.data A C) (up i) (up j)) C
  sym : ∀ C, C 0 1 = C 1 0 → M.stress (Hyper.data A C) 0 1 = M.stress (Hyper.data A C) 1 0
  smooth : ∀ {V : Type} [NormedAddCommGroup V] [NormedSpace ℝ V] (C : V → T2) (x : V),
    (∀ i j, ContDiffAt ℝ 2 (fun y => C y i j) x) → det2 (C x) ≠ 0 →
    (∀ i j : Fin 2, ContDiffAt ℝ 2 (fun y => M.stress (Hyper.data A (C y)) (up i) (up j)) x) ∧
      ContDiffAt ℝ 2 (fun y => ψ A (C y)) x

/-- The same on positive definite symmetric metrics only. -/
structure OnMetrics (M : Material) (ψ : T2 → T2 → ℝ) (A : T2) : Prop where
  symm : ∀ C, Spec.PosDef.Metric C → ElasticSymm (M.tangent (Hyper.data A C))
  tangent : ∀ C, Spec.PosDef.Metric C →
    IsTangent (fun G i j => M.stress (Hyper.data A G) (up i) (up j))
      (fun i j k l => M.tangent (Hyper.data A C) (up i) (up j) (up k) (up l)) C
  stress : ∀ C, Spec.PosDef.Metric C →
    IsStress (ψ A) (fun i j => M.stress (Hyper.data A C) (up i) (up j)) C
  sym : ∀ C, C 0 1 = C 1 0 → M.stress (Hyper.data A C) 0 1 = M.stress (Hyper.data A C) 1 0
  smooth : ∀ {V : Type} [NormedAddCommGroup V] [NormedSpace ℝ V] (C : V → T2) (x : V),
    (∀ i j, ContDiffAt ℝ 2 (fun y => C y i j) x) → Spec.PosDef.Metric (C x) →
    (∀ i j : Fin 2, ContDiffAt ℝ 2 (fun y => M.stress (Hyper.data A (C y)) (up i) (up j)) x) ∧
      ContDiffAt ℝ 2 (fun y => ψ A (C y)) x

theorem Elastic.on {M : Material} {ψ : T2 → T2 → ℝ} {A : T2} (h : Elastic M ψ A) : OnMetrics M ψ A where
  symm C hC := h.symm C hC.1 hC.2.2.ne'
  tangent C hC := h.tangent C hC.1 hC.2.2.ne'
  stress C hC := h.stress C hC.1 hC.2.2.ne'
  sym := h.sym
  smooth C x hs hC := h.smooth C x hs hC.2.2.ne'

/-! ## The materials -/

section
variable {V : Type} [NormedAddCommGroup V] [NormedSpace ℝ V] {C : V → T2} {x : V}

theorem det_smooth (h : ∀ i j, ContDiffAt ℝ 2 (fun y => C y i j) x) : ContDiffAt ℝ 2 (fun y => det2 (C y)) x :=
  ((h 0 0).mul (h 1 1)).sub ((h 0 1).mul (h 1 0))

theorem inv_smooth (h : ∀ i j, ContDiffAt ℝ 2 (fun y => C y i j) x) (hd : det2 (C x) ≠ 0) (i j : Fin 2) :
    ContDiffAt ℝ 2 (fun y => inv2 (C y) i j) x := by
  have hdet := det_smooth h
  rcases fin2_cases i with rfl | rfl <;> rcases fin2_cases j with rfl | rfl
  · exact (h 1 1).div hdet hd
  · exact (h 0 1).neg.div hdet hd
  · exact (h 1 0).neg.div hdet hd
  · exact (h 0 0).div hdet hd

theorem trace_smooth (A : T2) (h : ∀ i j, ContDiffAt ℝ 2 (fun y => C y i j) x) :
    ContDiffAt ℝ 2 (fun y => ∑ i, ∑ j, C y i j * inv2 A i j) x :=
  ContDiffAt.sum fun i _ => ContDiffAt.sum fun j _ => (h i j).mul contDiffAt_const

end

theorem neoHooke_elastic (p : Par) {A : T2} (hA : det2 A ≠ 0) (hs : A 0 1 = A 1 0) :
    Elastic (neoHooke p) (energyNH p.mu) A where
  symm C hC _ := by
    have h := ShellTangent.data_symm A C hs hC
    exact (C48_incompressible p _ h.1 h.2).1
  tangent C hC hd := by
    rintro C' H hc rfl i j
    exact C45_NH p A hA hc hd i j
  stress C _ hd := ShellTangent.nh_energy p A C hA hd
  sym C hC := by
    have h := ShellTangent.data_symm A C hs hC
    show sNH p _ 0 1 = sNH p _ 1 0
    unfold sNH
    rw [h.1 0 1, h.2 0 1]
  smooth C x h hd := by
    have hdet := det_smooth h
    refine ⟨fun i j => ?_, ?_⟩
    · have e : (fun y => (neoHooke p).stress (Hyper.data A (C y)) (up i) (up j))
          = fun y => p.mu * (inv2 A i j - 1 / (det2 (C y) / det2 A) * inv2 (C y) i j) := by
        funext y; simp only [neoHooke, sNH, Hyper.data, embed_up]
      rw [e]
      exact contDiffAt_const.mul (contDiffAt_const.sub ((contDiffAt_const.div (hdet.div_const _)
        (div_ne_zero hd hA)).mul (inv_smooth h hd i j)))
    · exact contDiffAt_const.mul (((trace_smooth A h).add (contDiffAt_const.div hdet hd)).sub contDiffAt_const)

theorem mooneyRivlin_elastic (p : Par) {A : T2} (hA : det2 A ≠ 0) (hs : A 0 1 = A 1 0) :
    Elastic (mooneyRivlin p) (energyMR p.c1 p.c2) A where
  symm C hC _ := by
    have h := ShellTangent.data_symm A C hs hC
    exact (C48_incompressible p _ h.1 h.2).2
  tangent C hC hd := by
    rintro C' H hc rfl i j
    exact C45_MR p A hA hs hc hd i j
  stress C _ hd := ShellTangent.mr_energy p A C hA hd
  sym C hC := by
    have h := ShellTangent.data_symm A C hs hC
    show sMR p _ 0 1 = sMR p _ 1 0
    unfold sMR
    rw [h.1 0 1, h.2 0 1]
  smooth C x h hd := by
    have hdet := det_smooth h
    refine ⟨fun i j => ?_, ?_⟩
    · have e : (fun y => (mooneyRivlin p).stress (Hyper.data A (C y)) (up i) (up j))
          = fun y => p.c1 * (inv2 A i j - 1 / (det2 (C y) / det2 A) * inv2 (C y) i j)
            + p.c2 / (det2 (C y) / det2 A) * (inv2 A i j - (∑ i, ∑ j, C y i j * inv2 A i j) * inv2 (C y) i j)
            + p.c2 * (det2 (C y) / det2 A) * inv2 (C y) i j := by
        funext y
        simp only [mooneyRivlin, sMR, Hyper.data, embed_up, traceCt, embed_00, embed_01, embed_10, embed_11,
          Fin.sum_univ_two]
        ring
      rw [e]
      have hr := hdet.div_const (det2 A)
      have hr0 : det2 (C x) / det2 A ≠ 0 := div_ne_zero hd hA
      have hi := inv_smooth h hd i j
      exact ((contDiffAt_const.mul (contDiffAt_const.sub ((contDiffAt_const.div hr hr0).mul hi))).add
        ((contDiffAt_const.div hr hr0).mul (contDiffAt_const.sub ((trace_smooth A h).mul hi)))).add
        ((contDiffAt_const.mul hr).mul hi)
    · have ht := trace_smooth A h
      exact (contDiffAt_const.mul ((ht.add (contDiffAt_const.div hdet hd)).sub contDiffAt_const)).add
        (contDiffAt_const.mul ((((contDiffAt_const.div hdet hd).mul ht).add (hdet.div_const _)).sub contDiffAt_const))

/-! ## Along a line -/

theorem data_eq {J K : Jac} (hJ : jdet J ≠ 0) (hK : jdet K ≠ 0) :
    Planar.data J K = Hyper.data (AcovPlanar J) (AcovPlanar K) := by
  simp only [Hyper.data, Planar.data, GconPlanar_eq J hJ, GconPlanar_eq K hK, det3_embed']

theorem det_ne {K : Jac} (hK : jdet K ≠ 0) : det2 (AcovPlanar K) ≠ 0 := by
  rw [det2_planar]; exact pow_ne_zero 2 hK

theorem metric_sym (K : Jac) : AcovPlanar K 0 1 = AcovPlanar K 1 0 := by
  simp only [AcovPlanar]; ring

theorem metric_metric {K : Jac} (hK : jdet K ≠ 0) : Spec.PosDef.Metric (AcovPlanar K) := by
  refine ⟨metric_sym K, ?_, ?_⟩
  · simp only [AcovPlanar]
    by_contra h
    have h0 : K 0 0 = 0 := by nlinarith [mul_self_nonneg (K 0 0), mul_self_nonneg (K 0 1), mul_self_eq_zero (a := K 0 0)]
    have h1 : K 0 1 = 0 := by nlinarith [mul_self_nonneg (K 0 0), mul_self_nonneg (K 0 1)]
    exact hK (by simp [jdet, h0, h1])
  · have := det2_planar K
    unfold det2 at this
    rw [this]; positivity

/-- `K + τ U`. -/
def move (K U : Jac) (τ : ℝ) : Jac := fun i d => K i d + τ * U i d

theorem move_zero (K U : Jac) : move K U 0 = K := by funext i d; simp [move]

/-- Rate of the metric. -/
def rate (K U : Jac) : T2 := fun i j => dot2 (K i) (U j) + dot2 (U i) (K j)

theorem move_curve (K U : Jac) : Curve (fun τ => AcovPlanar (move K U τ)) (rate K U) 0 where
  deriv i j := by
    have h : ∀ i d, HasDerivAt (fun τ : ℝ => move K U τ i d) (U i d) 0 := fun i d => by
      simpa [move] using ((hasDerivAt_id' (0 : ℝ)).mul_const (U i d)).const_add (K i d)
    refine (((h i 0).mul (h j 0)).add ((h i 1).mul (h j 1))).congr_deriv ?_
    simp only [move_zero, rate, dot2]; ring
  symm := metric_sym _
  symmH := by simp only [rate, dot2]; ring

theorem half_rate (K U : Jac) : half (rate K U) = EmDer K U := by
  funext k
  rcases fin3_cases k with rfl | rfl | rfl <;> simp [half, rate, Planar.EmDer, dot2] <;> ring

theorem move_jdet (K U : Jac) (hK : jdet K ≠ 0) : ∀ᶠ τ in 𝓝 (0 : ℝ), jdet (move K U τ) ≠ 0 := by
  have : ContinuousAt (fun τ => jdet (move K U τ)) 0 := by
    unfold jdet move
    fun_prop
  exact this.eventually_ne (by rw [move_zero]; exact hK)

/-- Sum of the weights of the rule through the thickness times the thickness. -/
noncomputable def weight (r : Rule) (t : ℝ) : ℝ := ∑ j, r.w j * t

theorem integrate_const (r : Rule) (t c : ℝ) : integrateZ r t 0 (fun _ => c) = weight r t * c := by
  simp only [integrateZ, weight, pow_zero, mul_one, Finset.sum_mul]
  exact Finset.sum_congr rfl fun j _ => by ring

section
variable {M : Material} {ψ : T2 → T2 → ℝ} {Jo K : Jac} (hM : OnMetrics M ψ (AcovPlanar Jo)) (hJ : jdet Jo ≠ 0) (hK : jdet K ≠ 0)

theorem resultant_eq (M : Material) (r : Rule) (t : ℝ) (hJ : jdet Jo ≠ 0) (hK : jdet K ≠ 0) (k : Fin 3) : resultant M r t 0 Jo K k
    = weight r t * ShellTangent.stressV (M.stress (Hyper.data (AcovPlanar Jo) (AcovPlanar K))) k := by
  rw [resultant, integrate_const, data_eq hJ hK]

theorem modulus_eq (M : Material) (r : Rule) (t : ℝ) (hJ : jdet Jo ≠ 0) (hK : jdet K ≠ 0) (k l : Fin 3) : modulus M r t 0 Jo K k l
    = weight r t * fillMatrix (M.tangent (Hyper.data (AcovPlanar Jo) (AcovPlanar K))) k l := by
  rw [modulus, integrate_const, data_eq hJ hK]

include hM hJ hK

theorem resultant_line (r : Rule) (t : ℝ) (U : Jac) (k : Fin 3) :
    HasDerivAt (fun τ => resultant M r t 0 Jo (move K U τ) k) (∑ j, modulus M r t 0 Jo K k j * EmDer K U j) 0 := by
  have h := ShellTangent.stress_deriv (fun G => M.stress (Hyper.data (AcovPlanar Jo) G)) _
    (hM.symm _ (metric_metric hK)) _ _ (move_curve K U)
    (by simp only [move_zero]; exact hM.tangent _ (metric_metric hK)) k
  rw [half_rate] at h
  have h2 := h.const_mul (weight r t)
  refine (h2.congr_of_eventuallyEq ?_).congr_deriv ?_
  · filter_upwards [move_jdet K U hK] with τ hτ
    rw [resultant_eq M r t hJ hτ]
  · rw [Finset.mul_sum]
    exact Finset.sum_congr rfl fun j _ => by rw [modulus_eq M r t hJ hK]; ring

theorem force_line (r : Rule) (t : ℝ) (U W : Jac) :
    HasDerivAt (fun τ => internalForce (move K W τ) U (resultant M r t 0 Jo (move K W τ)))
      (-stiffness K U W (modulus M r t 0 Jo K) (resultant M r t 0 Jo K)) 0 := by
  have hE : ∀ k, HasDerivAt (fun τ => EmDer (move K W τ) U k) (EmDer W U k) 0 := by
    intro k
    have h : ∀ i d, HasDerivAt (fun τ : ℝ => move K W τ i d) (W i d) 0 := fun i d => by
      simpa [move] using ((hasDerivAt_id' (0 : ℝ)).mul_const (W i d)).const_add (K i d)
    have hd : ∀ i j, HasDerivAt (fun τ : ℝ => dot2 (move K W τ i) (U j)) (dot2 (W i) (U j)) 0 := fun i j =>
      ((h i 0).mul_const (U j 0)).add ((h i 1).mul_const (U j 1))
    rcases fin3_cases k with rfl | rfl | rfl
    · exact hd 0 0
    · exact hd 1 1
    · exact (hd 0 1).add (hd 1 0)
  have h1 := HasDerivAt.fun_sum (u := Finset.univ) fun (k : Fin 3) _ =>
    (resultant_line hM hJ hK r t W k).mul (hE k)
  refine (h1.neg.congr_of_eventuallyEq (Filter.Eventually.of_forall fun τ => ?_)).congr_deriv ?_
  · simp [Planar.internalForce, dotV]
  · simp only [move_zero, dotV, rowMul, Fin.sum_univ_three, Planar.EmDer2, Planar.EmDer, Planar.stiffness, dot2, vec3_zero, vec3_one, vec3_two]
    ring

theorem energy_line (r : Rule) (t : ℝ) (hr : weight r t = t) (U : Jac) :
    HasDerivAt (fun τ => t * ψ (AcovPlanar Jo) (AcovPlanar (move K U τ)))
      (-internalForce K U (resultant M r t 0 Jo K)) 0 := by
  have h := (hM.stress _ (metric_metric hK)) (fun τ => AcovPlanar (move K U τ)) (rate K U) (move_curve K U)
    (by simp only [move_zero])
  refine (h.const_mul t).congr_deriv ?_
  have hs := hM.sym _ (metric_sym K)
  simp only [Planar.internalForce, dotV, Fin.sum_univ_three, Fin.sum_univ_two, resultant_eq M r t hJ hK, hr]
  simp only [ShellTangent.stressV, vec3_zero, vec3_one, vec3_two, Planar.EmDer, rate, dot2, up_zero, up_one, ← hs]
  ring

end

/-! ## The system -/

section
variable {J κ : Type} [Fintype J] {P : Problem J κ} {M : κ → Material} {ψ : κ → T2 → T2 → ℝ} {r : Rule}
  {x : EuclideanSpace ℝ J}

/-- Elastic materials on a regular undeformed sheet. -/
structure Sheet (P : Problem J κ) (M : κ → Material) (ψ : κ → T2 → T2 → ℝ) : Prop where
  ori : ∀ q ∈ P.Q, jdet (P.ori q) ≠ 0
  elastic : ∀ q ∈ P.Q, OnMetrics (M q) (ψ q) (AcovPlanar (P.ori q))

omit [Fintype J] in
theorem combine_single [Fintype J] [DecidableEq J] (f : J → Jac) (x : EuclideanSpace ℝ J) (j : J) (τ : ℝ) (i d : Fin 2) :
    combine f (x + τ • EuclideanSpace.single j (1 : ℝ)).ofLp i d = combine f x i d + τ * f j i d := by
  simp only [combine, PiLp.add_apply, PiLp.smul_apply, smul_eq_mul, add_mul, Finset.sum_add_distrib, PiLp.single_apply]
  congr 1
  rw [Finset.sum_eq_single j (fun b _ hb => by simp [hb]) (by simp)]
  simp

theorem deformed_move [DecidableEq J] (P : Problem J κ) (x : EuclideanSpace ℝ J) (q : κ) (j : J) (τ : ℝ) :
    deformed P (x + τ • EuclideanSpace.single j (1 : ℝ)) q = move (deformed P x q) (P.field q j) τ := by
  funext i d
  simp only [deformed, move, combine_single]; ring

theorem deformed_zero (P : Problem J κ) (q : κ) : deformed P 0 q = P.pre q := by
  funext i d
  simp [deformed, combine]

theorem deformed_smooth (P : Problem J κ) (x : EuclideanSpace ℝ J) (q : κ) (i d : Fin 2) :
    ContDiffAt ℝ 2 (fun y => deformed P y q i d) x :=
  contDiffAt_const.add (ContDiffAt.sum fun j _ => (ShellSystem.coord_smooth j x).mul contDiffAt_const)

theorem metric_smooth (P : Problem J κ) (x : EuclideanSpace ℝ J) (q : κ) (i j : Fin 2) :
    ContDiffAt ℝ 2 (fun y => AcovPlanar (deformed P y q) i j) x :=
  ((deformed_smooth P x q i 0).mul (deformed_smooth P x q j 0)).add
    ((deformed_smooth P x q i 1).mul (deformed_smooth P x q j 1))

theorem admissible_nhds (P : Problem J κ) (hx : x ∈ Admissible P) : Admissible P ∈ 𝓝 x := by
  have : ∀ q ∈ P.Q, {y : EuclideanSpace ℝ J | jdet (deformed P y q) ≠ 0} ∈ 𝓝 x := by
    intro q hq
    have hc : ContinuousAt (fun y => jdet (deformed P y q)) x := by
      unfold jdet
      have h := fun i d => (deformed_smooth P x q i d).continuousAt
      exact ((h 0 0).mul (h 1 1)).sub ((h 0 1).mul (h 1 0))
    exact hc.eventually_ne (hx q hq)
  have h2 := (Filter.biInter_finset_mem P.Q).2 this
  refine Filter.mem_of_superset h2 fun y hy q hq => ?_
  simp only [Set.mem_iInter] at hy
  exact hy q hq

theorem tangent_apply (P : Problem J κ) (M : κ → Material) (r : Rule) (x v : EuclideanSpace ℝ J) (j : J) :
    tangent P M r x v j = ∑ j', entry P M r x j j' * v j' := rfl

theorem forces_smooth (hS : Sheet P M ψ) (hx : x ∈ Admissible P) {q : κ} (hq : q ∈ P.Q) (k : Fin 3) :
    ContDiffAt ℝ 2 (fun y => forces P M r y q k) x := by
  have h := ((hS.elastic q hq).smooth (fun y => AcovPlanar (deformed P y q)) x (metric_smooth P x q) (metric_metric (hx q hq))).1
  have h2 : ContDiffAt ℝ 2 (fun y => weight r (P.t q)
      * ShellTangent.stressV ((M q).stress (Hyper.data (AcovPlanar (P.ori q)) (AcovPlanar (deformed P y q)))) k) x := by
    refine contDiffAt_const.mul ?_
    rcases fin3_cases k with rfl | rfl | rfl
    · exact h 0 0
    · exact h 1 1
    · exact h 0 1
  refine h2.congr_of_eventuallyEq ?_
  filter_upwards [admissible_nhds P hx] with y hy
  exact resultant_eq (M q) r (P.t q) (hS.ori q hq) (hy q hq) k

theorem residual_smooth (hS : Sheet P M ψ) (hx : x ∈ Admissible P) : ContDiffAt ℝ 2 (residual P M r) x := by
  refine (contDiffAt_euclidean (𝕜 := ℝ)).2 fun j => ?_
  show ContDiffAt ℝ 2 (fun y => (∑ q ∈ P.Q, Planar.internalForce (deformed P y q) (P.field q j)
    (forces P M r y q) * P.μ q) + P.F j) x
  refine (ContDiffAt.sum fun q hq => ContDiffAt.mul ?_ contDiffAt_const).add contDiffAt_const
  have hd := deformed_smooth P x q
  have hn := fun k => forces_smooth (r := r) hS hx hq k
  have hdot : ∀ i k, ContDiffAt ℝ 2 (fun y => dot2 (deformed P y q i) (P.field q j k)) x := fun i k =>
    ((hd i 0).mul contDiffAt_const).add ((hd i 1).mul contDiffAt_const)
  have : (fun y => Planar.internalForce (deformed P y q) (P.field q j) (forces P M r y q)) = fun y =>
      -(forces P M r y q 0 * dot2 (deformed P y q 0) (P.field q j 0)
        + forces P M r y q 1 * dot2 (deformed P y q 1) (P.field q j 1)
        + forces P M r y q 2 * (dot2 (deformed P y q 0) (P.field q j 1) + dot2 (deformed P y q 1) (P.field q j 0))) := by
    funext y
    simp [Planar.internalForce, dotV, Fin.sum_univ_three, Planar.EmDer]
  rw [this]
  exact ((((hn 0).mul (hdot 0 0)).add ((hn 1).mul (hdot 1 1))).add
    ((hn 2).mul ((hdot 0 1).add (hdot 1 0)))).neg

theorem residual_line [DecidableEq J] (hS : Sheet P M ψ) (hx : x ∈ Admissible P) (j j' : J) :
    HasDerivAt (fun τ : ℝ => residual P M r (x + τ • EuclideanSpace.single j' (1 : ℝ)) j)
      (-entry P M r x j j') 0 := by
  have h := HasDerivAt.fun_sum (u := P.Q) fun q hq =>
    (force_line (hS.elastic q hq) (hS.ori q hq) (hx q hq) r (P.t q) (P.field q j) (P.field q j')).mul_const (P.μ q)
  refine ((h.add_const (P.F j)).congr_of_eventuallyEq (Filter.Eventually.of_forall fun τ => ?_)).congr_deriv ?_
  · show (∑ q ∈ P.Q, _) + _ = (∑ q ∈ P.Q, _) + _
    simp only [forces, deformed_move]
  · simp only [entry, neg_mul, Finset.sum_neg_distrib]
    rfl

theorem residual_deriv [DecidableEq J] (hS : Sheet P M ψ) (hx : x ∈ Admissible P) :
    HasFDerivAt (residual P M r) (-tangent P M r x) x := by
  refine ShellSystem.fderiv_of_lines ((residual_smooth hS hx).differentiableAt (by norm_num)) fun j' => ?_
  have h : ∀ j, HasDerivAt (fun τ : ℝ => residual P M r (x + τ • EuclideanSpace.single j' (1 : ℝ)) j)
      ((-tangent P M r x) (EuclideanSpace.single j' 1) j) 0 := fun j => by
    refine (residual_line hS hx j j').congr_deriv ?_
    simp [tangent_apply, PiLp.single_apply]
  rw [hasDerivAt_iff_hasFDerivAt, ← hasFDerivWithinAt_univ, hasFDerivWithinAt_euclidean]
  intro j
  rw [hasFDerivWithinAt_univ]
  refine (h j).hasFDerivAt.congr_fderiv ?_
  ext; simp

theorem gram_eq (K : Jac) : gram K = AcovPlanar K := by
  funext i j; simp [gram, AcovPlanar, Fin.sum_univ_two]

theorem potential_gradient [DecidableEq J] (hS : Sheet P M ψ) (hr : ∀ q ∈ P.Q, weight r (P.t q) = P.t q)
    (hx : x ∈ Admissible P) : HasGradientAt (potential P ψ) (-residual P M r x) x := by
  have e : potential P ψ = fun y : EuclideanSpace ℝ J => (∑ q ∈ P.Q, P.t q
      * ψ q (AcovPlanar (P.ori q)) (AcovPlanar (deformed P y q)) * P.μ q) - ∑ j, P.F j * y j := by
    funext y; simp only [potential, gram_eq]
  rw [e]
  have hd : DifferentiableAt ℝ (fun y : EuclideanSpace ℝ J => (∑ q ∈ P.Q, P.t q
      * ψ q (AcovPlanar (P.ori q)) (AcovPlanar (deformed P y q)) * P.μ q) - ∑ j, P.F j * y j) x := by
    refine ContDiffAt.differentiableAt (n := 2) ?_ (by norm_num)
    refine (ContDiffAt.sum fun q hq => (contDiffAt_const.mul ?_).mul contDiffAt_const).sub
      (ContDiffAt.sum fun i _ => contDiffAt_const.mul (ShellSystem.coord_smooth i x))
    exact ((hS.elastic q hq).smooth _ x (metric_smooth P x q) (metric_metric (hx q hq))).2
  refine ShellSystem.fderiv_of_lines hd fun j => ?_
  have h1 := HasDerivAt.fun_sum (u := P.Q) fun q hq =>
    (energy_line (hS.elastic q hq) (hS.ori q hq) (hx q hq) r (P.t q) (hr q hq) (P.field q j)).mul_const (P.μ q)
  have h2 : HasDerivAt (fun τ : ℝ => ∑ i, P.F i * (x + τ • EuclideanSpace.single j (1 : ℝ)) i) (P.F j) 0 := by
    have h3 : HasDerivAt (fun τ : ℝ => (∑ i, P.F i * x i) + τ * P.F j) (P.F j) 0 := by
      simpa using ((hasDerivAt_id' (0 : ℝ)).mul_const (P.F j)).const_add (∑ i, P.F i * x i)
    refine h3.congr_of_eventuallyEq (Filter.Eventually.of_forall fun τ => ?_)
    simp only [PiLp.add_apply, PiLp.smul_apply, PiLp.single_apply, mul_add, Finset.sum_add_distrib, smul_eq_mul]
    simp [mul_comm]
  refine ((h1.sub h2).congr_of_eventuallyEq (Filter.Eventually.of_forall fun τ => ?_)).congr_deriv ?_
  · simp only [deformed_move]; rfl
  · have : (residual P M r x) j = (∑ q ∈ P.Q, Planar.internalForce (deformed P x q) (P.field q j)
        (resultant (M q) r (P.t q) 0 (P.ori q) (deformed P x q)) * P.μ q) + P.F j := rfl
    simp [InnerProductSpace.toDual_apply_apply, EuclideanSpace.inner_single_right, this]
    ring

/-! ## Definiteness -/

theorem em_sum (K : Jac) (f : J → Jac) (v : J → ℝ) (k : Fin 3) :
    Planar.EmDer K (combine f v) k = ∑ j, v j * Planar.EmDer K (f j) k := by
  have hd : ∀ i l, dot2 (K i) (combine f v l) = ∑ j, v j * dot2 (K i) (f j l) := by
    intro i l
    simp only [dot2, combine, Finset.mul_sum, ← Finset.sum_add_distrib]
    exact Finset.sum_congr rfl fun j _ => by ring
  rcases fin3_cases k with rfl | rfl | rfl
  · exact hd 0 0
  · exact hd 1 1
  · show dot2 (K 0) (combine f v 1) + dot2 (K 1) (combine f v 0) = ∑ j, v j * (dot2 (K 0) (f j 1) + dot2 (K 1) (f j 0))
    rw [hd, hd, ← Finset.sum_add_distrib]
    exact Finset.sum_congr rfl fun j _ => by ring

theorem stiffness_right (K U : Jac) (f : J → Jac) (A : T3) (N : Voigt) (v : J → ℝ) :
    Planar.stiffness K U (combine f v) A N = ∑ j, v j * Planar.stiffness K U (f j) A N := by
  have hB : ∀ i l, dot2 (U i) (combine f v l) = ∑ j, v j * dot2 (U i) (f j l) := by
    intro i l
    simp only [dot2, combine, Finset.mul_sum, ← Finset.sum_add_distrib]
    exact Finset.sum_congr rfl fun j _ => by ring
  simp only [Planar.stiffness, dotV, Planar.EmDer2, hB, em_sum, Fin.sum_univ_three, Finset.sum_mul, Finset.mul_sum,
    ← Finset.sum_add_distrib]
  exact Finset.sum_congr rfl fun j _ => by ring

theorem stiffness_symm (K U V : Jac) (A : T3) (hA : ∀ i j, A i j = A j i) (N : Voigt) :
    Planar.stiffness K U V A N = Planar.stiffness K V U A N := by
  simp only [Planar.stiffness, dotV, Planar.EmDer2, rowMul, Fin.sum_univ_three, dot2]
  rw [hA 1 0, hA 2 0, hA 2 1]
  ring

theorem stiffness_left (K V : Jac) (f : J → Jac) (A : T3) (N : Voigt) (v : J → ℝ) :
    Planar.stiffness K (combine f v) V A N = ∑ j, v j * Planar.stiffness K (f j) V A N := by
  have hB : ∀ i l, dot2 (combine f v i) (V l) = ∑ j, v j * dot2 (f j i) (V l) := by
    intro i l
    simp only [dot2, combine, Finset.sum_mul, ← Finset.sum_add_distrib]
    exact Finset.sum_congr rfl fun j _ => by ring
  simp only [Planar.stiffness, dotV, Planar.EmDer2, rowMul, hB, em_sum, Fin.sum_univ_three, Finset.sum_mul,
    ← Finset.sum_add_distrib]
  exact Finset.sum_congr rfl fun j _ => by ring

theorem form_eq (P : Problem J κ) (M : κ → Material) (r : Rule) (x : EuclideanSpace ℝ J) (v : J → ℝ) :
    ∑ j, ∑ j', v j * entry P M r x j j' * v j' = ∑ q ∈ P.Q, Planar.stiffness (deformed P x q) (combine (P.field q) v)
      (combine (P.field q) v) (moduli P M r x q) (forces P M r x q) * P.μ q := by
  simp only [stiffness_left, stiffness_right, entry, Finset.mul_sum, Finset.sum_mul]
  rw [Finset.sum_congr rfl fun j _ => Finset.sum_comm, Finset.sum_comm]
  refine Finset.sum_congr rfl fun q _ => ?_
  rw [Finset.sum_comm]
  exact Finset.sum_congr rfl fun j _ => Finset.sum_congr rfl fun j' _ => by ring

/-- The geometric part is not negative under tension. -/
theorem tension_nonneg {n : Voigt} (hn : Tension n) (U : Jac) : 0 ≤ Planar.EmDer2 U U n := by
  obtain ⟨h0, h1, h2⟩ := hn
  have key : ∀ a b : ℝ, 0 ≤ n 0 * a ^ 2 + 2 * n 2 * a * b + n 1 * b ^ 2 := by
    intro a b
    rcases h0.eq_or_lt with h | h
    · have hz : n 2 = 0 := by
        rw [← h, zero_mul] at h2
        exact pow_eq_zero_iff (two_ne_zero) |>.1 (le_antisymm h2 (sq_nonneg _))
      rw [← h, hz]; nlinarith [mul_nonneg h1 (sq_nonneg b)]
    · have : 0 ≤ n 0 * (n 0 * a ^ 2 + 2 * n 2 * a * b + n 1 * b ^ 2) := by
        have e : n 0 * (n 0 * a ^ 2 + 2 * n 2 * a * b + n 1 * b ^ 2)
            = (n 0 * a + n 2 * b) ^ 2 + (n 0 * n 1 - n 2 ^ 2) * b ^ 2 := by ring
        rw [e]
        have := mul_nonneg (sub_nonneg.2 h2) (sq_nonneg b)
        positivity
      exact nonneg_of_mul_nonneg_right this h
  have e : Planar.EmDer2 U U n = (n 0 * U 0 0 ^ 2 + 2 * n 2 * U 0 0 * U 1 0 + n 1 * U 1 0 ^ 2)
      + (n 0 * U 0 1 ^ 2 + 2 * n 2 * U 0 1 * U 1 1 + n 1 * U 1 1 ^ 2) := by
    simp only [Planar.EmDer2, dot2]; ring
  rw [e]
  exact add_nonneg (key _ _) (key _ _)

theorem noStrain_of {K : κ → Jac} {v : J → ℝ}
    (h : ∀ q ∈ P.Q, Planar.EmDer (K q) (combine (P.field q) v) = 0) : NoStrain P K v := by
  intro q hq i j
  have h0 := congrFun (h q hq) 0
  have h1 := congrFun (h q hq) 1
  have h2 := congrFun (h q hq) 2
  simp only [Planar.EmDer, vec3_zero, vec3_one, vec3_two, dot2, combine, Pi.zero_apply] at h0 h1 h2
  rcases fin2_cases i with rfl | rfl <;> rcases fin2_cases j with rfl | rfl <;> simp only [Fin.sum_univ_two] <;> linarith

/-- Positive moduli, tension, no displacement without strain: the tangent is positive definite. -/
theorem definite {x : EuclideanSpace ℝ J} (hμ : ∀ q ∈ P.Q, 0 < P.μ q)
    (hA : ∀ q ∈ P.Q, Spec.PosDef.PosMat (moduli P M r x q)) (hn : ∀ q ∈ P.Q, Tension (forces P M r x q))
    (hH : Held P (deformed P x)) (v : J → ℝ) (hv : v ≠ 0) :
    0 < ∑ j, ∑ j', v j * entry P M r x j j' * v j' := by
  rw [form_eq]
  have hmat : ∀ q, dotV (rowMul (Planar.EmDer (deformed P x q) (combine (P.field q) v)) (moduli P M r x q))
      (Planar.EmDer (deformed P x q) (combine (P.field q) v))
      = ∑ i, ∑ j, Planar.EmDer (deformed P x q) (combine (P.field q) v) i * moduli P M r x q i j
        * Planar.EmDer (deformed P x q) (combine (P.field q) v) j := by
    intro q
    simp only [dotV, rowMul, Fin.sum_univ_three]; ring
  have hnn : ∀ q ∈ P.Q, 0 ≤ dotV (rowMul (Planar.EmDer (deformed P x q) (combine (P.field q) v)) (moduli P M r x q))
      (Planar.EmDer (deformed P x q) (combine (P.field q) v)) := by
    intro q hq
    rw [hmat]
    by_cases h : Planar.EmDer (deformed P x q) (combine (P.field q) v) = 0
    · simp [h]
    · exact (hA q hq _ h).le
  have hterm : ∀ q ∈ P.Q, 0 ≤ Planar.stiffness (deformed P x q) (combine (P.field q) v)
      (combine (P.field q) v) (moduli P M r x q) (forces P M r x q) * P.μ q := fun q hq =>
    mul_nonneg (add_nonneg (hnn q hq) (tension_nonneg (hn q hq) _)) (hμ q hq).le
  refine lt_of_le_of_ne (Finset.sum_nonneg hterm) fun h0 => hv (hH v (noStrain_of fun q hq => ?_))
  have hz := (Finset.sum_eq_zero_iff_of_nonneg hterm).1 h0.symm q hq
  have hz2 := (mul_eq_zero.1 hz).resolve_right (hμ q hq).ne'
  by_contra hne
  have h1 := hA q hq _ hne
  rw [← hmat] at h1
  have h2 := tension_nonneg (hn q hq) (combine (P.field q) v)
  unfold Planar.stiffness at hz2
  linarith

theorem injective_of (h : ∀ v : J → ℝ, v ≠ 0 → 0 < ∑ j, ∑ j', v j * entry P M r x j j' * v j') :
    Function.Injective (tangent P M r x) := by
  refine (injective_iff_map_eq_zero _).2 fun v hv => ?_
  by_contra hne
  have h1 := h v.ofLp (fun h => hne (by ext j; exact congrFun h j))
  have h2 : ∀ j, ∑ j', entry P M r x j j' * v j' = 0 := fun j => by rw [← tangent_apply, hv]; rfl
  have h3 : ∑ j, ∑ j', v j * entry P M r x j j' * v j' = ∑ j, v j * ∑ j', entry P M r x j j' * v j' :=
    Finset.sum_congr rfl fun j _ => by rw [Finset.mul_sum]; exact Finset.sum_congr rfl fun j' _ => by ring
  rw [h3] at h1
  simp [h2] at h1

theorem inner_form (v : EuclideanSpace ℝ J) :
    ⟪tangent P M r x v, v⟫ = ∑ j, ∑ j', v j * entry P M r x j j' * v j' := by
  simp only [PiLp.inner_apply, tangent_apply, RCLike.inner_apply, conj_trivial, Finset.mul_sum]
  exact Finset.sum_congr rfl fun j _ => Finset.sum_congr rfl fun j' _ => by ring

end

end Verif.PlanarSystem
