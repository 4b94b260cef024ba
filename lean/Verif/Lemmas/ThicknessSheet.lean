import Verif.Lemmas.Thickness
import Verif.Lemmas.NoisyNewton
import Verif.Props.PlaneSheet

/-! # Helper lemmas: sheets with the thickness stretches as computed -/

namespace Verif.Thickness

open Verif.Geometry Verif.Hyper Verif.PlaneStress Verif.PlaneSheet
open Spec.PlaneSheet Spec.Hyper Spec.PosDef
open Verif.PlanarSystem (det_smooth inv_smooth trace_smooth)
open Filter Topology

section
variable {V : Type} [NormedAddCommGroup V] [NormedSpace ℝ V]

/-- Families of data that are smooth. -/
structure Smooth (d : V → CData) (x : V) : Prop where
  J : ContDiffAt ℝ 2 (fun y => (d y).J) x
  cinv : ∀ i j, ContDiffAt ℝ 2 (fun y => (d y).cinv i j) x
  c : ContDiffAt ℝ 2 (fun y => (d y).c 2 2) x
  trace : ContDiffAt ℝ 2 (fun y => traceCt (d y).D) x
  J0 : ContDiffAt ℝ 2 (fun y => (d y).D.J0) x
  Gori : ∀ i j, ContDiffAt ℝ 2 (fun y => (d y).D.Gori i j) x
  pos : (d x).J ≠ 0

variable {d : V → CData} {x : V}

theorem Smooth.power (h : Smooth d x) (a : ℝ) : ContDiffAt ℝ 2 (fun y => (d y).J ^ a) x := h.J.rpow_const_of_ne h.pos

theorem Smooth.i1 (h : Smooth d x) : ContDiffAt ℝ 2 (fun y => I1 (d y)) x := h.trace.add h.c

theorem Smooth.i2 (h : Smooth d x) : ContDiffAt ℝ 2 (fun y => I2 (d y)) x := (h.c.mul h.trace).add h.J0

theorem Smooth.di1 (h : Smooth d x) (i j : Fin 3) : ContDiffAt ℝ 2 (fun y => dI1 (d y) i j) x := h.Gori i j

theorem Smooth.di2 (h : Smooth d x) (i j : Fin 3) : ContDiffAt ℝ 2 (fun y => dI2 (d y) i j) x :=
  (contDiffAt_const.mul ((h.c.mul (h.di1 i j)).add (h.J0.mul (h.cinv i j)))).add (contDiffAt_const.mul h.trace)

theorem Smooth.dcinv (h : Smooth d x) (i j k l : Fin 3) : ContDiffAt ℝ 2 (fun y => dCinv (d y) i j k l) x :=
  contDiffAt_const.mul (((h.cinv i k).mul (h.cinv j l)).add ((h.cinv i l).mul (h.cinv j k)))

theorem Smooth.d2i2 (h : Smooth d x) (i j k l : Fin 3) : ContDiffAt ℝ 2 (fun y => d2I2 (d y) i j k l) x :=
  ((contDiffAt_const.mul (h.J0.mul (((h.cinv i j).mul (h.cinv k l)).add (h.dcinv i j k l)))).add
    (contDiffAt_const.mul (h.di1 k l))).add (contDiffAt_const.mul (h.di1 i j))

theorem Smooth.stress (h : Smooth d x) (s : Solid) (p : Par) (i j : Fin 3) :
    ContDiffAt ℝ 2 (fun y => s.stress p (d y) i j) x := by
  have h1 := h.power (-1 / 3)
  have h2 := h.power (-2 / 3)
  have h3 := h.i1
  have h4 := h.i2
  have h5 := h.di2 i j
  have h6 := h.cinv i j
  have h7 := h.Gori i j
  have h8 := h.J
  cases s
  · show ContDiffAt ℝ 2 (fun y => sNHc p (d y) i j) x
    unfold sNHc
    fun_prop
  · show ContDiffAt ℝ 2 (fun y => sMRc p (d y) i j) x
    unfold sMRc
    fun_prop
  · show ContDiffAt ℝ 2 (fun y => sNHe p (d y) i j) x
    unfold sNHe
    fun_prop

theorem Smooth.tangent (h : Smooth d x) (s : Solid) (p : Par) (i j k l : Fin 3) :
    ContDiffAt ℝ 2 (fun y => s.tangent p (d y) i j k l) x := by
  have h1 := h.power (-1 / 3)
  have h2 := h.power (-2 / 3)
  have h3 := h.i1
  have h4 := h.i2
  have h5 := h.di2 i j
  have h5' := h.di2 k l
  have h6 := h.cinv i j
  have h6' := h.cinv k l
  have h7 := h.Gori i j
  have h7' := h.Gori k l
  have h9 := h.di1 i j
  have h9' := h.di1 k l
  have h8 := h.J
  have h10 := h.dcinv i j k l
  have h11 := h.d2i2 i j k l
  cases s
  · show ContDiffAt ℝ 2 (fun y => cNHc p (d y) i j k l) x
    unfold cNHc
    fun_prop
  · show ContDiffAt ℝ 2 (fun y => cMRc p (d y) i j k l) x
    unfold cMRc
    fun_prop
  · show ContDiffAt ℝ 2 (fun y => cNHe p (d y) i j k l) x
    unfold cNHe
    fun_prop

theorem Smooth.condensed (h : Smooth d x) (s : Solid) (p : Par) (h0 : s.tangent p (d x) 2 2 2 2 ≠ 0) (i j k l : Fin 3) :
    ContDiffAt ℝ 2 (fun y => condense (s.tangent p (d y)) i j k l) x :=
  (h.tangent s p i j k l).sub (((h.tangent s p i j 2 2).mul (h.tangent s p 2 2 k l)).div (h.tangent s p 2 2 2 2) h0)

theorem smooth_data {A : T2} (hA : Metric A) {C : V → T2} {η : V → ℝ} (h : ∀ i j, ContDiffAt ℝ 2 (fun y => C y i j) x)
    (hη : ContDiffAt ℝ 2 η x) (hC : Metric (C x)) (hpos : 0 < η x) : Smooth (fun y => cdata (data A (C y)) (η y)) x where
  J := (ratio_smooth A h).mul hη
  cinv i j := by
    have hi := inv_smooth h hC.2.2.ne'
    have e := contDiffAt_const (c := (1 : ℝ)).div hη hpos.ne'
    rcases fin3_cases i with rfl | rfl | rfl <;> rcases fin3_cases j with rfl | rfl | rfl
    exacts [hi 0 0, hi 0 1, contDiffAt_const, hi 1 0, hi 1 1, contDiffAt_const, contDiffAt_const, contDiffAt_const, e]
  c := by
    simp only [cdata, withT_22]; exact hη
  trace := by
    simp only [cdata, tr_eq]; exact tr_smooth A h
  J0 := ratio_smooth A h
  Gori i j := contDiffAt_const
  pos := (mul_pos (ratio_pos hA hC) hpos).ne'

end

/-! ## Stretches at the points of a sheet -/

section
open Verif.Variation Verif.Planar Verif.Integrate
open Spec.PlanarSystem (Body Admissible)

variable {J κ : Type} [Fintype J] {P : PlanarSystem.Problem J κ} {S : κ → Solid} {p : κ → Par} {r : Rule}

/-- The data of a point. -/
noncomputable abbrev pointData (P : PlanarSystem.Problem J κ) (x : EuclideanSpace ℝ J) (q : κ) : Data :=
  Hyper.data (AcovPlanar (P.ori q)) (AcovPlanar (PlanarSystem.deformed P x q))

theorem origin (hB : Body P) (hpre : P.pre = P.ori) : (0 : EuclideanSpace ℝ J) ∈ Admissible P := by
  intro q hq
  rw [PlanarSystem.deformed_zero, hpre]; exact (hB q hq).1

theorem exact_origin (hB : Body P) (hpre : P.pre = P.ori) (hp : ∀ q ∈ P.Q, Constants (S q) (p q)) {q : κ} (hq : q ∈ P.Q) :
    exact (S q) (p q) (pointData P 0 q) = 1 := by
  rw [pointData, PlanarSystem.deformed_zero, hpre]
  exact exact_rest (positive_of (hp q hq)) (PlanarSystem.metric_metric (hB q hq).1)

theorem exact_contDiff (hB : Body P) (hpre : P.pre = P.ori) (hp : ∀ q ∈ P.Q, Constants (S q) (p q)) {q : κ} (hq : q ∈ P.Q) :
    ContDiffAt ℝ 2 (fun x => exact (S q) (p q) (pointData P x q)) 0 :=
  exact_smooth (C := fun x => AcovPlanar (PlanarSystem.deformed P x q)) (positive_of (hp q hq))
    (PlanarSystem.metric_metric (hB q hq).1) (PlanarSystem.metric_smooth P 0 q)
    (PlanarSystem.metric_metric (origin hB hpre q hq))

theorem tr_self {A : T2} (h : det2 A ≠ 0) (hs : A 0 1 = A 1 0) : tr A A = 2 := by
  simp only [tr, Fin.sum_univ_two, inv2, Matrix.cons_val_zero, Matrix.cons_val_one]
  have e : det2 A = A 0 0 * A 1 1 - A 0 1 * A 1 0 := rfl
  field_simp
  rw [e, hs]; ring

theorem det_planar_ne {K : Jac} (hK : jdet K ≠ 0) : 0 < det2 (AcovPlanar K) := (PlanarSystem.metric_metric hK).2.2

/-- Near the undeformed state the iterations of all points converge. -/
theorem stretches (hB : Body P) (hpre : P.pre = P.ori) (hp : ∀ q ∈ P.Q, Constants (S q) (p q)) {q : κ} (hq : q ∈ P.Q)
    {ε : ℝ} (hε : 0 < ε) : ∀ᶠ x in 𝓝 (0 : EuclideanSpace ℝ J), ∃ y, computed (S q) (p q) (pointData P x q) = .ok y ∧
      |y - exact (S q) (p q) (pointData P x q)| ≤ 2 * Newton.tol ∧
      |y - exact (S q) (p q) (pointData P x q)| ≤ ε * ‖x‖ := by
  have h0 := origin hB hpre q hq
  have hA := PlanarSystem.metric_metric (hB q hq).1
  have hsm := PlanarSystem.metric_smooth P 0 q
  have ht := tr_smooth (AcovPlanar (P.ori q)) hsm
  have hj := ratio_smooth (AcovPlanar (P.ori q)) hsm
  have hj' : ContDiffAt ℝ 2 (fun x => det2 (AcovPlanar (P.ori q)) / det2 (AcovPlanar (PlanarSystem.deformed P x q))) 0 :=
    contDiffAt_const.div (PlanarSystem.det_smooth hsm) (det_planar_ne h0).ne'
  have hd := hj'.sub (exact_contDiff hB hpre hp hq)
  obtain ⟨K, T, hT, hK⟩ := (hd.of_le (m := 1) (by norm_num)).exists_lipschitzOnWith
  have e0 : AcovPlanar (PlanarSystem.deformed P 0 q) = AcovPlanar (P.ori q) := by rw [PlanarSystem.deformed_zero, hpre]
  have hne := (det_planar_ne (hB q hq).1).ne'
  have e1 : det2 (AcovPlanar (P.ori q)) / det2 (AcovPlanar (PlanarSystem.deformed P 0 q))
      - exact (S q) (p q) (pointData P 0 q) = 0 := by
    rw [exact_origin hB hpre hp hq, e0, div_self hne, sub_self]
  have hκ : 0 < min (1 / 4) (ε / (K + 1)) := by
    have : (0 : ℝ) ≤ K := K.2
    positivity
  obtain ⟨δ, hδ, hf⟩ := found (positive_of (hp q hq)) hκ (min_le_left _ _)
  have c1 : ∀ᶠ x in 𝓝 (0 : EuclideanSpace ℝ J),
      |tr (AcovPlanar (P.ori q)) (AcovPlanar (PlanarSystem.deformed P x q)) - 2| < δ := by
    refine ((ht.continuousAt.sub continuousAt_const).abs).eventually_lt continuousAt_const ?_
    show |tr _ (AcovPlanar (PlanarSystem.deformed P 0 q)) - 2| < δ
    rw [e0, tr_self hne hA.1, sub_self, abs_zero]; exact hδ
  have c2 : ∀ᶠ x in 𝓝 (0 : EuclideanSpace ℝ J),
      |det2 (AcovPlanar (PlanarSystem.deformed P x q)) / det2 (AcovPlanar (P.ori q)) - 1| < δ := by
    refine ((hj.continuousAt.sub continuousAt_const).abs).eventually_lt continuousAt_const ?_
    show |det2 (AcovPlanar (PlanarSystem.deformed P 0 q)) / _ - 1| < δ
    rw [e0, div_self hne, sub_self, abs_zero]; exact hδ
  filter_upwards [c1, c2, hT, PlanarSystem.admissible_nhds P (origin hB hpre)] with x b1 b2 b3 b4
  obtain ⟨y, f1, f2, f3, f4⟩ := hf _ _ hA (PlanarSystem.metric_metric (b4 q hq)) b1.le b2.le
  refine ⟨y, f1, f3, f4.trans ?_⟩
  have b5 := hK.dist_le_mul x b3 0 (mem_of_mem_nhds hT)
  rw [Real.dist_eq, e1, sub_zero, dist_zero_right] at b5
  have hK0 : (0 : ℝ) ≤ K := K.2
  calc _ ≤ ε / (K + 1) * (K * ‖x‖) := mul_le_mul (min_le_right _ _) b5 (abs_nonneg _) (by positivity)
    _ = ε * ‖x‖ * (K / (K + 1)) := by ring
    _ ≤ ε * ‖x‖ * 1 := by
      refine mul_le_mul_of_nonneg_left ?_ (by positivity)
      rw [div_le_one (by positivity)]; linarith
    _ = _ := mul_one _

/-- Smooth functions of state and stretch, with the computed and the exact stretch. -/
theorem depends (hB : Body P) (hpre : P.pre = P.ori) (hp : ∀ q ∈ P.Q, Constants (S q) (p q)) {q : κ} (hq : q ∈ P.Q)
    {f : EuclideanSpace ℝ J × ℝ → ℝ} (hf : ContDiffAt ℝ 2 f (0, 1)) :
    ∃ K : ℝ, 0 ≤ K ∧ ∀ᶠ x in 𝓝 (0 : EuclideanSpace ℝ J), ∀ y, computed (S q) (p q) (pointData P x q) = .ok y →
      |f (x, y) - f (x, exact (S q) (p q) (pointData P x q))| ≤ K * |y - exact (S q) (p q) (pointData P x q)| := by
  obtain ⟨K, T, hT, hK⟩ := (hf.of_le (m := 1) (by norm_num)).exists_lipschitzOnWith
  obtain ⟨δ, hδ, hb⟩ := Metric.mem_nhds_iff.1 hT
  refine ⟨K, K.2, ?_⟩
  have he := (exact_contDiff hB hpre hp hq).continuousAt
  have c1 : ∀ᶠ x in 𝓝 (0 : EuclideanSpace ℝ J), |exact (S q) (p q) (pointData P x q) - 1| < δ / 2 := by
    refine ((he.sub continuousAt_const).abs).eventually_lt continuousAt_const ?_
    show |exact (S q) (p q) (pointData P 0 q) - 1| < δ / 2
    rw [exact_origin hB hpre hp hq, sub_self, abs_zero]; positivity
  filter_upwards [c1, stretches hB hpre hp hq one_pos, Metric.ball_mem_nhds (0 : EuclideanSpace ℝ J) (half_pos hδ)]
    with x b1 ⟨y, b2, _, b4⟩ b3 z hz
  rw [b2] at hz
  obtain rfl : y = z := Outcome.ok.inj hz
  rw [mem_ball_zero_iff] at b3
  have m1 : (x, y) ∈ T := hb (by
    rw [Metric.mem_ball, Prod.dist_eq, dist_zero_right, Real.dist_eq]
    refine max_lt (by linarith) ?_
    have := abs_sub_le y (exact (S q) (p q) (pointData P x q)) 1
    linarith)
  have m2 : (x, exact (S q) (p q) (pointData P x q)) ∈ T := hb (by
    rw [Metric.mem_ball, Prod.dist_eq, dist_zero_right, Real.dist_eq]
    exact max_lt (by linarith) (by linarith))
  have := hK.dist_le_mul _ m1 _ m2
  rwa [Real.dist_eq, Prod.dist_eq, dist_self, Real.dist_eq, max_eq_right (abs_nonneg _)] at this

/-! ## Residual and tangent -/

/-- The materials with given stretches. -/
noncomputable abbrev with_ (S : κ → Solid) (p : κ → Par) (ξ : κ → Data → ℝ) : κ → Material :=
  fun q => material (S q) (p q) (ξ q)

/-- Membrane forces of a point as function of state and stretch. -/
noncomputable def force (P : PlanarSystem.Problem J κ) (S : κ → Solid) (p : κ → Par) (r : Rule) (q : κ)
    (z : EuclideanSpace ℝ J × ℝ) (k : Fin 3) : ℝ :=
  PlanarSystem.weight r (P.t q) * ShellTangent.stressV ((S q).stress (p q) (cdata (pointData P z.1 q) z.2)) k

/-- Moduli of a point. -/
noncomputable def moduli (P : PlanarSystem.Problem J κ) (S : κ → Solid) (p : κ → Par) (r : Rule) (q : κ)
    (z : EuclideanSpace ℝ J × ℝ) (k l : Fin 3) : ℝ :=
  PlanarSystem.weight r (P.t q) * fillMatrix (condense ((S q).tangent (p q) (cdata (pointData P z.1 q) z.2))) k l

theorem force_eq (hB : Body P) {x : EuclideanSpace ℝ J} (hx : x ∈ Admissible P) {q : κ} (hq : q ∈ P.Q) (ξ : κ → Data → ℝ) :
    PlanarSystem.forces P (with_ S p ξ) r x q = force P S p r q (x, ξ q (pointData P x q)) := by
  funext k
  exact PlanarSystem.resultant_eq _ r _ (hB q hq).1 (hx q hq) k

theorem moduli_eq (hB : Body P) {x : EuclideanSpace ℝ J} (hx : x ∈ Admissible P) {q : κ} (hq : q ∈ P.Q) (ξ : κ → Data → ℝ) :
    PlanarSystem.moduli P (with_ S p ξ) r x q = moduli P S p r q (x, ξ q (pointData P x q)) := by
  funext k l
  exact PlanarSystem.modulus_eq _ r _ (hB q hq).1 (hx q hq) k l

theorem deformed_contDiff (q : κ) (i d : Fin 2) :
    ContDiffAt ℝ 2 (fun z : EuclideanSpace ℝ J × ℝ => PlanarSystem.deformed P z.1 q i d) (0, 1) :=
  ContDiffAt.comp (f := fun z : EuclideanSpace ℝ J × ℝ => z.1) (0, 1) (PlanarSystem.deformed_smooth P 0 q i d) contDiffAt_fst

theorem point_smooth (hB : Body P) (hpre : P.pre = P.ori) {q : κ} (hq : q ∈ P.Q) :
    Smooth (fun z : EuclideanSpace ℝ J × ℝ => cdata (pointData P z.1 q) z.2) (0, 1) := by
  have hd := fun i d => deformed_contDiff (P := P) q i d
  exact smooth_data (C := fun z : EuclideanSpace ℝ J × ℝ => AcovPlanar (PlanarSystem.deformed P z.1 q))
    (PlanarSystem.metric_metric (hB q hq).1)
    (fun i j => ((hd i 0).mul (hd j 0)).add ((hd i 1).mul (hd j 1))) contDiffAt_snd
    (PlanarSystem.metric_metric (origin hB hpre q hq)) one_pos

theorem force_smooth (hB : Body P) (hpre : P.pre = P.ori) {q : κ} (hq : q ∈ P.Q) (k : Fin 3) :
    ContDiffAt ℝ 2 (fun z => force P S p r q z k) (0, 1) := by
  have h := fun i j => (point_smooth hB hpre hq).stress (S q) (p q) i j
  refine contDiffAt_const.mul ?_
  rcases fin3_cases k with rfl | rfl | rfl
  exacts [h 0 0, h 1 1, h 0 1]

theorem moduli_smooth (hB : Body P) (hpre : P.pre = P.ori) (hp : ∀ q ∈ P.Q, Constants (S q) (p q)) {q : κ} (hq : q ∈ P.Q)
    (k l : Fin 3) : ContDiffAt ℝ 2 (fun z => moduli P S p r q z k l) (0, 1) := by
  have h0 : (S q).tangent (p q) (cdata (pointData P 0 q) 1) 2 2 2 2 ≠ 0 := by
    have h := stiff (positive_of (hp q hq)) (PlanarSystem.metric_metric (hB q hq).1)
      (PlanarSystem.metric_metric (origin hB hpre q hq))
    have e := exact_origin hB hpre hp hq
    rw [pointData] at e
    rw [e] at h
    exact h.ne'
  have h := fun i j k l => (point_smooth hB hpre hq).condensed (S q) (p q) h0 i j k l
  refine contDiffAt_const.mul ?_
  rcases fin3_cases k with rfl | rfl | rfl <;> rcases fin3_cases l with rfl | rfl | rfl
  exacts [h 0 0 0 0, h 0 0 1 1, h 0 0 0 1, h 0 0 1 1, h 1 1 1 1, h 1 1 0 1, h 0 0 0 1, h 1 1 0 1, h 0 1 0 1]

theorem dot_smooth (q : κ) (U : Jac) (i k : Fin 2) :
    ContDiffAt ℝ 2 (fun z : EuclideanSpace ℝ J × ℝ => dot2 (PlanarSystem.deformed P z.1 q i) (U k)) (0, 1) :=
  ((deformed_contDiff q i 0).mul contDiffAt_const).add ((deformed_contDiff q i 1).mul contDiffAt_const)

theorem em_smooth (q : κ) (U : Jac) (k : Fin 3) :
    ContDiffAt ℝ 2 (fun z : EuclideanSpace ℝ J × ℝ => Planar.EmDer (PlanarSystem.deformed P z.1 q) U k) (0, 1) := by
  have h := dot_smooth (P := P) q U
  rcases fin3_cases k with rfl | rfl | rfl
  exacts [h 0 0, h 1 1, (h 0 1).add (h 1 0)]

/-- One term of the residual. -/
noncomputable def term (P : PlanarSystem.Problem J κ) (S : κ → Solid) (p : κ → Par) (r : Rule) (j : J) (q : κ)
    (z : EuclideanSpace ℝ J × ℝ) : ℝ :=
  Planar.internalForce (PlanarSystem.deformed P z.1 q) (P.field q j) (force P S p r q z) * P.μ q

/-- One term of the tangent. -/
noncomputable def term2 (P : PlanarSystem.Problem J κ) (S : κ → Solid) (p : κ → Par) (r : Rule) (j j' : J) (q : κ)
    (z : EuclideanSpace ℝ J × ℝ) : ℝ :=
  Planar.stiffness (PlanarSystem.deformed P z.1 q) (P.field q j) (P.field q j') (moduli P S p r q z) (force P S p r q z) * P.μ q

theorem term_smooth (hB : Body P) (hpre : P.pre = P.ori) {q : κ} (hq : q ∈ P.Q) (j : J) :
    ContDiffAt ℝ 2 (term P S p r j q) (0, 1) := by
  have hn := fun k => force_smooth (S := S) (p := p) (r := r) hB hpre hq k
  have he := em_smooth (P := P) q (P.field q j)
  unfold term Planar.internalForce dotV
  exact (ContDiffAt.sum fun k _ => (hn k).mul (he k)).neg.mul contDiffAt_const

theorem term2_smooth (hB : Body P) (hpre : P.pre = P.ori) (hp : ∀ q ∈ P.Q, Constants (S q) (p q)) {q : κ} (hq : q ∈ P.Q)
    (j j' : J) : ContDiffAt ℝ 2 (term2 P S p r j j' q) (0, 1) := by
  have hn := fun k => force_smooth (S := S) (p := p) (r := r) hB hpre hq k
  have hm := fun k l => moduli_smooth (r := r) hB hpre hp hq k l
  have he := em_smooth (P := P) q (P.field q j)
  have he' := em_smooth (P := P) q (P.field q j')
  unfold term2 Planar.stiffness dotV rowMul Planar.EmDer2
  refine (ContDiffAt.add (ContDiffAt.sum fun k _ => (ContDiffAt.sum fun l _ => ?_).mul (he' k)) ?_).mul contDiffAt_const
  · exact (he l).mul (hm l k)
  · exact (((contDiffAt_const.mul (hn 0)).add (contDiffAt_const.mul (hn 2))).add
      (contDiffAt_const.mul (hn 2))).add (contDiffAt_const.mul (hn 1))

theorem entries (hB : Body P) (hpre : P.pre = P.ori) (hp : ∀ q ∈ P.Q, Constants (S q) (p q)) :
    ∃ K : ℝ, 0 ≤ K ∧ ∀ᶠ x in 𝓝 (0 : EuclideanSpace ℝ J), ∀ ξ : κ → Data → ℝ,
      (∀ q ∈ P.Q, computed (S q) (p q) (pointData P x q) = .ok (ξ q (pointData P x q))) → ∀ b : ℝ,
      (∀ q ∈ P.Q, |ξ q (pointData P x q) - exact (S q) (p q) (pointData P x q)| ≤ b) →
      (∀ j, |PlanarSystem.residual P (with_ S p ξ) r x j - PlanarSystem.residual P (solids S p) r x j| ≤ K * b) ∧
      ∀ j j', |PlanarSystem.entry P (with_ S p ξ) r x j j' - PlanarSystem.entry P (solids S p) r x j j'| ≤ K * b := by
  classical
  have h1 : ∀ q ∈ P.Q, ∀ j, ∃ K : ℝ, 0 ≤ K ∧ ∀ᶠ x in 𝓝 (0 : EuclideanSpace ℝ J), ∀ y,
      computed (S q) (p q) (pointData P x q) = .ok y → |term P S p r j q (x, y)
        - term P S p r j q (x, exact (S q) (p q) (pointData P x q))| ≤ K * |y - exact (S q) (p q) (pointData P x q)| :=
    fun q hq j => depends hB hpre hp hq (term_smooth hB hpre hq j)
  have h2 : ∀ q ∈ P.Q, ∀ j j', ∃ K : ℝ, 0 ≤ K ∧ ∀ᶠ x in 𝓝 (0 : EuclideanSpace ℝ J), ∀ y,
      computed (S q) (p q) (pointData P x q) = .ok y → |term2 P S p r j j' q (x, y)
        - term2 P S p r j j' q (x, exact (S q) (p q) (pointData P x q))| ≤ K * |y - exact (S q) (p q) (pointData P x q)| :=
    fun q hq j j' => depends hB hpre hp hq (term2_smooth hB hpre hp hq j j')
  choose! k1 hk1 hl1 using h1
  choose! k2 hk2 hl2 using h2
  refine ⟨∑ q ∈ P.Q, (∑ j, k1 q j + ∑ j, ∑ j', k2 q j j'), Finset.sum_nonneg fun q hq =>
    add_nonneg (Finset.sum_nonneg fun j _ => hk1 q hq j)
      (Finset.sum_nonneg fun j _ => Finset.sum_nonneg fun j' _ => hk2 q hq j j'), ?_⟩
  have e1 : ∀ᶠ x in 𝓝 (0 : EuclideanSpace ℝ J), ∀ q ∈ P.Q, ∀ j, ∀ y,
      computed (S q) (p q) (pointData P x q) = .ok y → |term P S p r j q (x, y)
        - term P S p r j q (x, exact (S q) (p q) (pointData P x q))|
        ≤ k1 q j * |y - exact (S q) (p q) (pointData P x q)| :=
    (Filter.eventually_all_finset _).2 fun q hq => Filter.eventually_all.2 fun j => hl1 q hq j
  have e2 : ∀ᶠ x in 𝓝 (0 : EuclideanSpace ℝ J), ∀ q ∈ P.Q, ∀ j j', ∀ y,
      computed (S q) (p q) (pointData P x q) = .ok y → |term2 P S p r j j' q (x, y)
        - term2 P S p r j j' q (x, exact (S q) (p q) (pointData P x q))|
        ≤ k2 q j j' * |y - exact (S q) (p q) (pointData P x q)| :=
    (Filter.eventually_all_finset _).2 fun q hq => Filter.eventually_all.2 fun j => Filter.eventually_all.2 fun j' => hl2 q hq j j'
  filter_upwards [e1, e2, PlanarSystem.admissible_nhds P (origin hB hpre)] with x b1 b2 hx ξ hξ b hb
  constructor
  · intro j
    show |(_ + P.F j) - (_ + P.F j)| ≤ _
    rw [add_sub_add_right_eq_sub, ← Finset.sum_sub_distrib, Finset.sum_mul]
    refine (Finset.abs_sum_le_sum_abs _ _).trans (Finset.sum_le_sum fun q hq => ?_)
    rw [force_eq hB hx hq, show solids S p = with_ S p fun q => exact (S q) (p q) from rfl, force_eq hB hx hq]
    refine (b1 q hq j _ (hξ q hq)).trans (mul_le_mul ?_ (hb q hq) (abs_nonneg _) ?_)
    · have a1 := Finset.single_le_sum (fun i _ => hk1 q hq i) (Finset.mem_univ j)
      have a2 : 0 ≤ ∑ j, ∑ j', k2 q j j' := Finset.sum_nonneg fun j _ => Finset.sum_nonneg fun j' _ => hk2 q hq j j'
      linarith
    · exact add_nonneg (Finset.sum_nonneg fun j _ => hk1 q hq j)
        (Finset.sum_nonneg fun j _ => Finset.sum_nonneg fun j' _ => hk2 q hq j j')
  · intro j j'
    unfold PlanarSystem.entry
    rw [← Finset.sum_sub_distrib, Finset.sum_mul]
    refine (Finset.abs_sum_le_sum_abs _ _).trans (Finset.sum_le_sum fun q hq => ?_)
    rw [force_eq hB hx hq, moduli_eq hB hx hq, show solids S p = with_ S p fun q => exact (S q) (p q) from rfl,
      force_eq hB hx hq, moduli_eq hB hx hq]
    refine (b2 q hq j j' _ (hξ q hq)).trans (mul_le_mul ?_ (hb q hq) (abs_nonneg _) ?_)
    · have a1 : 0 ≤ ∑ j, k1 q j := Finset.sum_nonneg fun i _ => hk1 q hq i
      have a2 := Finset.single_le_sum (f := fun i => ∑ j', k2 q i j')
        (fun i _ => Finset.sum_nonneg fun j' _ => hk2 q hq i j') (Finset.mem_univ j)
      have a3 := Finset.single_le_sum (f := k2 q j) (fun i _ => hk2 q hq j i) (Finset.mem_univ j')
      linarith
    · exact add_nonneg (Finset.sum_nonneg fun j _ => hk1 q hq j)
        (Finset.sum_nonneg fun j _ => Finset.sum_nonneg fun j' _ => hk2 q hq j j')

theorem norm_le_of {J : Type} [Fintype J] {v : EuclideanSpace ℝ J} {b : ℝ} (h : ∀ j, |v j| ≤ b) : ‖v‖ ≤ Fintype.card J * b := by
  classical
  have e : v = ∑ j, v j • EuclideanSpace.single j (1 : ℝ) := by
    ext i
    simp [Finset.sum_apply, Pi.single_apply]
  rw [e]
  refine (norm_sum_le _ _).trans ?_
  refine (Finset.sum_le_sum fun j _ => (?_ : _ ≤ b)).trans ?_
  · rw [norm_smul, PiLp.norm_single, norm_one, mul_one]; exact h j
  · simp

theorem tangent_close {M M' : κ → Material} {x : EuclideanSpace ℝ J} {b : ℝ}
    (h : ∀ j j', |PlanarSystem.entry P M r x j j' - PlanarSystem.entry P M' r x j j'| ≤ b) (hb : 0 ≤ b) :
    ‖PlanarSystem.tangent P M r x - PlanarSystem.tangent P M' r x‖ ≤ Fintype.card J * (Fintype.card J * b) := by
  refine ContinuousLinearMap.opNorm_le_bound _ (by positivity) fun v => ?_
  have := norm_le_of (v := (PlanarSystem.tangent P M r x - PlanarSystem.tangent P M' r x) v) (b := Fintype.card J * b * ‖v‖)
    fun j => by
      show |∑ j', PlanarSystem.entry P M r x j j' * v j' - ∑ j', PlanarSystem.entry P M' r x j j' * v j'| ≤ _
      rw [← Finset.sum_sub_distrib]
      refine (Finset.abs_sum_le_sum_abs _ _).trans ((Finset.sum_le_sum fun j' _ => (?_ : _ ≤ b * ‖v‖)).trans ?_)
      · rw [← sub_mul, abs_mul]
        exact mul_le_mul (h j j') (PiLp.norm_apply_le v j') (abs_nonneg _) hb
      · simp [mul_assoc]
  rw [mul_assoc]
  exact this

end

end Verif.Thickness
