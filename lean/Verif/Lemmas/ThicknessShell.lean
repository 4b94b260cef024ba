import Verif.Lemmas.ThicknessSheet
import Verif.Lemmas.JoinedShell
import Verif.Props.PlaneShell

/-! # Helper lemmas: shells with the thickness stretches as computed -/

namespace Verif.ThicknessShell

open Verif.Geometry Verif.Hyper Verif.PlaneStress Verif.PlaneSheet Verif.Variation Verif.Integrate Verif.Balance
open Verif.ShellSystem hiding curved curved_normal
open Verif.PlaneShell (heights integrated shells block_metric)
open Verif.Thickness (Smooth smooth_data found tr_self with_)
open Verif.ShellTangent (resultant modulus stressV)
open Verif.HyperShell (metric_smooth states_nhds)
open Spec.ShellTangent Spec.HyperShell
open Spec.PlaneSheet Spec.Hyper
open Spec.PosDef (Metric)
open Filter Topology

/-! ## Stretches of families of metrics -/

section
variable {V : Type} [NormedAddCommGroup V] [NormedSpace ℝ V] {s : Solid} {p : Par} {A : T2} {C : V → T2}

/-- Near the undeformed state the iteration converges. -/
theorem stretches (hc : Constants s p) (hA : Metric A) (hC : ∀ i j, ContDiffAt ℝ 2 (fun x => C x i j) 0) (e0 : C 0 = A)
    (hm : ∀ᶠ x in 𝓝 (0 : V), Metric (C x)) {ε : ℝ} (hε : 0 < ε) :
    ∀ᶠ x in 𝓝 (0 : V), ∃ y, computed s p (Hyper.data A (C x)) = .ok y ∧
      |y - exact s p (Hyper.data A (C x))| ≤ 2 * Newton.tol ∧
      |y - exact s p (Hyper.data A (C x))| ≤ ε * ‖x‖ := by
  have hne : det2 A ≠ 0 := hA.2.2.ne'
  have ht := tr_smooth A hC
  have hj := ratio_smooth A hC
  have hj' : ContDiffAt ℝ 2 (fun x => det2 A / det2 (C x)) 0 :=
    contDiffAt_const.div (PlanarSystem.det_smooth hC) (by rw [e0]; exact hne)
  have hx := exact_smooth (positive_of hc) hA hC (by rw [e0]; exact hA)
  have hd := hj'.sub hx
  obtain ⟨K, T, hT, hK⟩ := (hd.of_le (m := 1) (by norm_num)).exists_lipschitzOnWith
  have e1 : det2 A / det2 (C 0) - exact s p (Hyper.data A (C 0)) = 0 := by
    rw [e0, exact_rest (positive_of hc) hA, div_self hne, sub_self]
  have hκ : 0 < min (1 / 4) (ε / (K + 1)) := by
    have : (0 : ℝ) ≤ K := K.2
    positivity
  obtain ⟨δ, hδ, hf⟩ := found (positive_of hc) hκ (min_le_left _ _)
  have c1 : ∀ᶠ x in 𝓝 (0 : V), |tr A (C x) - 2| < δ := by
    refine ((ht.continuousAt.sub continuousAt_const).abs).eventually_lt continuousAt_const ?_
    show |tr _ (C 0) - 2| < δ
    rw [e0, tr_self hne hA.1, sub_self, abs_zero]; exact hδ
  have c2 : ∀ᶠ x in 𝓝 (0 : V), |det2 (C x) / det2 A - 1| < δ := by
    refine ((hj.continuousAt.sub continuousAt_const).abs).eventually_lt continuousAt_const ?_
    show |det2 (C 0) / _ - 1| < δ
    rw [e0, div_self hne, sub_self, abs_zero]; exact hδ
  filter_upwards [c1, c2, hT, hm] with x b1 b2 b3 b4
  obtain ⟨y, f1, f2, f3, f4⟩ := hf _ _ hA b4 b1.le b2.le
  refine ⟨y, f1, f3, f4.trans ?_⟩
  have b5 := hK.dist_le_mul x b3 0 (mem_of_mem_nhds hT)
  rw [Real.dist_eq, e1, sub_zero, dist_zero_right] at b5
  have hK0 : (0 : ℝ) ≤ K := K.2
  calc _ ≤ ε / (K + 1) * (K * ‖x‖) := mul_le_mul (min_le_right _ _) b5 (abs_nonneg _) (by positivity)
    _ = ε * ‖x‖ * (K / (K + 1)) := by ring
    _ ≤ ε * ‖x‖ * 1 := by
      refine mul_le_mul_of_nonneg_left ?_ (by positivity)
      rw [div_le_one (by positivity)]; linarith
    _ = _ := mul_one _

end

/-! ## Smoothness of the tangent -/

section
variable {V : Type} [NormedAddCommGroup V] [NormedSpace ℝ V] {s : V → Surf} {x : V}

theorem ef2_smooth (hs : SSmooth s x) (h : Indep ((s x).a 0) ((s x).a 1)) (u v : Surf) {M : V → Voigt}
    (hM : ∀ k, ContDiffAt ℝ 2 (fun y => M y k) x) : ContDiffAt ℝ 2 (fun y => EfDer2 (s y) u v (M y)) x := by
  have hu := hs.var1 h u
  have hv := hs.var1 h v
  have h2 := JoinedShell.var2_smooth hs h u v
  have f : ∀ (a : Surf) {w : V → V3}, VSmooth w x → ContDiffAt ℝ 2 (fun y => flatdot2 a (w y) (M y)) x := by
    intro a w hw
    unfold flatdot2 dotV
    refine ContDiffAt.sum fun k _ => (hM k).mul ?_
    rcases fin3_cases k with rfl | rfl | rfl
    · exact (VSmooth.const a.d11).dot hw
    · exact (VSmooth.const a.d22).dot hw
    · exact contDiffAt_const.mul ((VSmooth.const a.d12).dot hw)
  have g : ContDiffAt ℝ 2 (fun y => var2deriv2 (s y) u v (M y)) x := by
    unfold var2deriv2 dotV
    refine ContDiffAt.sum fun k _ => (hM k).mul ?_
    rcases fin3_cases k with rfl | rfl | rfl
    · exact hs.d11.dot h2
    · exact hs.d22.dot h2
    · exact contDiffAt_const.mul (hs.d12.dot h2)
  exact (((f u hv).add (f v hu)).add g).neg

theorem stiffness_smooth (hs : SSmooth s x) (h : Indep ((s x).a 0) ((s x).a 1)) (u v : Surf) {A B C D : V → T3} {N M : V → Voigt}
    (hA : ∀ k l, ContDiffAt ℝ 2 (fun y => A y k l) x) (hB : ∀ k l, ContDiffAt ℝ 2 (fun y => B y k l) x)
    (hC : ∀ k l, ContDiffAt ℝ 2 (fun y => C y k l) x) (hD : ∀ k l, ContDiffAt ℝ 2 (fun y => D y k l) x)
    (hN : ∀ k, ContDiffAt ℝ 2 (fun y => N y k) x) (hM : ∀ k, ContDiffAt ℝ 2 (fun y => M y k) x) :
    ContDiffAt ℝ 2 (fun y => stiffness (s y) u v (A y) (B y) (C y) (D y) (N y) (M y)) x := by
  have eu := hs.EmDer u
  have ev := hs.EmDer v
  have fu := hs.EfDer h u
  have fv := hs.EfDer h v
  have row : ∀ {e : V → Voigt} {T : V → T3}, (∀ k, ContDiffAt ℝ 2 (fun y => e y k) x) →
      (∀ k l, ContDiffAt ℝ 2 (fun y => T y k l) x) → ∀ k, ContDiffAt ℝ 2 (fun y => Variation.rowMul (e y) (T y) k) x := by
    intro e T he hT k
    unfold Variation.rowMul
    exact ContDiffAt.sum fun l _ => (he l).mul (hT l k)
  have a1 : ContDiffAt ℝ 2 (fun y => dotV (fun j => Variation.rowMul (Variation.EmDer (s y) u) (A y) j
      + Variation.rowMul (Variation.EfDer (s y) u) (B y) j) (Variation.EmDer (s y) v)) x := by
    unfold dotV
    exact ContDiffAt.sum fun k _ => ((row eu hA k).add (row fu hB k)).mul (ev k)
  have a2 : ContDiffAt ℝ 2 (fun y => dotV (fun j => Variation.rowMul (Variation.EmDer (s y) u) (C y) j
      + Variation.rowMul (Variation.EfDer (s y) u) (D y) j) (Variation.EfDer (s y) v)) x := by
    unfold dotV
    exact ContDiffAt.sum fun k _ => ((row eu hC k).add (row fu hD k)).mul (fv k)
  have a3 : ContDiffAt ℝ 2 (fun y => Variation.EmDer2 u v (N y)) x :=
    (((contDiffAt_const.mul (hN 0)).add (contDiffAt_const.mul (hN 2))).add (contDiffAt_const.mul (hN 2))).add
      (contDiffAt_const.mul (hN 1))
  exact ((a1.add a3).add a2).add (ef2_smooth hs h u v hM)

end

/-! ## Residual and tangent of a shell -/

variable {J κ : Type} [Fintype J] {P : Problem J κ} {S : κ → Solid} {p : κ → Par} {r : Rule} {t : κ → ℝ}

/-- The data of a point at a height. -/
noncomputable abbrev pointData (P : Problem J κ) (r : Rule) (t : κ → ℝ) (x : EuclideanSpace ℝ J) (q : κ) (i : Fin r.n) : Data :=
  Hyper.data (Gblock (P.ori q) (r.ξ i * t q)) (Gblock (deformed P x q) (r.ξ i * t q))

/-- States and stretches at the heights. -/
abbrev Pair (J : Type) (r : Rule) := EuclideanSpace ℝ J × (Fin r.n → ℝ)

/-- Resultants of a point as functions of state and stretches. -/
noncomputable def force (P : Problem J κ) (S : κ → Solid) (p : κ → Par) (r : Rule) (t : κ → ℝ) (q : κ) (m : ℕ)
    (z : Pair J r) (k : Fin 3) : ℝ :=
  ∑ i, r.w i * (r.ξ i * t q) ^ m * stressV ((S q).stress (p q) (cdata (pointData P r t z.1 q i) (z.2 i))) k * t q

/-- Moduli of a point. -/
noncomputable def moduli (P : Problem J κ) (S : κ → Solid) (p : κ → Par) (r : Rule) (t : κ → ℝ) (q : κ) (m : ℕ)
    (z : Pair J r) (k l : Fin 3) : ℝ :=
  ∑ i, r.w i * (r.ξ i * t q) ^ m * fillMatrix (condense ((S q).tangent (p q) (cdata (pointData P r t z.1 q i) (z.2 i)))) k l * t q

/-- One term of the residual. -/
noncomputable def term (P : Problem J κ) (S : κ → Solid) (p : κ → Par) (r : Rule) (t : κ → ℝ) (j : J) (q : κ)
    (z : Pair J r) : ℝ :=
  internalForce (deformed P z.1 q) (P.field q j) (force P S p r t q 0 z) (force P S p r t q 1 z) * P.μ q

/-- One term of the tangent. -/
noncomputable def term2 (P : Problem J κ) (S : κ → Solid) (p : κ → Par) (r : Rule) (t : κ → ℝ) (j j' : J) (q : κ)
    (z : Pair J r) : ℝ :=
  stiffness (deformed P z.1 q) (P.field q j) (P.field q j') (moduli P S p r t q 0 z) (moduli P S p r t q 1 z)
    (moduli P S p r t q 1 z) (moduli P S p r t q 2 z) (force P S p r t q 0 z) (force P S p r t q 1 z) * P.μ q

theorem residual_eq (ξ : κ → Data → ℝ) (x : EuclideanSpace ℝ J) (j : J) :
    residual P (shells P r (with_ S p ξ) t) x j
      = (∑ q ∈ P.Q, term P S p r t j q (x, fun i => ξ q (pointData P r t x q i))) + P.F j := rfl

theorem entry_eq (ξ : κ → Data → ℝ) (x : EuclideanSpace ℝ J) (j j' : J) :
    entry P (shells P r (with_ S p ξ) t) x j j'
      = ∑ q ∈ P.Q, term2 P S p r t j j' q (x, fun i => ξ q (pointData P r t x q i)) := rfl

/-! ### Smoothness -/

/-- The undeformed state. -/
abbrev start : Pair J r := (0, fun _ => 1)

theorem surf_smooth (q : κ) : SSmooth (fun z : Pair J r => deformed P z.1 q) start := by
  have hs := deformed_smooth P 0 q
  have c : ∀ {f : EuclideanSpace ℝ J → ℝ}, ContDiffAt ℝ 2 f 0 → ContDiffAt ℝ 2 (fun z : Pair J r => f z.1) start := fun hf =>
    ContDiffAt.comp (f := fun z : Pair J r => z.1) start hf contDiffAt_fst
  have v : ∀ {f : EuclideanSpace ℝ J → V3}, VSmooth f 0 → VSmooth (fun z : Pair J r => f z.1) start := fun hf =>
    ⟨c hf.1, c hf.2.1, c hf.2.2⟩
  exact ⟨fun i => v (hs.a i), v hs.d11, v hs.d22, v hs.d12⟩

variable (hpre : P.pre = P.ori)
  (hb : ∀ q ∈ P.Q, Indep ((P.ori q).a 0) ((P.ori q).a 1) ∧ Regular r (t q) (P.ori q) (P.ori q))
  (hp : ∀ q ∈ P.Q, Constants (S q) (p q))
include hpre

theorem rest_surf (q : κ) : deformed P 0 q = P.ori q := by rw [deformed_zero, hpre]

include hb

theorem indep_start {q : κ} (hq : q ∈ P.Q) : Indep ((deformed P 0 q).a 0) ((deformed P 0 q).a 1) := by
  rw [rest_surf hpre]; exact (hb q hq).1

omit hpre [Fintype J] in
theorem metric_ori {q : κ} (hq : q ∈ P.Q) (i : Fin r.n) : Metric (Gblock (P.ori q) (r.ξ i * t q)) :=
  block_metric _ _ ((hb q hq).2 i).1

theorem point_smooth {q : κ} (hq : q ∈ P.Q) (i : Fin r.n) :
    Smooth (fun z : Pair J r => cdata (pointData P r t z.1 q i) (z.2 i)) start := by
  refine smooth_data (C := fun z : Pair J r => Gblock (deformed P z.1 q) (r.ξ i * t q)) (metric_ori hb hq i)
    (metric_smooth (surf_smooth q) (indep_start hpre hb hq) _)
    (ContDiffAt.comp (f := fun z : Pair J r => z.2) (g := fun w : Fin r.n → ℝ => w i) start
      (contDiff_apply ℝ ℝ i).contDiffAt contDiffAt_snd) ?_ one_pos
  show Metric (Gblock (deformed P 0 q) _)
  rw [rest_surf hpre]
  exact metric_ori hb hq i

theorem force_smooth {q : κ} (hq : q ∈ P.Q) (m : ℕ) (k : Fin 3) :
    ContDiffAt ℝ 2 (fun z => force P S p r t q m z k) (start : Pair J r) := by
  unfold force
  refine ContDiffAt.sum fun i _ => (contDiffAt_const.mul ?_).mul contDiffAt_const
  have h := fun a b => (point_smooth hpre hb hq i).stress (S q) (p q) a b
  rcases fin3_cases k with rfl | rfl | rfl
  exacts [h 0 0, h 1 1, h 0 1]

include hp in
theorem moduli_smooth {q : κ} (hq : q ∈ P.Q) (m : ℕ) (k l : Fin 3) :
    ContDiffAt ℝ 2 (fun z => moduli P S p r t q m z k l) (start : Pair J r) := by
  unfold moduli
  refine ContDiffAt.sum fun i _ => (contDiffAt_const.mul ?_).mul contDiffAt_const
  have h0 : (S q).tangent (p q) (cdata (pointData P r t 0 q i) 1) 2 2 2 2 ≠ 0 := by
    have hA := metric_ori hb hq i
    have h := stiff (positive_of (hp q hq)) hA hA
    rw [exact_rest (positive_of (hp q hq)) hA] at h
    rw [pointData, rest_surf hpre]
    exact h.ne'
  have h := fun a b c d => (point_smooth hpre hb hq i).condensed (S q) (p q) h0 a b c d
  rcases fin3_cases k with rfl | rfl | rfl <;> rcases fin3_cases l with rfl | rfl | rfl
  exacts [h 0 0 0 0, h 0 0 1 1, h 0 0 0 1, h 0 0 1 1, h 1 1 1 1, h 1 1 0 1, h 0 0 0 1, h 1 1 0 1, h 0 1 0 1]

theorem term_smooth {q : κ} (hq : q ∈ P.Q) (j : J) : ContDiffAt ℝ 2 (term P S p r t j q) start :=
  ((surf_smooth q).force (indep_start hpre hb hq) _ (force_smooth hpre hb hq 0) (force_smooth hpre hb hq 1)).mul
    contDiffAt_const

include hp in
theorem term2_smooth {q : κ} (hq : q ∈ P.Q) (j j' : J) : ContDiffAt ℝ 2 (term2 P S p r t j j' q) start := by
  have hm := fun m => moduli_smooth hpre hb hp hq m
  exact (stiffness_smooth (surf_smooth q) (indep_start hpre hb hq) _ _ (hm 0) (hm 1) (hm 1) (hm 2)
    (force_smooth hpre hb hq 0) (force_smooth hpre hb hq 1)).mul contDiffAt_const

/-! ### Errors -/

include hp

theorem point_stretches {q : κ} (hq : q ∈ P.Q) (i : Fin r.n) {ε : ℝ} (hε : 0 < ε) :
    ∀ᶠ x in 𝓝 (0 : EuclideanSpace ℝ J), ∃ y, computed (S q) (p q) (pointData P r t x q i) = .ok y ∧
      |y - exact (S q) (p q) (pointData P r t x q i)| ≤ 2 * Newton.tol ∧
      |y - exact (S q) (p q) (pointData P r t x q i)| ≤ ε * ‖x‖ := by
  refine stretches (C := fun x => Gblock (deformed P x q) (r.ξ i * t q)) (hp q hq) (metric_ori hb hq i)
    (metric_smooth (deformed_smooth P 0 q) (indep_start hpre hb hq) _) (by rw [rest_surf hpre]) ?_ hε
  filter_upwards [states_nhds (HyperShell.start P hpre hb)] with x hx
  exact block_metric _ _ ((hx q hq).2 i).2

theorem exact_close {q : κ} (hq : q ∈ P.Q) {δ : ℝ} (hδ : 0 < δ) : ∀ᶠ x in 𝓝 (0 : EuclideanSpace ℝ J), ∀ i : Fin r.n,
    |exact (S q) (p q) (pointData P r t x q i) - 1| < δ := by
  refine Filter.eventually_all.2 fun i => ?_
  have h := exact_smooth (C := fun x => Gblock (deformed P x q) (r.ξ i * t q)) (positive_of (hp q hq)) (metric_ori hb hq i)
    (metric_smooth (deformed_smooth P 0 q) (indep_start hpre hb hq) _) (by rw [rest_surf hpre]; exact metric_ori hb hq i)
  refine ((h.continuousAt.sub continuousAt_const).abs).eventually_lt continuousAt_const ?_
  show |exact (S q) (p q) (pointData P r t 0 q i) - 1| < δ
  rw [pointData, rest_surf hpre, exact_rest (positive_of (hp q hq)) (metric_ori hb hq i), sub_self, abs_zero]
  exact hδ

theorem depends {q : κ} (hq : q ∈ P.Q) {f : Pair J r → ℝ} (hf : ContDiffAt ℝ 2 f start) :
    ∃ K : ℝ, 0 ≤ K ∧ ∀ᶠ x in 𝓝 (0 : EuclideanSpace ℝ J), ∀ y : Fin r.n → ℝ,
      (∀ i, computed (S q) (p q) (pointData P r t x q i) = .ok (y i)) → ∀ b : ℝ, 0 ≤ b →
      (∀ i, |y i - exact (S q) (p q) (pointData P r t x q i)| ≤ b) →
      |f (x, y) - f (x, fun i => exact (S q) (p q) (pointData P r t x q i))| ≤ K * b := by
  obtain ⟨K, T, hT, hK⟩ := (hf.of_le (m := 1) (by norm_num)).exists_lipschitzOnWith
  obtain ⟨δ, hδ, hball⟩ := Metric.mem_nhds_iff.1 hT
  refine ⟨K, K.2, ?_⟩
  have c2 : ∀ᶠ x in 𝓝 (0 : EuclideanSpace ℝ J), ∀ i : Fin r.n, ∃ y, computed (S q) (p q) (pointData P r t x q i) = .ok y ∧
      |y - exact (S q) (p q) (pointData P r t x q i)| ≤ 2 * Newton.tol ∧
      |y - exact (S q) (p q) (pointData P r t x q i)| ≤ 1 * ‖x‖ :=
    Filter.eventually_all.2 fun i => point_stretches hpre hb hp hq i one_pos
  filter_upwards [exact_close hpre hb hp hq (show 0 < δ / 4 by positivity), c2,
    Metric.ball_mem_nhds (0 : EuclideanSpace ℝ J) (show 0 < δ / 4 by positivity)] with x b1 b2 b3 y hy b hb0 hyb
  rw [mem_ball_zero_iff] at b3
  have m1 : (x, y) ∈ T := hball (by
    rw [Metric.mem_ball, Prod.dist_eq, dist_zero_right]
    refine max_lt (by linarith) (lt_of_le_of_lt ((dist_pi_le_iff (r := δ / 2) (by positivity)).2 fun i => ?_) (by linarith))
    obtain ⟨z, e1, -, e2⟩ := b2 i
    rw [hy i] at e1
    obtain rfl : y i = z := Outcome.ok.inj e1
    rw [Real.dist_eq]
    have := abs_sub_le (y i) (exact (S q) (p q) (pointData P r t x q i)) 1
    linarith [b1 i])
  have m2 : (x, fun i => exact (S q) (p q) (pointData P r t x q i)) ∈ T := hball (by
    rw [Metric.mem_ball, Prod.dist_eq, dist_zero_right]
    refine max_lt (by linarith) (lt_of_le_of_lt ((dist_pi_le_iff (r := δ / 2) (by positivity)).2 fun i => ?_) (by linarith))
    rw [Real.dist_eq]
    linarith [b1 i])
  have := hK.dist_le_mul _ m1 _ m2
  rw [Real.dist_eq, Prod.dist_eq, dist_self] at this
  refine this.trans (mul_le_mul_of_nonneg_left (max_le hb0 ((dist_pi_le_iff hb0).2 fun i => ?_)) K.2)
  rw [Real.dist_eq]; exact hyb i

theorem entries : ∃ K : ℝ, 0 ≤ K ∧ ∀ᶠ x in 𝓝 (0 : EuclideanSpace ℝ J), ∀ ξ : κ → Data → ℝ,
      (∀ q ∈ P.Q, ∀ i, computed (S q) (p q) (pointData P r t x q i) = .ok (ξ q (pointData P r t x q i))) → ∀ b : ℝ, 0 ≤ b →
      (∀ q ∈ P.Q, ∀ i, |ξ q (pointData P r t x q i) - exact (S q) (p q) (pointData P r t x q i)| ≤ b) →
      (∀ j, |residual P (shells P r (with_ S p ξ) t) x j - residual P (shells P r (solids S p) t) x j| ≤ K * b) ∧
      ∀ j j', |entry P (shells P r (with_ S p ξ) t) x j j' - entry P (shells P r (solids S p) t) x j j'| ≤ K * b := by
  classical
  have h1 := fun q (hq : q ∈ P.Q) j => depends hpre hb hp hq (term_smooth (S := S) (p := p) hpre hb hq j)
  have h2 := fun q (hq : q ∈ P.Q) j j' => depends hpre hb hp hq (term2_smooth hpre hb hp hq j j')
  choose! k1 hk1 hl1 using h1
  choose! k2 hk2 hl2 using h2
  refine ⟨∑ q ∈ P.Q, (∑ j, k1 q j + ∑ j, ∑ j', k2 q j j'), Finset.sum_nonneg fun q hq =>
    add_nonneg (Finset.sum_nonneg fun j _ => hk1 q hq j)
      (Finset.sum_nonneg fun j _ => Finset.sum_nonneg fun j' _ => hk2 q hq j j'), ?_⟩
  have e1 := (Filter.eventually_all_finset P.Q).2 fun q hq => Filter.eventually_all.2 fun j => hl1 q hq j
  have e2 := (Filter.eventually_all_finset P.Q).2 fun q hq => Filter.eventually_all.2 fun j =>
    Filter.eventually_all.2 fun j' => hl2 q hq j j'
  filter_upwards [e1, e2] with x b1 b2 ξ hξ b hb0 hb1
  constructor
  · intro j
    rw [show solids S p = with_ S p fun q => exact (S q) (p q) from rfl, residual_eq, residual_eq,
      add_sub_add_right_eq_sub, ← Finset.sum_sub_distrib, Finset.sum_mul]
    refine (Finset.abs_sum_le_sum_abs _ _).trans (Finset.sum_le_sum fun q hq => ?_)
    refine (b1 q hq j _ (hξ q hq) b hb0 (hb1 q hq)).trans (mul_le_mul_of_nonneg_right ?_ hb0)
    have a1 := Finset.single_le_sum (fun i _ => hk1 q hq i) (Finset.mem_univ j)
    have a2 : 0 ≤ ∑ j, ∑ j', k2 q j j' := Finset.sum_nonneg fun j _ => Finset.sum_nonneg fun j' _ => hk2 q hq j j'
    linarith
  · intro j j'
    rw [show solids S p = with_ S p fun q => exact (S q) (p q) from rfl, entry_eq, entry_eq,
      ← Finset.sum_sub_distrib, Finset.sum_mul]
    refine (Finset.abs_sum_le_sum_abs _ _).trans (Finset.sum_le_sum fun q hq => ?_)
    refine (b2 q hq j j' _ (hξ q hq) b hb0 (hb1 q hq)).trans (mul_le_mul_of_nonneg_right ?_ hb0)
    have a1 : 0 ≤ ∑ j, k1 q j := Finset.sum_nonneg fun i _ => hk1 q hq i
    have a2 := Finset.single_le_sum (f := fun i => ∑ j', k2 q i j')
      (fun i _ => Finset.sum_nonneg fun j' _ => hk2 q hq i j') (Finset.mem_univ j)
    have a3 := Finset.single_le_sum (f := k2 q j) (fun i _ => hk2 q hq j i) (Finset.mem_univ j')
    linarith

omit hpre hb hp in
theorem tangent_close {L L' : Law κ} {x : EuclideanSpace ℝ J} {b : ℝ}
    (h : ∀ j j', |entry P L x j j' - entry P L' x j j'| ≤ b) (hb : 0 ≤ b) :
    ‖tangent P L x - tangent P L' x‖ ≤ Fintype.card J * (Fintype.card J * b) := by
  refine ContinuousLinearMap.opNorm_le_bound _ (by positivity) fun v => ?_
  have := Thickness.norm_le_of (v := (tangent P L x - tangent P L' x) v) (b := Fintype.card J * b * ‖v‖)
    fun j => by
      show |∑ j', entry P L x j j' * v j' - ∑ j', entry P L' x j j' * v j'| ≤ _
      rw [← Finset.sum_sub_distrib]
      refine (Finset.abs_sum_le_sum_abs _ _).trans ((Finset.sum_le_sum fun j' _ => (?_ : _ ≤ b * ‖v‖)).trans ?_)
      · rw [← sub_mul, abs_mul]
        exact mul_le_mul (h j j') (PiLp.norm_apply_le v j') (abs_nonneg _) hb
      · simp [mul_assoc]
  rw [mul_assoc]
  exact this

/-- Everything about residual and tangent close to the undeformed state. -/
theorem close :
    ∃ M : ℝ, 0 ≤ M ∧ (∀ᶠ x in 𝓝 (0 : EuclideanSpace ℝ J), x ∈ States P r t ∧
      (∀ q ∈ P.Q, ∀ i, ∃ y, computed (S q) (p q) (pointData P r t x q i) = .ok y) ∧ ∀ ξ : κ → Data → ℝ,
      (∀ q ∈ P.Q, ∀ i, computed (S q) (p q) (pointData P r t x q i) = .ok (ξ q (pointData P r t x q i))) →
      ‖residual P (shells P r (with_ S p ξ) t) x - residual P (shells P r (solids S p) t) x‖ ≤ M * (1 / 10 ^ 10) ∧
      ‖tangent P (shells P r (with_ S p ξ) t) x - tangent P (shells P r (solids S p) t) x‖ ≤ M * (1 / 10 ^ 10)) ∧
    ∀ ε > 0, ∀ᶠ x in 𝓝 (0 : EuclideanSpace ℝ J), ∀ ξ : κ → Data → ℝ,
      (∀ q ∈ P.Q, ∀ i, computed (S q) (p q) (pointData P r t x q i) = .ok (ξ q (pointData P r t x q i))) →
      ‖residual P (shells P r (with_ S p ξ) t) x - residual P (shells P r (solids S p) t) x‖ ≤ ε * ‖x‖ ∧
      ‖tangent P (shells P r (with_ S p ξ) t) x - tangent P (shells P r (solids S p) t) x‖ ≤ ε * ‖x‖ := by
  obtain ⟨K, hK, hE⟩ := entries hpre hb hp
  have key : ∀ ε > 0, ∀ᶠ x in 𝓝 (0 : EuclideanSpace ℝ J), ∀ q ∈ P.Q, ∀ i : Fin r.n, ∃ y,
      computed (S q) (p q) (pointData P r t x q i) = .ok y ∧
      |y - exact (S q) (p q) (pointData P r t x q i)| ≤ 2 * Newton.tol ∧
      |y - exact (S q) (p q) (pointData P r t x q i)| ≤ ε * ‖x‖ :=
    fun ε hε => (Filter.eventually_all_finset _).2 fun q hq => Filter.eventually_all.2 fun i =>
      point_stretches hpre hb hp hq i hε
  let n : ℝ := Fintype.card J
  have hn : 0 ≤ n := Nat.cast_nonneg _
  have bound : ∀ᶠ x in 𝓝 (0 : EuclideanSpace ℝ J), ∀ ξ : κ → Data → ℝ,
      (∀ q ∈ P.Q, ∀ i, computed (S q) (p q) (pointData P r t x q i) = .ok (ξ q (pointData P r t x q i))) → ∀ b : ℝ, 0 ≤ b →
      (∀ q ∈ P.Q, ∀ i, |ξ q (pointData P r t x q i) - exact (S q) (p q) (pointData P r t x q i)| ≤ b) →
      ‖residual P (shells P r (with_ S p ξ) t) x - residual P (shells P r (solids S p) t) x‖ ≤ (n + 1) * (n + 1) * K * b ∧
      ‖tangent P (shells P r (with_ S p ξ) t) x - tangent P (shells P r (solids S p) t) x‖ ≤ (n + 1) * (n + 1) * K * b := by
    filter_upwards [hE] with x hx ξ hξ b hb0 hxb
    obtain ⟨c1, c2⟩ := hx ξ hξ b hb0 hxb
    have hKb : 0 ≤ K * b := mul_nonneg hK hb0
    constructor
    · refine (Thickness.norm_le_of (b := K * b) fun j => ?_).trans ?_
      · rw [PiLp.sub_apply]; exact c1 j
      · show n * (K * b) ≤ _
        nlinarith [mul_nonneg hn hKb, mul_nonneg hn (mul_nonneg hn hKb)]
    · refine (tangent_close c2 hKb).trans ?_
      show n * (n * (K * b)) ≤ _
      nlinarith [mul_nonneg hn hKb, mul_nonneg hn (mul_nonneg hn hKb)]
  refine ⟨(n + 1) * (n + 1) * K * 2, by positivity, ?_, fun ε hε => ?_⟩
  · filter_upwards [bound, key 1 one_pos, states_nhds (HyperShell.start P hpre hb)] with x b1 b2 b3
    refine ⟨b3, fun q hq i => ⟨_, (b2 q hq i).choose_spec.1⟩, fun ξ hξ => ?_⟩
    have := b1 ξ hξ (2 * Newton.tol) (by norm_num [Newton.tol]) fun q hq i => by
      obtain ⟨y, e1, e2, -⟩ := b2 q hq i
      rw [hξ q hq i] at e1
      rw [Outcome.ok.inj e1]; exact e2
    have e : (n + 1) * (n + 1) * K * (2 * Newton.tol) = (n + 1) * (n + 1) * K * 2 * (1 / 10 ^ 10) := by
      norm_num [Newton.tol]; ring
    rwa [e] at this
  · have hm : 0 < ε / ((n + 1) * (n + 1) * K + 1) := by positivity
    filter_upwards [bound, key _ hm] with x b1 b2 ξ hξ
    have := b1 ξ hξ (ε / ((n + 1) * (n + 1) * K + 1) * ‖x‖) (by positivity) fun q hq i => by
      obtain ⟨y, e1, -, e2⟩ := b2 q hq i
      rw [hξ q hq i] at e1
      rw [Outcome.ok.inj e1]; exact e2
    have e : (n + 1) * (n + 1) * K * (ε / ((n + 1) * (n + 1) * K + 1) * ‖x‖) ≤ ε * ‖x‖ := by
      have hw : 0 ≤ (n + 1) * (n + 1) * K := by positivity
      generalize (n + 1) * (n + 1) * K = w at hw
      have e2 : w * (ε / (w + 1) * ‖x‖) = ε * ‖x‖ * (w / (w + 1)) := by ring
      rw [e2]
      refine mul_le_of_le_one_right (by positivity) ?_
      rw [div_le_one (by positivity)]; linarith
    exact ⟨this.1.trans e, this.2.trans e⟩

/-- In the undeformed state the computed stretches are one. -/
theorem stretch_rest {q : κ} (hq : q ∈ P.Q) (i : Fin r.n) :
    computed (S q) (p q) (Hyper.data (Gblock (P.ori q) (r.ξ i * t q)) (Gblock (P.ori q) (r.ξ i * t q))) = .ok 1 := by
  obtain ⟨y, e1, -, e2⟩ := (point_stretches hpre hb hp hq i one_pos).self_of_nhds
  simp only [pointData, rest_surf hpre] at e1 e2
  rw [exact_rest (positive_of (hp q hq)) (metric_ori hb hq i), norm_zero, mul_zero] at e2
  have : y = 1 := by
    have := abs_nonpos_iff.1 e2
    linarith
  rwa [this] at e1

end Verif.ThicknessShell
