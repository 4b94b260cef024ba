import Verif.Lemmas.ThicknessSheet
import Verif.Lemmas.NoisyLoads

/-! # C163: the iteration for the thickness of compressible materials near the undeformed state -/

namespace Verif.Thickness

open Verif.Geometry Verif.Variation Verif.Planar Verif.Integrate Verif.Hyper Verif.PlaneSheet
open Verif.PlanarSystem (Problem residual tangent entry deformed linearEntry strip)
open Spec.PlaneSheet Spec.ShellSystem Spec.Solve Spec.PosDef
open Spec.PlanarSystem (Body Admissible Held gram)
open Filter Topology

/-- **C163** Close to the undeformed state the iteration for the thickness stretch of all three compressible
materials stops by itself, with the stretch without thickness stress up to twice its tolerance; closer to
the undeformed state its error is any wanted fraction of the error of the starting value. -/
theorem C163_found {s : Solid} {p : Par} (h : Constants s p) {ε : ℝ} (hε : 0 < ε) :
    ∃ δ > 0, ∀ A C : T2, Metric A → Metric C → |tr A C - 2| ≤ δ → |det2 C / det2 A - 1| ≤ δ →
      ∃ x y, computed s p (Hyper.data A C) = .ok x ∧ 0 < x ∧ 0 < y ∧
        s.stress p (cdata (Hyper.data A C) y) 2 2 = 0 ∧ |x - y| ≤ 2 / 10 ^ 10 ∧
        |x - y| ≤ ε * |det2 A / det2 C - y| := by
  have hp := positive_of h
  have hm : 0 < min (1 / 4) ε := by positivity
  obtain ⟨δ, hδ, hf⟩ := found hp hm (min_le_left _ _)
  refine ⟨δ, hδ, fun A C hA hC h1 h2 => ?_⟩
  obtain ⟨x, e1, e2, e3, e4⟩ := hf A C hA hC h1 h2
  obtain ⟨e5, e6⟩ := exact_spec hp (tr_pos hA hC) (ratio_pos hA hC)
  refine ⟨x, _, e1, e2, e5, e6, e3.trans (by norm_num [Newton.tol]), e4.trans ?_⟩
  exact mul_le_mul_of_nonneg_right (min_le_right _ _) (abs_nonneg _)

/-- Non-vacuity: constants of a Mooney–Rivlin material; metrics with trace and ratio as close to 2 and 1 as
wanted. -/
example : Constants .mooneyRivlin ⟨1, 1 / 3, 7⟩ ∧ ∀ δ : ℝ, 0 < δ → δ < 1 → ∃ A C : T2, Metric A ∧ Metric C ∧ A ≠ C ∧
    |tr A C - 2| ≤ δ ∧ |det2 C / det2 A - 1| ≤ δ := by
  refine ⟨⟨by norm_num, by norm_num, by norm_num, fun _ => by norm_num, fun h => by simp at h⟩, fun δ h0 h1 => ?_⟩
  refine ⟨![![1, 0], ![0, 1]], ![![1 + δ, 0], ![0, 1]], ⟨by simp, by simp, by simp⟩, ⟨by simp, by simp; linarith, by simp; linarith⟩,
    fun h => ?_, ?_, ?_⟩
  · have := congrFun (congrFun h 0) 0
    simp at this
    linarith
  · simp [tr, Fin.sum_univ_two, inv2, det2]
    rw [show 1 + δ + 1 - 2 = δ by ring, abs_of_pos h0]
  · simp [det2]
    rw [abs_of_pos h0]

variable {J κ : Type} [Fintype J] (P : Problem J κ) (r : Rule) (S : κ → Solid) (p : κ → Par)

variable {P r S p} in
/-- Everything about residual and tangent close to the undeformed state. -/
theorem close (hB : Body P) (hp : ∀ q ∈ P.Q, Constants (S q) (p q)) (hpre : P.pre = P.ori) :
    ∃ M : ℝ, 0 ≤ M ∧ (∀ᶠ x in 𝓝 (0 : EuclideanSpace ℝ J), x ∈ Admissible P ∧
      (∀ q ∈ P.Q, ∃ y, computed (S q) (p q) (pointData P x q) = .ok y) ∧ ∀ ξ : κ → Data → ℝ,
      (∀ q ∈ P.Q, computed (S q) (p q) (pointData P x q) = .ok (ξ q (pointData P x q))) →
      ‖residual P (with_ S p ξ) r x - residual P (solids S p) r x‖ ≤ M * (1 / 10 ^ 10) ∧
      ‖tangent P (with_ S p ξ) r x - tangent P (solids S p) r x‖ ≤ M * (1 / 10 ^ 10)) ∧
    ∀ ε > 0, ∀ᶠ x in 𝓝 (0 : EuclideanSpace ℝ J), ∀ ξ : κ → Data → ℝ,
      (∀ q ∈ P.Q, computed (S q) (p q) (pointData P x q) = .ok (ξ q (pointData P x q))) →
      ‖residual P (with_ S p ξ) r x - residual P (solids S p) r x‖ ≤ ε * ‖x‖ ∧
      ‖tangent P (with_ S p ξ) r x - tangent P (solids S p) r x‖ ≤ ε * ‖x‖ := by
  obtain ⟨K, hK, hE⟩ := entries (r := r) hB hpre hp
  have key : ∀ ε > 0, ∀ᶠ x in 𝓝 (0 : EuclideanSpace ℝ J), ∀ q ∈ P.Q, ∃ y, computed (S q) (p q) (pointData P x q) = .ok y ∧
      |y - exact (S q) (p q) (pointData P x q)| ≤ 2 * Newton.tol ∧
      |y - exact (S q) (p q) (pointData P x q)| ≤ ε * ‖x‖ :=
    fun ε hε => (Filter.eventually_all_finset _).2 fun q hq => stretches hB hpre hp hq hε
  let n : ℝ := Fintype.card J
  have hn : 0 ≤ n := Nat.cast_nonneg _
  have bound : ∀ᶠ x in 𝓝 (0 : EuclideanSpace ℝ J), ∀ ξ : κ → Data → ℝ,
      (∀ q ∈ P.Q, computed (S q) (p q) (pointData P x q) = .ok (ξ q (pointData P x q))) → ∀ b : ℝ, 0 ≤ b →
      (∀ q ∈ P.Q, |ξ q (pointData P x q) - exact (S q) (p q) (pointData P x q)| ≤ b) →
      ‖residual P (with_ S p ξ) r x - residual P (solids S p) r x‖ ≤ (n + 1) * (n + 1) * K * b ∧
      ‖tangent P (with_ S p ξ) r x - tangent P (solids S p) r x‖ ≤ (n + 1) * (n + 1) * K * b := by
    filter_upwards [hE] with x hx ξ hξ b hb hxb
    obtain ⟨c1, c2⟩ := hx ξ hξ b hxb
    have hKb : 0 ≤ K * b := mul_nonneg hK hb
    constructor
    · refine (norm_le_of (b := K * b) fun j => ?_).trans ?_
      · rw [PiLp.sub_apply]; exact c1 j
      · show n * (K * b) ≤ _
        nlinarith [mul_nonneg hn hKb, mul_nonneg hn (mul_nonneg hn hKb)]
    · refine (tangent_close c2 hKb).trans ?_
      show n * (n * (K * b)) ≤ _
      nlinarith [mul_nonneg hn hKb, mul_nonneg hn (mul_nonneg hn hKb)]
  refine ⟨(n + 1) * (n + 1) * K * 2, by positivity, ?_, fun ε hε => ?_⟩
  · filter_upwards [bound, key 1 one_pos, PlanarSystem.admissible_nhds P (origin hB hpre)] with x b1 b2 b3
    refine ⟨b3, fun q hq => ⟨_, (b2 q hq).choose_spec.1⟩, fun ξ hξ => ?_⟩
    have := b1 ξ hξ (2 * Newton.tol) (by norm_num [Newton.tol]) fun q hq => by
      obtain ⟨y, e1, e2, -⟩ := b2 q hq
      rw [hξ q hq] at e1
      rw [Outcome.ok.inj e1]; exact e2
    have e : (n + 1) * (n + 1) * K * (2 * Newton.tol) = (n + 1) * (n + 1) * K * 2 * (1 / 10 ^ 10) := by
      norm_num [Newton.tol]; ring
    rwa [e] at this
  · have hm : 0 < ε / ((n + 1) * (n + 1) * K + 1) := by positivity
    filter_upwards [bound, key _ hm] with x b1 b2 ξ hξ
    have := b1 ξ hξ (ε / ((n + 1) * (n + 1) * K + 1) * ‖x‖) (by positivity) fun q hq => by
      obtain ⟨y, e1, -, e2⟩ := b2 q hq
      rw [hξ q hq] at e1
      rw [Outcome.ok.inj e1]; exact e2
    have e : (n + 1) * (n + 1) * K * (ε / ((n + 1) * (n + 1) * K + 1) * ‖x‖) ≤ ε * ‖x‖ := by
      have hw : 0 ≤ (n + 1) * (n + 1) * K := by positivity
      generalize (n + 1) * (n + 1) * K = w at hw
      have e2 : w * (ε / (w + 1) * ‖x‖) = ε * ‖x‖ * (w / (w + 1)) := by ring
      rw [e2]
      refine mul_le_of_le_one_right (by positivity) ?_
      rw [div_le_one (by positivity)]; linarith
    exact ⟨this.1.trans e, this.2.trans e⟩

/-- **C163** In all states of a sheet close to the undeformed one the iterations of all points stop by
themselves, and the residual and the tangent assembled with the computed stretches are those with the exact
stretches up to a constant times `10⁻¹⁰`. -/
theorem C163_close (hB : Body P) (hp : ∀ q ∈ P.Q, Constants (S q) (p q)) (hpre : P.pre = P.ori) :
    ∃ ρ M : ℝ, 0 < ρ ∧ ∀ x : EuclideanSpace ℝ J, ‖x‖ ≤ ρ → x ∈ Admissible P ∧
      (∀ q ∈ P.Q, ∃ y, computed (S q) (p q) (Hyper.data (gram (P.ori q)) (gram (deformed P x q))) = .ok y) ∧
      ∀ ξ : κ → Data → ℝ, (∀ q ∈ P.Q, computed (S q) (p q) (Hyper.data (gram (P.ori q)) (gram (deformed P x q)))
          = .ok (ξ q (Hyper.data (gram (P.ori q)) (gram (deformed P x q))))) →
        ‖residual P (fun q => material (S q) (p q) (ξ q)) r x - residual P (solids S p) r x‖ ≤ M * (1 / 10 ^ 10) ∧
        ‖tangent P (fun q => material (S q) (p q) (ξ q)) r x - tangent P (solids S p) r x‖ ≤ M * (1 / 10 ^ 10) := by
  obtain ⟨M, -, h, -⟩ := close (r := r) hB hp hpre
  obtain ⟨ρ, hρ, hb⟩ := Metric.nhds_basis_closedBall.mem_iff.1 h
  refine ⟨ρ, M, hρ, fun x hx => ?_⟩
  simp only [PlanarSystem.gram_eq]
  exact hb (by rwa [mem_closedBall_zero_iff])

variable {P r S p} in
theorem rest_injective (hB : Body P) (hp : ∀ q ∈ P.Q, Constants (S q) (p q)) (hpre : P.pre = P.ori) (hr : ∑ j, r.w j = 1)
    (hH : Held P P.ori) : Function.Injective (tangent P (solids S p) r 0) := by
  have hd0 : ∀ q, deformed P 0 q = P.ori q := fun q => by rw [PlanarSystem.deformed_zero, hpre]
  refine (C161_tension P r S p hB hp hr (origin hB hpre) (fun q hq _ => ?_) (fun q hq => ?_) ?_).2.1
  · have hJ : jdet (P.ori q) ≠ 0 := (hB q hq).1
    have hm := PlanarSystem.metric_metric hJ
    rw [PlanarSystem.moduli, hd0]
    refine PlanarSystem.posMat_mul (c := PlanarSystem.weight r (P.t q)) ?_
      (fun i j => PlanarSystem.modulus_eq _ r _ hJ hJ i j) ?_
    · rw [PlanarSystem.weight, ← Finset.sum_mul, hr, one_mul]; exact (hB q hq).2.1
    · show PosMat (fillMatrix (condense ((S q).tangent (p q) (cdata _ (exact (S q) (p q) _)))))
      rw [exact_rest (positive_of (hp q hq)) hm]
      exact rest_positive (hp q hq) hm
  · rw [PlanarSystem.forces, hd0, rest P r S p hB hp hq]
    simp [Spec.PlanarSystem.Tension]
  · rw [show deformed P 0 = P.ori from funext hd0]; exact hH

variable {P S p} in
/-- In the undeformed state the computed stretches are one. -/
theorem stretch_rest (hB : Body P) (hp : ∀ q ∈ P.Q, Constants (S q) (p q)) (hpre : P.pre = P.ori) {q : κ} (hq : q ∈ P.Q) :
    computed (S q) (p q) (Hyper.data (AcovPlanar (P.ori q)) (AcovPlanar (P.ori q))) = .ok 1 := by
  obtain ⟨y, e1, -, e2⟩ := (stretches hB hpre hp hq one_pos).self_of_nhds
  have e3 := exact_origin hB hpre hp hq
  rw [e3, norm_zero, mul_zero] at e2
  have : y = 1 := by
    have := abs_nonpos_iff.1 e2
    linarith
  rw [this, pointData, PlanarSystem.deformed_zero, hpre] at e1
  exact e1

/-- The states in which the iterations of all points stop by themselves. -/
def Converging : Set (EuclideanSpace ℝ J) :=
  {x | x ∈ Admissible P ∧ ∀ q ∈ P.Q, ∃ y,
    computed (S q) (p q) (Hyper.data (gram (P.ori q)) (gram (deformed P x q))) = .ok y}

/-- **C163** A sheet held such that no displacement is without strain, under small loads: the programs, with
the residual and the tangent assembled with the computed thickness stretches, stop by themselves, and find
the one solution of the nonlinear problem with the exact thickness up to a constant times `10⁻¹⁰`. -/
theorem C163_small (hB : Body P) (hp : ∀ q ∈ P.Q, Constants (S q) (p q)) (hpre : P.pre = P.ori) (hr : ∑ j, r.w j = 1)
    (hH : Held P P.ori) (ξ : κ → Data → ℝ)
    (hξ : ∀ q ∈ P.Q, ∀ D y, computed (S q) (p q) D = .ok y → ξ q D = y) :
    ∃ l₀ ρ C : ℝ, 0 < l₀ ∧ 0 < ρ ∧ ∀ l : ℝ, |l| ≤ l₀ →
      ∃ xs ∈ Converging P S p, residual (P.scale l) (solids S p) r xs = 0 ∧
      (∀ x, ‖x‖ ≤ ρ → residual (P.scale l) (solids S p) r x = 0 → x = xs) ∧
      ∀ (s : Solve.Sys (EuclideanSpace ℝ J)) (solve : _ → _ → EuclideanSpace ℝ J),
        Assembles s (residual (P.scale l) (fun q => material (S q) (p q) (ξ q)) r)
          (tangent P (fun q => material (S q) (p q) (ξ q)) r) (Converging P S p) →
        (∀ v j, s.K0 v j = ∑ j', linearEntry P (fun q => material (S q) (p q) (ξ q)) r j j' * v j') →
        (∀ j, s.F j = l * P.F j) → Solver solve →
        ∃ res, Solve.program s solve = .ok res ∧ res.broke = true ∧ ‖res.x - xs‖ ≤ C * (1 / 10 ^ 10) := by
  have hx0 := origin (P := P) hB hpre
  have hinj := rest_injective (r := r) hB hp hpre hr hH
  let Mt : κ → Material := fun q => material (S q) (p q) (ξ q)
  let Fv : EuclideanSpace ℝ J := WithLp.toLp 2 P.F
  have hres : ∀ (M : κ → Material) l x, residual (P.scale l) M r x = residual (P.scale 0) M r x + l • Fv := by
    intro M l x
    ext j
    show (∑ q ∈ P.Q, _) + l * P.F j = ((∑ q ∈ P.Q, _) + 0 * P.F j) + l * P.F j
    rw [zero_mul, add_zero]
    rfl
  have hlin : ∀ (v : EuclideanSpace ℝ J) j, (tangent P (solids S p) r 0 v) j = ∑ j', linearEntry P Mt r j j' * v j' := by
    intro v j
    rw [PlanarSystem.tangent_apply]
    refine Finset.sum_congr rfl fun j' _ => ?_
    rw [(C161_linear P r S p hB hp hpre).2.1 j j']
    congr 1
    refine Finset.sum_congr rfl fun q hq => ?_
    have hJ : jdet (P.ori q) ≠ 0 := (hB q hq).1
    have e : modulus (solids S p q) r (P.t q) 0 (P.ori q) (P.ori q) = modulus (Mt q) r (P.t q) 0 (P.ori q) (P.ori q) := by
      funext k l
      rw [PlanarSystem.modulus_eq _ r _ hJ hJ, PlanarSystem.modulus_eq _ r _ hJ hJ]
      show _ * fillMatrix (condense ((S q).tangent (p q) (cdata _ (exact (S q) (p q) _)))) k l
        = _ * fillMatrix (condense ((S q).tangent (p q) (cdata _ (ξ q _)))) k l
      rw [exact_rest (positive_of (hp q hq)) (PlanarSystem.metric_metric hJ), hξ q hq _ _ (stretch_rest hB hp hpre hq)]
    rw [e]
  obtain ⟨h1, h2⟩ := near (P.scale 0) r S p hB hp (x := 0) hx0
  have h0 : residual (P.scale 0) (solids S p) r 0 = 0 := by
    ext j
    rw [(C161_linear (P.scale 0) r S p hB hp hpre).1 j]
    exact zero_mul _
  obtain ⟨xl, hxl⟩ : ∃ xl, tangent P (solids S p) r 0 xl = Fv :=
    (LinearMap.injective_iff_surjective (f := (tangent P (solids S p) r 0 :
      EuclideanSpace ℝ J →ₗ[ℝ] EuclideanSpace ℝ J))).1 hinj Fv
  obtain ⟨M, hM0, hc, hsm⟩ := close (P := P.scale 0) (r := r) (S := S) (p := p) hB hp hpre
  have hconv : Converging P S p ∈ 𝓝 (0 : EuclideanSpace ℝ J) := by
    filter_upwards [hc] with x hx
    refine ⟨hx.1, fun q hq => ?_⟩
    simp only [PlanarSystem.gram_eq]
    exact hx.2.1 q hq
  have hok : ∀ x ∈ Converging P S p, ∀ q ∈ P.Q,
      computed (S q) (p q) (pointData P x q) = .ok (ξ q (pointData P x q)) := by
    intro x hx q hq
    obtain ⟨y, hy⟩ := hx.2 q hq
    simp only [PlanarSystem.gram_eq] at hy
    rw [hξ q hq _ _ hy]
    exact hy
  obtain ⟨l₀, ρ, C, hl0, hρ, hC, hall⟩ := Solve.small_noisy (R := residual (P.scale 0) (solids S p) r)
    (Rt := residual (P.scale 0) Mt r) (K := tangent P (solids S p) r) (Kt := tangent P Mt r) h2 h1 hinj h0
    hconv (τ := M * (1 / 10 ^ 10)) (by positivity)
    (fun ε hε => by
      filter_upwards [hsm (min ε 1) (by positivity), hconv, Metric.closedBall_mem_nhds (0 : EuclideanSpace ℝ J) (ε := ε) hε,
        Metric.closedBall_mem_nhds (0 : EuclideanSpace ℝ J) one_pos] with x b1 b2 b3 b4
      rw [mem_closedBall_zero_iff] at b3 b4
      obtain ⟨c1, c2⟩ := b1 ξ (hok x b2)
      refine ⟨c1.trans (mul_le_mul_of_nonneg_right (min_le_left _ _) (norm_nonneg _)), ?_⟩
      exact c2.trans ((mul_le_mul_of_nonneg_right (min_le_right _ _) (norm_nonneg _)).trans (by linarith)))
    (by
      filter_upwards [hc, hconv] with x b1 b2
      exact b1.2.2 ξ (hok x b2))
    Fv xl hxl
  refine ⟨l₀, ρ, C * (M + 1), hl0, hρ, fun l hl => ?_⟩
  obtain ⟨xs, hxs, e1, -, e3, e4⟩ := hall l hl
  refine ⟨xs, hxs, (hres _ l xs).trans e1, fun x hx h => e3 x hx ((hres _ l x).symm.trans h), fun s solve ha hk hb hsol => ?_⟩
  obtain ⟨res, f1, f2, f3⟩ := e4 s solve ⟨fun x hx => by rw [ha.residual x hx]; exact congrArg some (hres _ l x), ha.jacobian⟩
    hsol (by
      ext v j
      rw [hk v j]; exact (hlin v j).symm) (by
      ext j
      rw [hb j]; rfl)
  refine ⟨res, f1, f2, f3.trans ?_⟩
  rw [mul_assoc]
  refine mul_le_mul_of_nonneg_left ?_ hC
  norm_num
  linarith

/-- Non-vacuity: a strip of neo-Hookean material, with the stretches as computed. -/
example : Body (strip 1) ∧ (∀ q ∈ (strip 1).Q, Constants .neoHooke ⟨2, 1 / 4, 1⟩) ∧ (strip 1).pre = (strip 1).ori ∧
    (∑ _j : Fin 1, (1 : ℝ)) = 1 ∧ Held (strip 1) (strip 1).ori ∧
    ∃ ξ : Unit → Data → ℝ, ∀ q ∈ (strip 1).Q, ∀ D y, computed .neoHooke ⟨2, 1 / 4, 1⟩ D = .ok y → ξ q D = y := by
  refine ⟨PlanarSystem.strip_body 1, fun _ _ => ⟨by norm_num, by norm_num, by norm_num, fun h => by simp at h,
    fun h => by simp at h⟩, rfl, by simp, ?_, fun _ D => match computed .neoHooke ⟨2, 1 / 4, 1⟩ D with
      | .ok y => y
      | _ => 0, fun q _ D y h => ?_⟩
  · have h := PlanarSystem.strip_held 1 0 (by simp)
    rwa [show deformed (strip 1) 0 = (strip 1).ori from funext fun q => PlanarSystem.deformed_zero (strip 1) q] at h
  · simp only [h]

end Verif.Thickness
