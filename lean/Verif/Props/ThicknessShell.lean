import Verif.Lemmas.ThicknessShell
import Verif.Lemmas.NoisyLoads

/-! # C164: the iterations for the thickness of compressible shells near the undeformed state -/

namespace Verif.ThicknessShell

open Verif.Geometry Verif.Variation Verif.Integrate Verif.Hyper Verif.PlaneSheet
open Verif.ShellSystem hiding curved curved_normal
open Verif.PlaneShell (shells rest rest_flat smooth_at all_lawful C162_linear)
open Verif.HyperShell (simpson roll flat_curved ofEntries_zero thin_ne simpson_inside cylinder_regular)
open Verif.LoadedShell (ofEntries)
open Spec.PlaneSheet Spec.Solve Spec.ShellTangent Spec.HyperShell
open Spec.ShellSystem (Solver)
open Filter Topology

variable {J κ : Type} [Fintype J] (P : Problem J κ) (r : Rule) (S : κ → Solid) (p : κ → Par) (t : κ → ℝ)

/-- The metrics of both bodies at a height (`Spec/ShellTangent`). -/
noncomputable abbrev metrics (x : EuclideanSpace ℝ J) (q : κ) (i : Fin r.n) : Data :=
  Hyper.data (Gblock (P.ori q) (r.ξ i * t q)) (Gblock (deformed P x q) (r.ξ i * t q))

/-- **C164** In all states of a shell, flat or curved, close to the undeformed one the iterations at all
heights of all points stop by themselves, and the residual and the tangent assembled with the computed stretches
are those with the exact stretches up to a constant times `10⁻¹⁰`. -/
theorem C164_close (hpre : P.pre = P.ori)
    (hb : ∀ q ∈ P.Q, Indep ((P.ori q).a 0) ((P.ori q).a 1) ∧ Regular r (t q) (P.ori q) (P.ori q))
    (hp : ∀ q ∈ P.Q, Constants (S q) (p q)) :
    ∃ ρ M : ℝ, 0 < ρ ∧ ∀ x : EuclideanSpace ℝ J, ‖x‖ ≤ ρ → x ∈ States P r t ∧
      (∀ q ∈ P.Q, ∀ i, ∃ y, computed (S q) (p q) (metrics P r t x q i) = .ok y) ∧
      ∀ ξ : κ → Data → ℝ, (∀ q ∈ P.Q, ∀ i, computed (S q) (p q) (metrics P r t x q i)
          = .ok (ξ q (metrics P r t x q i))) →
        ‖residual P (shells P r (fun q => material (S q) (p q) (ξ q)) t) x
          - residual P (shells P r (solids S p) t) x‖ ≤ M * (1 / 10 ^ 10) ∧
        ‖tangent P (shells P r (fun q => material (S q) (p q) (ξ q)) t) x
          - tangent P (shells P r (solids S p) t) x‖ ≤ M * (1 / 10 ^ 10) := by
  obtain ⟨M, -, h, -⟩ := close hpre hb hp
  obtain ⟨ρ, hρ, hball⟩ := Metric.nhds_basis_closedBall.mem_iff.1 h
  exact ⟨ρ, M, hρ, fun x hx => hball (by rwa [mem_closedBall_zero_iff])⟩

/-- Non-vacuity: a cylinder of curvature 1 and thickness 1. -/
example : (roll 1).pre = (roll 1).ori ∧ (∀ q ∈ (roll 1).Q, Indep (((roll 1).ori q).a 0) (((roll 1).ori q).a 1) ∧
    Regular simpson 1 ((roll 1).ori q) ((roll 1).ori q)) ∧ Constants .mooneyRivlin ⟨1, -1 / 4, 7⟩ := by
  refine ⟨rfl, fun _ _ => ⟨ShellTangent.curved_indep 1, cylinder_regular (thin_ne (by norm_num) (by norm_num) simpson_inside)⟩, ?_⟩
  constructor <;> norm_num
  exact fun h => by cases h

/-- The states in which the iterations at all heights of all points stop by themselves. -/
def Converging : Set (EuclideanSpace ℝ J) :=
  {x | x ∈ States P r t ∧ ∀ q ∈ P.Q, ∀ i, ∃ y, computed (S q) (p q) (metrics P r t x q i) = .ok y}

/-- **C164** A plate with a regular matrix of the linear problem, under small loads: the programs, with the
residual and the tangent assembled with the computed thickness stretches, stop by themselves, and find the one
solution of the nonlinear problem with the exact thickness up to a constant times `10⁻¹⁰`. -/
theorem C164_plate (hpre : P.pre = P.ori)
    (hb : ∀ q ∈ P.Q, Indep ((P.ori q).a 0) ((P.ori q).a 1) ∧ Regular r (t q) (P.ori q) (P.ori q))
    (hp : ∀ q ∈ P.Q, Constants (S q) (p q)) (hf : ∀ q ∈ P.Q, Flat (P.ori q))
    (hi : ∀ v : EuclideanSpace ℝ J, (∀ j, ∑ j', linearEntry P (shells P r (solids S p) t) j j' * v j' = 0) → v = 0)
    (ξ : κ → Data → ℝ) (hξ : ∀ q ∈ P.Q, ∀ D y, computed (S q) (p q) D = .ok y → ξ q D = y) :
    ∃ l₀ ρ C : ℝ, 0 < l₀ ∧ 0 < ρ ∧ ∀ l : ℝ, |l| ≤ l₀ →
      ∃ xs ∈ Converging P r S p t, residual (P.scale l) (shells P r (solids S p) t) xs = 0 ∧
      (∀ x, ‖x‖ ≤ ρ → residual (P.scale l) (shells P r (solids S p) t) x = 0 → x = xs) ∧
      ∀ (s : Solve.Sys (EuclideanSpace ℝ J)) (solve : _ → _ → EuclideanSpace ℝ J),
        Assembles s (residual (P.scale l) (shells P r (fun q => material (S q) (p q) (ξ q)) t))
          (tangent P (shells P r (fun q => material (S q) (p q) (ξ q)) t)) (Converging P r S p t) →
        (∀ v j, s.K0 v j = ∑ j', linearEntry P (shells P r (fun q => material (S q) (p q) (ξ q)) t) j j' * v j') →
        (∀ j, s.F j = l * P.F j) → Solver solve →
        ∃ res, Solve.program s solve = .ok res ∧ res.broke = true ∧ ‖res.x - xs‖ ≤ C * (1 / 10 ^ 10) := by
  classical
  have hx0 := HyperShell.start P hpre hb
  have hreg : ∀ q ∈ P.Q, Regular r (t q) (P.ori q) (P.ori q) := fun q hq => (hb q hq).2
  let Lt : Law κ := shells P r (fun q => material (S q) (p q) (ξ q)) t
  let L : Law κ := shells P r (solids S p) t
  let Fv : EuclideanSpace ℝ J := WithLp.toLp 2 P.F
  have hres : ∀ (M : Law κ) l x, residual (P.scale l) M x = residual (P.scale 0) M x + l • Fv := by
    intro M l x
    ext j
    show (∑ q ∈ P.Q, _) + l * P.F j = ((∑ q ∈ P.Q, _) + 0 * P.F j) + l * P.F j
    rw [zero_mul, add_zero]
    rfl
  -- the matrices of the linear problem agree
  have hent : ∀ j j', linearEntry P Lt j j' = linearEntry P L j j' := by
    intro j j'
    refine Finset.sum_congr rfl fun q hq => ?_
    have e : ∀ m, ShellTangent.modulus (PlaneShell.heights (material (S q) (p q) (ξ q)) (P.ori q)) r (t q) m (P.ori q)
        = ShellTangent.modulus (PlaneShell.heights (solids S p q) (P.ori q)) r (t q) m (P.ori q) := by
      intro m
      funext k l
      unfold ShellTangent.modulus integrateZ
      refine Finset.sum_congr rfl fun i _ => ?_
      have e1 := stretch_rest hpre hb hp hq i
      have e2 := exact_rest (positive_of (hp q hq)) (metric_ori hb hq i)
      show _ * fillMatrix (condense ((S q).tangent (p q) (cdata _ (ξ q _)))) k l * _
        = _ * fillMatrix (condense ((S q).tangent (p q) (cdata _ (exact (S q) (p q) _)))) k l * _
      rw [hξ q hq _ _ e1, e2]
    show linStiffness _ _ _ (ShellTangent.modulus _ _ _ 0 _) (ShellTangent.modulus _ _ _ 1 _)
      (ShellTangent.modulus _ _ _ 1 _) (ShellTangent.modulus _ _ _ 2 _) * _ = _
    rw [e, e, e]
    rfl
  have hlin : ∀ (v : EuclideanSpace ℝ J) j, (tangent P L 0 v) j = ∑ j', linearEntry P L j j' * v j' := by
    intro v j
    rw [tangent_apply]
    exact Finset.sum_congr rfl fun j' _ => by rw [(C162_linear P r S p t hp hpre hreg j j').2]
  have hinj : Function.Injective (tangent P L 0) := by
    refine (injective_iff_map_eq_zero _).2 fun v hv => hi v fun j => ?_
    rw [← hlin, hv]; rfl
  obtain ⟨h1, h2, h3⟩ := smooth_at (P := P.scale 0) (r := r) (t := t) (all_lawful (P.scale 0) S p hp) (x := 0) hx0
  have hr0 : rest (P.scale 0) r (solids S p) t 0 = fun _ _ => 0 :=
    rest_flat (P.scale 0) r S p t hx0 fun q hq => by rw [deformed_zero]; show Flat (P.pre q); rw [hpre]; exact hf q hq
  have h0 : residual (P.scale 0) L 0 = 0 := by
    ext j
    have := (C162_linear (P.scale 0) r S p t hp hpre hreg j j).1
    rw [show residual (P.scale 0) L 0 j = (P.scale 0).F j from this]
    exact zero_mul _
  obtain ⟨xl, hxl⟩ : ∃ xl, tangent P L 0 xl = Fv :=
    (LinearMap.injective_iff_surjective (f := (tangent P L 0 :
      EuclideanSpace ℝ J →ₗ[ℝ] EuclideanSpace ℝ J))).1 hinj Fv
  -- the true tangent, with what the third fundamental form adds
  let D : EuclideanSpace ℝ J → EuclideanSpace ℝ J →L[ℝ] EuclideanSpace ℝ J :=
    fun x => ofEntries (rest (P.scale 0) r (solids S p) t x)
  have hD0 : D 0 = 0 := by
    show ofEntries (rest (P.scale 0) r (solids S p) t 0) = 0
    rw [hr0, ofEntries_zero]
  have hDc : ∀ ε > 0, ∀ᶠ x in 𝓝 (0 : EuclideanSpace ℝ J), ‖D x‖ ≤ ε := by
    intro ε hε
    have hc : ContinuousAt (fun x => ‖D x‖) 0 := h3.continuousAt.norm
    refine (hc.eventually_lt continuousAt_const (?_ : ‖D 0‖ < ε)).mono fun x hx => le_of_lt hx
    rw [hD0, norm_zero]; exact hε
  obtain ⟨M, hM0, hc, hsm⟩ := close (P := P.scale 0) (r := r) (S := S) (p := p) (t := t) hpre hb hp
  have hconv : Converging P r S p t ∈ 𝓝 (0 : EuclideanSpace ℝ J) := by
    filter_upwards [hc] with x hx
    exact ⟨hx.1, hx.2.1⟩
  have hok : ∀ x ∈ Converging P r S p t, ∀ q ∈ P.Q, ∀ i,
      computed (S q) (p q) (pointData P r t x q i) = .ok (ξ q (pointData P r t x q i)) := by
    intro x hx q hq i
    obtain ⟨y, hy⟩ := hx.2 q hq i
    rw [hξ q hq _ _ hy]
    exact hy
  have hK0 : tangent P L 0 + D 0 = tangent P L 0 := by rw [hD0, add_zero]
  obtain ⟨l₀, ρ, C, hl0, hρ, hC, hall⟩ := Solve.small_noisy (R := residual (P.scale 0) L)
    (Rt := residual (P.scale 0) Lt) (K := fun x => tangent P L x + D x) (Kt := tangent P Lt) h2 h1
    (by rw [hK0]; exact hinj) h0 hconv (τ := (M + 1) * (1 / 10 ^ 10)) (by positivity)
    (fun ε hε => by
      filter_upwards [hsm (min ε (1 / 2)) (by positivity), hconv,
        Metric.closedBall_mem_nhds (0 : EuclideanSpace ℝ J) (ε := ε) hε, hDc (ε / 2) (by positivity)] with x b1 b2 b3 b4
      rw [mem_closedBall_zero_iff] at b3
      obtain ⟨c1, c2⟩ := b1 ξ (hok x b2)
      refine ⟨c1.trans (mul_le_mul_of_nonneg_right (min_le_left _ _) (norm_nonneg _)), ?_⟩
      have c3 : ‖tangent P Lt x - tangent P L x‖ ≤ 1 / 2 * ‖x‖ :=
        c2.trans (mul_le_mul_of_nonneg_right (min_le_right _ _) (norm_nonneg _))
      rw [← sub_sub]
      refine (norm_sub_le _ _).trans ?_
      linarith)
    (by
      filter_upwards [hc, hconv, hDc (1 / 10 ^ 10) (by positivity)] with x b1 b2 b3
      obtain ⟨c1, c2⟩ := b1.2.2 ξ (hok x b2)
      refine ⟨c1.trans (by norm_num), ?_⟩
      rw [← sub_sub]
      refine (norm_sub_le _ _).trans ?_
      have c3 : ‖tangent P Lt x - tangent P L x‖ ≤ M * (1 / 10 ^ 10) := c2
      rw [add_mul, one_mul]
      exact add_le_add c3 b3)
    Fv xl (by rw [hK0]; exact hxl)
  refine ⟨l₀, ρ, C * (M + 2), hl0, hρ, fun l hl => ?_⟩
  obtain ⟨xs, hxs, e1, -, e3, e4⟩ := hall l hl
  refine ⟨xs, hxs, (hres _ l xs).trans e1, fun x hx h => e3 x hx ((hres _ l x).symm.trans h), fun s solve ha hk hb hsol => ?_⟩
  obtain ⟨res, f1, f2, f3⟩ := e4 s solve ⟨fun x hx => by rw [ha.residual x hx]; exact congrArg some (hres _ l x), ha.jacobian⟩
    hsol (by
      rw [hK0]
      ext v j
      rw [hk v j, hlin v j]
      exact Finset.sum_congr rfl fun j' _ => by rw [hent]) (by
      ext j
      rw [hb j]; rfl)
  refine ⟨res, f1, f2, f3.trans ?_⟩
  rw [mul_assoc]
  refine mul_le_mul_of_nonneg_left ?_ hC
  norm_num
  linarith

/-- Non-vacuity: a plate of extended neo-Hookean material, with the stretches as computed. -/
example : (roll 0).pre = (roll 0).ori ∧ (∀ q ∈ (roll 0).Q, Indep (((roll 0).ori q).a 0) (((roll 0).ori q).a 1) ∧
    Regular simpson 1 ((roll 0).ori q) ((roll 0).ori q)) ∧ Constants .extended ⟨1, 1 / 4, 7⟩ ∧
    (∀ q ∈ (roll 0).Q, Flat ((roll 0).ori q)) ∧
    (∀ v : EuclideanSpace ℝ Unit, (∀ j, ∑ j', linearEntry (roll 0)
      (shells (roll 0) simpson (solids (fun _ => .extended) fun _ => ⟨1, 1 / 4, 7⟩) fun _ => 1) j j' * v j' = 0) → v = 0) ∧
    ∃ ξ : Unit → Data → ℝ, ∀ q ∈ (roll 0).Q, ∀ D y, computed .extended ⟨1, 1 / 4, 7⟩ D = .ok y → ξ q D = y := by
  have hc : Constants .extended ⟨1, 1 / 4, 7⟩ := by constructor <;> norm_num
  have hne : ∀ j : Fin simpson.n, (0 : ℝ) * (simpson.ξ j * 1) ≠ 1 := fun _ => by norm_num
  refine ⟨rfl, fun _ _ => ⟨ShellTangent.curved_indep 0, cylinder_regular hne⟩, hc, fun _ _ => flat_curved, ?_,
    fun _ D => match computed .extended ⟨1, 1 / 4, 7⟩ D with
      | .ok y => y
      | _ => 0, fun q _ D y h => by simp only [h]⟩
  intro v hv
  have h := hv ()
  have hpos := PlaneShell.bend_pos hc
  simp only [PlaneShell.roll_linear hc _ _ _ hne] at h
  ext j
  simp only [Finset.univ_unique, Finset.sum_singleton, mul_eq_zero] at h
  rcases h with h | h
  · rw [h] at hpos; exact absurd hpos (lt_irrefl _)
  · exact h

end Verif.ThicknessShell
