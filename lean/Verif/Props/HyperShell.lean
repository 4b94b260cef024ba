import Verif.Lemmas.HyperCylinder
import Verif.Props.StrainVariation
import Verif.Props.HyperReference
import Verif.Spec.LoadedShell

/-! # Property C154: the nonlinear system of a shell of incompressible hyperelastic material -/

namespace Verif.HyperShell

open V3 Verif.Geometry Verif.Variation Verif.Balance Verif.Integrate Verif.ShellTangent
open Verif.ShellSystem hiding curved curved_normal
open Spec.ShellTangent Spec.HyperShell Spec.Hyper Spec.Solve Filter Topology
open Spec.LoadedShell (Conservative)
open Spec.ShellSystem (Solver)
open Verif.LoadedShell (ofEntries ofEntries_apply)
open Verif.PlanarSystem (Solid)

section General

variable {J κ : Type} [Fintype J] (P : Problem J κ) (r : Rule) (S : κ → Solid) (p : κ → Hyper.Par) (t : κ → ℝ)

/-! ## The derivative of the residual -/

theorem fill_symm (c : Fin 3 → Fin 3 → Fin 3 → Fin 3 → ℝ) (i j : Fin 3) :
    Hyper.fillMatrix c i j = Hyper.fillMatrix c j i := by
  rcases fin3_cases i with rfl | rfl | rfl <;> rcases fin3_cases j with rfl | rfl | rfl <;> rfl

theorem modulus_symm (L : ShellTangent.Law) (t : ℝ) (m : ℕ) (s : Surf) (i j : Fin 3) :
    modulus L r t m s i j = modulus L r t m s j i := by
  unfold modulus integrateZ
  simp only [fill_symm _ i j]

/-- **C154** The derivative of the residual is minus the assembled tangent, which is symmetric, minus what
the third fundamental form adds. -/
theorem C154_derivative {x : EuclideanSpace ℝ J} (hx : x ∈ States P r t) :
    HasFDerivAt (residual P (solids P r S p t))
      (-(tangent P (solids P r S p t) x
        + ofEntries (third P (fun q => material (S q) (p q) (P.ori q)) r t x))) x ∧
    ∀ j j', entry P (solids P r S p t) x j j' = entry P (solids P r S p t) x j' j := by
  classical
  refine ⟨residual_deriv hx, fun j j' => Finset.sum_congr rfl fun q _ => ?_⟩
  congr 1
  exact C66_symmetric _ _ _ _ _ _ _ _ _ (modulus_symm r _ _ _ _) (modulus_symm r _ _ _ _) (modulus_symm r _ _ _ _)

/-- A three-point rule, exact up to the third power. -/
noncomputable def simpson : Rule := ⟨3, vec3 (-1 / 2) 0 (1 / 2), vec3 (1 / 6) (2 / 3) (1 / 6)⟩

theorem simpson_exact : simpson.Exact 3 := by
  intro k hk
  rw [integral_pow]
  have : k = 0 ∨ k = 1 ∨ k = 2 ∨ k = 3 := by omega
  show ∑ j : Fin 3, vec3 (1 / 6) (2 / 3) (1 / 6) j * vec3 (-1 / 2) 0 (1 / 2) j ^ k = _
  rcases this with rfl | rfl | rfl | rfl <;> simp [Fin.sum_univ_three] <;> norm_num

theorem simpson_nonneg (j : Fin simpson.n) : 0 ≤ simpson.w j := by
  show 0 ≤ vec3 (1 / 6) (2 / 3) (1 / 6) j
  rcases fin3_cases j with rfl | rfl | rfl <;> norm_num

theorem simpson_inside (j : Fin simpson.n) : |simpson.ξ j| ≤ 1 / 2 := by
  show |vec3 (-1 / 2) 0 (1 / 2) j| ≤ 1 / 2
  rcases fin3_cases j with rfl | rfl | rfl <;> norm_num [abs_le]

omit [Fintype J] in
theorem start [Fintype J] (hp : P.pre = P.ori) {r : Rule} {t : κ → ℝ}
    (hb : ∀ q ∈ P.Q, Indep ((P.ori q).a 0) ((P.ori q).a 1) ∧ Regular r (t q) (P.ori q) (P.ori q)) :
    (0 : EuclideanSpace ℝ J) ∈ States P r t := by
  intro q hq
  rw [deformed_zero, hp]
  exact hb q hq

theorem roll_start {r : Rule} {t c : ℝ} (h : ∀ j, c * (r.ξ j * t) ≠ 1) (l : ℝ) :
    (0 : EuclideanSpace ℝ Unit) ∈ States ((roll c).scale l) r fun _ => t :=
  start _ rfl fun _ _ => ⟨curved_indep c, cylinder_regular h⟩

/-- Non-vacuity: a cylinder of curvature 1 and thickness 1. -/
example : (0 : EuclideanSpace ℝ Unit) ∈ States ((roll 1).scale 1) simpson fun _ => 1 :=
  roll_start (thin_ne (by norm_num) (by norm_num) simpson_inside) 1

/-! ## The linear problem -/

theorem resultant_rest (S : Solid) (p : Hyper.Par) (t : ℝ) (m : ℕ) (s : Surf) (h : Regular r t s s) :
    resultant (material S p s) r t m s = fun _ => 0 := by
  have hz : ∀ j i k, (material S p s).stress (r.ξ j * t) (Gblock s (r.ξ j * t)) i k = 0 := by
    intro j i k
    have hs : Gblock s (r.ξ j * t) 0 1 = Gblock s (r.ξ j * t) 1 0 := metric_symm s _
    cases S with
    | neoHooke => exact Hyper.C46_NH p _ (h j).1 _ _
    | mooneyRivlin => exact Hyper.C46_MR p _ (h j).1 hs _ _
  funext k
  unfold resultant integrateZ
  refine Finset.sum_eq_zero fun j _ => ?_
  have : (material S p s).stress (r.ξ j * t) (Gblock s (r.ξ j * t)) = fun _ _ => 0 := by
    funext i k; exact hz j i k
  show r.w j * (r.ξ j * t) ^ m * stressV ((material S p s).stress (r.ξ j * t) (Gblock s (r.ξ j * t))) k * t = 0
  rw [this]
  rcases fin3_cases k with rfl | rfl | rfl <;> simp [stressV]

/-- **C154** Without prescribed displacements the undeformed state carries no internal forces, and the
matrix of the linear problem is the assembled tangent there. -/
theorem C154_linear (hp : P.pre = P.ori) (hb : ∀ q ∈ P.Q, Regular r (t q) (P.ori q) (P.ori q)) (j j' : J) :
    residual P (solids P r S p t) 0 j = P.F j ∧
    entry P (solids P r S p t) 0 j j' = linearEntry P (solids P r S p t) j j' := by
  have hd : ∀ q, deformed P 0 q = P.ori q := fun q => by rw [deformed_zero, hp]
  have hN : ∀ q ∈ P.Q, (solids P r S p t q (P.ori q)).N = (fun _ => 0) ∧
      (solids P r S p t q (P.ori q)).M = fun _ => 0 := fun q hq =>
    ⟨resultant_rest r _ _ _ _ _ (hb q hq), resultant_rest r _ _ _ _ _ (hb q hq)⟩
  constructor
  · show (∑ q ∈ P.Q, _) + _ = _
    rw [Finset.sum_eq_zero fun q hq => ?_, zero_add]
    rw [hd, (hN q hq).1, (hN q hq).2]
    simp [internalForce, dotV]
  · refine Finset.sum_congr rfl fun q hq => ?_
    rw [hd, (hN q hq).1, (hN q hq).2, (C66_linear _ _ _ _ _ _ _).1]

/-- Non-vacuity. -/
example : (roll 1).pre = (roll 1).ori ∧ ∀ q ∈ (roll 1).Q, Regular simpson 1 ((roll 1).ori q) ((roll 1).ori q) :=
  ⟨rfl, fun _ _ => cylinder_regular (thin_ne (by norm_num) (by norm_num) simpson_inside)⟩

/-! ## States without curvature -/

theorem rest_flat {x : EuclideanSpace ℝ J} (hx : x ∈ States P r t) (hf : ∀ q ∈ P.Q, Flat (deformed P x q)) :
    rest P r S p t x = fun _ _ => 0 := by
  funext j j'
  refine Finset.sum_eq_zero fun q hq => ?_
  have h : thirdRate (deformed P x q) (P.field q j') = 0 := by
    funext a b
    exact (flat_third _ (P.field q j') (hx q hq).1 (hf q hq) a b).deriv
  have h0 : half (0 : T2) = fun _ => 0 := by
    funext k; rcases fin3_cases k with rfl | rfl | rfl <;> simp [half]
  simp [thirdWork, h, h0]

theorem ofEntries_zero : ofEntries (fun _ _ : J => (0 : ℝ)) = 0 := by
  ext v j; simp [ofEntries_apply]

/-- **C154** (partial: states without curvature) The assembled tangent is minus the derivative of the
residual. -/
theorem C154_flat_partial {x : EuclideanSpace ℝ J} (hx : x ∈ States P r t)
    (hf : ∀ q ∈ P.Q, Flat (deformed P x q)) :
    HasFDerivAt (residual P (solids P r S p t)) (-tangent P (solids P r S p t) x) x := by
  have h := (C154_derivative P r S p t hx).1
  rw [show third P (fun q => material (S q) (p q) (P.ori q)) r t x = fun _ _ => 0 from rest_flat P r S p t hx hf,
    ofEntries_zero, add_zero] at h
  exact h

theorem flat_curved : Flat (curved 0) := by
  intro i j
  rw [curved_B]
  rcases fin2_cases i with rfl | rfl <;> rcases fin2_cases j with rfl | rfl <;> simp

/-- Non-vacuity: the plate. -/
example : (0 : EuclideanSpace ℝ Unit) ∈ States ((roll 0).scale 1) simpson (fun _ => 1) ∧
    ∀ q ∈ ((roll 0).scale 1).Q, Flat (deformed ((roll 0).scale 1) (0 : EuclideanSpace ℝ Unit) q) :=
  ⟨roll_start (fun _ => by norm_num) 1, fun q _ => by rw [deformed_zero]; exact flat_curved⟩

/-! ## Newton's method -/

theorem smooth_at {x : EuclideanSpace ℝ J} (hx : x ∈ States P r t) :
    (∀ᶠ y in 𝓝 x, HasFDerivAt (residual P (solids P r S p t))
      (-(tangent P (solids P r S p t) y + ofEntries (rest P r S p t y))) y) ∧
    ContDiffAt ℝ 2 (residual P (solids P r S p t)) x ∧
    ContDiffAt ℝ 1 (fun y => ofEntries (rest P r S p t y)) x := by
  classical
  exact ⟨Filter.mem_of_superset (states_nhds hx) fun y hy => residual_deriv hy, residual_smooth hx,
    entries_smooth fun j j' => rest_smooth hx j j'⟩

/-- **C154** (partial: what the third fundamental form adds is small against the tangent) Around an
equilibrium there is a ball such that the programs, started with a linear solution in this ball, stop by
themselves with a solution that is right up to a constant times the tolerance. -/
theorem C154_newton_partial {xs : EuclideanSpace ℝ J} (hx : xs ∈ States P r t)
    (h0 : residual P (solids P r S p t) xs = 0) {β : ℝ} (hβ : 0 < β)
    (hb : ∀ v, ‖v‖ ≤ β * ‖tangent P (solids P r S p t) xs v‖)
    (hs : β * ‖ofEntries (third P (fun q => material (S q) (p q) (P.ori q)) r t xs)‖ ≤ 1 / 16) :
    ∃ ρ C : ℝ, 0 < ρ ∧ ∀ (s : Solve.Sys (EuclideanSpace ℝ J)) (solve : _ → EuclideanSpace ℝ J → EuclideanSpace ℝ J),
      Assembles s (residual P (solids P r S p t)) (tangent P (solids P r S p t)) (States P r t) →
      Solver solve → ‖solve s.K0 s.F - xs‖ ≤ ρ →
      ∃ res, Solve.program s solve = .ok res ∧ res.broke = true ∧ ‖res.x - xs‖ ≤ C * (1 / 10 ^ 6) := by
  classical
  obtain ⟨h1, h2, h3⟩ := smooth_at P r S p t hx
  exact Solve.local_varying h2 h1 h3.continuousAt h0 hβ hb hs (states_nhds hx)

/-! ## Small loads on a plate -/

/-- **C154** (partial: the undeformed shell is flat) For small loads there is exactly one solution close to
the undeformed state; it differs from the linear solution by the square of the load, and the programs stop
by themselves, with an error that is at most a constant times the tolerance times load plus tolerance. -/
theorem C154_small_partial (hp : P.pre = P.ori)
    (hb : ∀ q ∈ P.Q, Indep ((P.ori q).a 0) ((P.ori q).a 1) ∧ Regular r (t q) (P.ori q) (P.ori q))
    (hf : ∀ q ∈ P.Q, Flat (P.ori q))
    (hi : ∀ v : EuclideanSpace ℝ J, (∀ j, ∑ j', linearEntry P (solids P r S p t) j j' * v j' = 0) → v = 0) :
    ∃ l₀ ρ C : ℝ, 0 < l₀ ∧ 0 < ρ ∧ ∀ l : ℝ, |l| ≤ l₀ →
      ∃ xs ∈ States P r t, residual (P.scale l) (solids P r S p t) xs = 0 ∧
      (∀ x, ‖x‖ ≤ ρ → residual (P.scale l) (solids P r S p t) x = 0 → x = xs) ∧
      (∃ xl : EuclideanSpace ℝ J,
        (∀ j, ∑ j', linearEntry P (solids P r S p t) j j' * xl j' = l * P.F j) ∧ ‖xs - xl‖ ≤ C * l ^ 2) ∧
      ∀ (s : Solve.Sys (EuclideanSpace ℝ J)) (solve : _ → _ → EuclideanSpace ℝ J),
        Assembles s (residual (P.scale l) (solids P r S p t)) (tangent P (solids P r S p t)) (States P r t) →
        (∀ v j, s.K0 v j = ∑ j', linearEntry P (solids P r S p t) j j' * v j') →
        (∀ j, s.F j = l * P.F j) → Solver solve →
        ∃ res, Solve.program s solve = .ok res ∧ res.broke = true ∧
          ‖res.x - xs‖ ≤ C * (|l| + 1 / 10 ^ 6) * (1 / 10 ^ 6) := by
  classical
  have hx0 := start P hp hb
  have hreg : ∀ q ∈ P.Q, Regular r (t q) (P.ori q) (P.ori q) := fun q hq => (hb q hq).2
  let Fv : EuclideanSpace ℝ J := WithLp.toLp 2 P.F
  have hres : ∀ l x, residual (P.scale l) (solids P r S p t) x
      = residual (P.scale 0) (solids P r S p t) x + l • Fv := by
    intro l x
    ext j
    show (∑ q ∈ P.Q, _) + l * P.F j = ((∑ q ∈ P.Q, _) + 0 * P.F j) + l * P.F j
    rw [zero_mul, add_zero]
    rfl
  have hlin : ∀ (v : EuclideanSpace ℝ J) j, (tangent P (solids P r S p t) 0 v) j
      = ∑ j', linearEntry P (solids P r S p t) j j' * v j' := by
    intro v j
    rw [tangent_apply]
    exact Finset.sum_congr rfl fun j' _ => by rw [(C154_linear P r S p t hp hreg j j').2]
  have hinj : Function.Injective (tangent P (solids P r S p t) 0) := by
    refine (injective_iff_map_eq_zero _).2 fun v hv => hi v fun j => ?_
    rw [← hlin, hv]; rfl
  obtain ⟨h1, h2, h3⟩ := smooth_at (P.scale 0) r S p t (x := 0) hx0
  have hr0 : rest (P.scale 0) r S p t 0 = fun _ _ => 0 :=
    rest_flat (P.scale 0) r S p t hx0 fun q hq => by rw [deformed_zero]; show Flat (P.pre q); rw [hp]; exact hf q hq
  have h0 : residual (P.scale 0) (solids P r S p t) 0 = 0 := by
    ext j
    have := (C154_linear (P.scale 0) r S p t hp hreg j j).1
    rw [show residual (P.scale 0) (solids P r S p t) 0 j = (P.scale 0).F j from this]
    exact zero_mul _
  obtain ⟨xl, hxl⟩ : ∃ xl, tangent P (solids P r S p t) 0 xl = Fv :=
    (LinearMap.injective_iff_surjective (f := (tangent P (solids P r S p t) 0 :
      EuclideanSpace ℝ J →ₗ[ℝ] EuclideanSpace ℝ J))).1 hinj Fv
  obtain ⟨l₀, ρ, C, hl0, hρ, hall⟩ := Solve.small_inexact h2 h1 h3 (by rw [hr0, ofEntries_zero]) hinj h0
    (states_nhds (P := P) hx0) Fv xl hxl
  refine ⟨l₀, ρ, C, hl0, hρ, fun l hl => ?_⟩
  obtain ⟨xs, hxs, e1, e2, e3, e4⟩ := hall l hl
  refine ⟨xs, hxs, (hres l xs).trans e1, fun x hx h => e3 x hx ((hres l x).symm.trans h), ⟨l • xl, fun j => ?_, e2⟩,
    fun s solve ha hk hb hsol => ?_⟩
  · rw [← hlin, map_smul, hxl]; rfl
  · refine e4 s solve ⟨fun x hx => ?_, ha.jacobian⟩ hsol ?_ ?_
    · rw [ha.residual x hx]; exact congrArg some (hres l x)
    · ext v j
      rw [hk v j]; exact (hlin v j).symm
    · ext j
      rw [hb j]; rfl

end General

/-! ## A piece of a cylinder -/

section Cylinder

variable (p : Hyper.Par) (r : Rule) (t c : ℝ)

theorem roll_linear (h : ∀ j, c * (r.ξ j * t) ≠ 1) (j j' : Unit) :
    linearEntry (roll c) (solids (roll c) r rubber (fun _ => p) fun _ => t) j j'
      = ∑ j, (r.ξ j * t) ^ 2 * node p.mu r t c j := by
  have h2 := cylinder_modulus p r t c h 2
  show ∑ q ∈ {()}, linStiffness (curved c) bending bending _ _ _ _ * (1 : ℝ) = _
  rw [Finset.sum_singleton, linStiffness, curved_em, curved_ef]
  simp [dotV, rowMul, Fin.sum_univ_three, solids, hyperLaw, roll, h2]

theorem roll_rest (h : ∀ j, c * (r.ξ j * t) ≠ 1) (l : ℝ) (j j' : Unit) :
    rest ((roll c).scale l) r rubber (fun _ => p) (fun _ => t) 0 j j'
      = -∑ j, c * (r.ξ j * t) ^ 3 * node p.mu r t c j := by
  rw [← (lacks p r t c h).1]
  show ∑ q ∈ {()}, thirdWork (material .neoHooke p (curved c)) r t (deformed ((roll c).scale l) 0 q) bending bending
    * (1 : ℝ) = _
  rw [Finset.sum_singleton, deformed_zero, mul_one]
  rfl

theorem mu_two : (⟨2, 0, 0⟩ : Hyper.Par).mu = 1 := by norm_num [Hyper.Par.mu]

theorem unit_apply (e : Unit → Unit → ℝ) (v : EuclideanSpace ℝ Unit) : ofEntries e v = e () () • v := by
  ext j; simp [ofEntries_apply]

/-- Non-vacuity of the hypotheses of `C154_small_partial`: the plate. -/
example : (roll 0).pre = (roll 0).ori ∧
    (∀ q ∈ (roll 0).Q, Indep (((roll 0).ori q).a 0) (((roll 0).ori q).a 1) ∧
      Regular simpson 1 ((roll 0).ori q) ((roll 0).ori q)) ∧ (∀ q ∈ (roll 0).Q, Flat ((roll 0).ori q)) ∧
    ∀ v : EuclideanSpace ℝ Unit, (∀ j, ∑ j', linearEntry (roll 0)
      (solids (roll 0) simpson rubber (fun _ => ⟨2, 0, 0⟩) fun _ => 1) j j' * v j' = 0) → v = 0 := by
  have hne : ∀ j, (0 : ℝ) * (simpson.ξ j * 1) ≠ 1 := fun j => by norm_num
  refine ⟨rfl, fun q _ => ⟨curved_indep 0, cylinder_regular hne⟩, fun q _ => flat_curved, fun v hv => ?_⟩
  have h := hv ()
  have hpos := soft_pos (μ := 1) (r := simpson) (t := 1) (c := 0) (by norm_num) (by norm_num) (by norm_num)
    (fun k hk => simpson_exact k (by omega)) simpson_nonneg simpson_inside
  simp only [roll_linear _ _ _ _ hne, mu_two] at h
  ext j
  simp at h hpos
  rcases h with h | h
  · rw [h] at hpos; exact absurd hpos (lt_irrefl _)
  · simpa using h

/-- Non-vacuity of the hypotheses of `C154_newton_partial`: a curved shell, at rest. -/
example : (0 : EuclideanSpace ℝ Unit) ∈ States ((roll (1 / 8)).scale 0) simpson (fun _ => 1) ∧
    residual ((roll (1 / 8)).scale 0) (solids ((roll (1 / 8)).scale 0) simpson rubber (fun _ => ⟨2, 0, 0⟩) fun _ => 1) 0
      = 0 ∧ ∃ β : ℝ, 0 < β ∧
    (∀ v, ‖v‖ ≤ β * ‖tangent ((roll (1 / 8)).scale 0)
      (solids ((roll (1 / 8)).scale 0) simpson rubber (fun _ => ⟨2, 0, 0⟩) fun _ => 1) 0 v‖) ∧
    β * ‖ofEntries (third ((roll (1 / 8)).scale 0) (fun _ => material .neoHooke ⟨2, 0, 0⟩ (curved (1 / 8))) simpson
      (fun _ => 1) 0)‖ ≤ 1 / 16 := by
  have hct : |(1 / 8 : ℝ)| * 1 < 2 := by norm_num [abs_lt]
  have hne := thin_ne (r := simpson) (t := 1) (c := 1 / 8) (by norm_num) hct simpson_inside
  set K := ∑ j, (simpson.ξ j * 1) ^ 2 * node 1 simpson 1 (1 / 8) j with hK
  set R := ∑ j, 1 / 8 * (simpson.ξ j * 1) ^ 3 * node 1 simpson 1 (1 / 8) j with hR
  have hn := fun j => node_nonneg (μ := 1) (c := 1 / 8) (t := 1) (by norm_num) (by norm_num) simpson_nonneg j
  have hRK : |R| ≤ 1 / 16 * K := by
    rw [hR, hK, Finset.mul_sum]
    refine (Finset.abs_sum_le_sum_abs _ _).trans (Finset.sum_le_sum fun j _ => ?_)
    have h1 := simpson_inside j
    have h2 := hn j
    rw [abs_mul, abs_of_nonneg h2, show 1 / 8 * (simpson.ξ j * 1) ^ 3 = 1 / 8 * simpson.ξ j * (simpson.ξ j * 1) ^ 2 by ring,
      abs_mul, abs_of_nonneg (sq_nonneg (simpson.ξ j * 1)), ← mul_assoc]
    refine mul_le_mul_of_nonneg_right (mul_le_mul_of_nonneg_right ?_ (sq_nonneg _)) h2
    rw [abs_mul, abs_of_pos (by norm_num : (0 : ℝ) < 1 / 8)]; linarith
  have hKpos : 0 < K := by
    have h1 := soft_pos (μ := 1) (r := simpson) (t := 1) (c := 1 / 8) (by norm_num) (by norm_num) hct
      (fun k hk => simpson_exact k (by omega)) simpson_nonneg simpson_inside
    have h2 : ∑ j, (1 - 1 / 8 * (simpson.ξ j * 1)) * (simpson.ξ j * 1) ^ 2 * node 1 simpson 1 (1 / 8) j = K - R := by
      rw [hK, hR, ← Finset.sum_sub_distrib]; exact Finset.sum_congr rfl fun j _ => by ring
    rw [h2] at h1
    have := (abs_le.1 hRK).1
    have := (abs_le.1 hRK).2
    by_contra hneg
    nlinarith [abs_nonneg R]
  have hlin := C154_linear ((roll (1 / 8)).scale 0) simpson rubber (fun _ => ⟨2, 0, 0⟩) (fun _ => 1) rfl
    (fun _ _ => cylinder_regular hne)
  refine ⟨roll_start hne 0, ?_, K⁻¹, by positivity, fun v => ?_, ?_⟩
  · ext j
    rw [(hlin j j).1]; simp [Problem.scale]
  · have e : tangent ((roll (1 / 8)).scale 0)
        (solids ((roll (1 / 8)).scale 0) simpson rubber (fun _ => ⟨2, 0, 0⟩) fun _ => 1) 0 v = K • v := by
      ext j
      have h1 := roll_linear ⟨2, 0, 0⟩ simpson 1 (1 / 8) hne () ()
      rw [mu_two] at h1
      rw [tangent_apply]
      simp only [(hlin _ _).2, Finset.univ_unique, Finset.sum_singleton]
      exact congrArg (· * v ()) h1
    rw [e, norm_smul, Real.norm_eq_abs, abs_of_pos hKpos, inv_mul_cancel_left₀ hKpos.ne']
  · have e : ‖ofEntries (third ((roll (1 / 8)).scale 0) (fun _ => material .neoHooke ⟨2, 0, 0⟩ (curved (1 / 8))) simpson
        (fun _ => 1) 0)‖ ≤ 1 / 16 * K := by
      refine ContinuousLinearMap.opNorm_le_bound _ (by positivity) fun v => ?_
      have h1 := roll_rest ⟨2, 0, 0⟩ simpson 1 (1 / 8) hne 0 () ()
      rw [mu_two] at h1
      rw [unit_apply, norm_smul, Real.norm_eq_abs,
        show third ((roll (1 / 8)).scale 0) (fun _ => material .neoHooke ⟨2, 0, 0⟩ (curved (1 / 8))) simpson
          (fun _ => 1) 0 () () = -R from h1, abs_neg]
      exact mul_le_mul_of_nonneg_right hRK (norm_nonneg _)
    calc K⁻¹ * _ ≤ K⁻¹ * (1 / 16 * K) := mul_le_mul_of_nonneg_left e (by positivity)
      _ = 1 / 16 := by field_simp

/-- **C154** (violation) On every cylinder of neo-Hookean material the assembled residual is the gradient of
no potential, not even close to the undeformed state. -/
theorem C154_conservative_violated {p : Hyper.Par} {r : Rule} {t c : ℝ} (hμ : 0 < p.mu) (ht : 0 < t) (hc : c ≠ 0)
    (hct : |c| * t < 2) (hr : r.Exact 2) (hw : ∀ j, 0 ≤ r.w j) (hξ : ∀ j, |r.ξ j| ≤ 1 / 2) :
    ¬ Conservative (residual (cylinder c) (solids (cylinder c) r rubber (fun _ => p) fun _ => t)) 0 := by
  intro hcon
  have hne := thin_ne (r := r) (c := c) ht hct hξ
  have hx : (0 : EuclideanSpace ℝ (Fin 2)) ∈ States (cylinder c) r fun _ => t :=
    start _ rfl fun _ _ => ⟨curved_indep c, cylinder_regular hne⟩
  obtain ⟨hd, hsym⟩ := C154_derivative (cylinder c) r rubber (fun _ => p) (fun _ => t) hx
  set T := third (cylinder c) (fun q => material (rubber q) p ((cylinder c).ori q)) r (fun _ => t) 0 with hT
  have he : tangent (cylinder c) (solids (cylinder c) r rubber (fun _ => p) fun _ => t) 0 + ofEntries T
      = ofEntries fun j j' => entry (cylinder c) (solids (cylinder c) r rubber (fun _ => p) fun _ => t) 0 j j' + T j j' := by
    ext v j
    simp only [_root_.add_apply, PiLp.add_apply, tangent_apply, ofEntries_apply, add_mul, Finset.sum_add_distrib]
  rw [he] at hd
  have hs := LoadedShell.symmetric_of_conservative hd hcon 0 1
  rw [hsym 0 1] at hs
  have e01 : T 0 1 = ∑ j, c * (r.ξ j * t) ^ 2 * node p.mu r t c j := by
    rw [← (lacks p r t c hne).2.1]
    show ∑ q ∈ {()}, thirdWork (material .neoHooke p (curved c)) r t (deformed (cylinder c) 0 q) stretching bending
      * (1 : ℝ) = _
    rw [Finset.sum_singleton, deformed_zero, mul_one]
    rfl
  have e10 : T 1 0 = ∑ j, c ^ 2 * (r.ξ j * t) ^ 3 * node p.mu r t c j := by
    rw [← (lacks p r t c hne).2.2]
    show ∑ q ∈ {()}, thirdWork (material .neoHooke p (curved c)) r t (deformed (cylinder c) 0 q) bending stretching
      * (1 : ℝ) = _
    rw [Finset.sum_singleton, deformed_zero, mul_one]
    rfl
  have hpos := soft_pos (c := c) hμ ht hct hr hw hξ
  have hdiff : T 0 1 - T 1 0 = c * ∑ j, (1 - c * (r.ξ j * t)) * (r.ξ j * t) ^ 2 * node p.mu r t c j := by
    rw [e01, e10, ← Finset.sum_sub_distrib, Finset.mul_sum]
    exact Finset.sum_congr rfl fun j _ => by ring
  have h0 : T 0 1 - T 1 0 = 0 := by linarith
  rw [hdiff] at h0
  exact (mul_ne_zero hc hpos.ne') h0

/-- Non-vacuity. -/
example : (0 : ℝ) < (⟨2, 0, 0⟩ : Hyper.Par).mu ∧ |(1 : ℝ)| * 1 < 2 ∧ simpson.Exact 2 :=
  ⟨by rw [mu_two]; norm_num, by norm_num, fun k hk => simpson_exact k (by omega)⟩

/-- **C154** (violation) A cylinder of neo-Hookean material under a small bending load: the assembled
tangent at the undeformed state, which is the matrix of the linear problem, is not minus the derivative of the residual, and
the solution of the nonlinear problem differs from the one of the linear problem by a fixed proportion,
however small the load is. -/
theorem C154_linear_violated {p : Hyper.Par} {r : Rule} {t c : ℝ} (hμ : 0 < p.mu) (ht : 0 < t) (hc : c ≠ 0)
    (hct : |c| * t < 2) (hr : r.Exact 3) (hw : ∀ j, 0 ≤ r.w j) (hξ : ∀ j, |r.ξ j| ≤ 1 / 2) :
    ¬ HasFDerivAt (residual (roll c) (solids (roll c) r rubber (fun _ => p) fun _ => t))
      (-tangent (roll c) (solids (roll c) r rubber (fun _ => p) fun _ => t) 0) 0 ∧
    ∃ θ l₀ ρ : ℝ, 0 < θ ∧ 0 < l₀ ∧ 0 < ρ ∧ ∀ l : ℝ, l ≠ 0 → |l| ≤ l₀ →
      ∃ xs ∈ States (roll c) r fun _ => t,
      residual ((roll c).scale l) (solids (roll c) r rubber (fun _ => p) fun _ => t) xs = 0 ∧
      (∀ x, ‖x‖ ≤ ρ →
        residual ((roll c).scale l) (solids (roll c) r rubber (fun _ => p) fun _ => t) x = 0 → x = xs) ∧
      ∀ xl : EuclideanSpace ℝ Unit,
        (∀ j, ∑ j', linearEntry (roll c) (solids (roll c) r rubber (fun _ => p) fun _ => t) j j' * xl j'
          = l * (roll c).F j) → 0 < ‖xl‖ ∧ (1 + θ) * ‖xl‖ ≤ ‖xs‖ := by
  have hne := thin_ne (r := r) (c := c) ht hct hξ
  set K := ∑ j, (r.ξ j * t) ^ 2 * node p.mu r t c j with hK
  set R := ∑ j, c * (r.ξ j * t) ^ 3 * node p.mu r t c j with hR
  have hRpos : 0 < R := lack_pos hμ ht hc hct hr hw hξ
  have hKR : 0 < K - R := by
    have h := soft_pos (c := c) hμ ht hct (fun k hk => hr k (by omega)) hw hξ
    rwa [show ∑ j, (1 - c * (r.ξ j * t)) * (r.ξ j * t) ^ 2 * node p.mu r t c j = K - R by
      rw [hK, hR, ← Finset.sum_sub_distrib]; exact Finset.sum_congr rfl fun j _ => by ring] at h
  have hKpos : 0 < K := by linarith
  let law := solids (roll c) r rubber (fun _ => p) fun _ => t
  have hreg : ∀ q ∈ (roll c).Q, Regular r t ((roll c).ori q) ((roll c).ori q) := fun _ _ => cylinder_regular hne
  have hx0 : (0 : EuclideanSpace ℝ Unit) ∈ States (roll c) r fun _ => t := roll_start hne 1
  have hlin := C154_linear (roll c) r rubber (fun _ => p) (fun _ => t) rfl hreg
  have hentry : ∀ j j', linearEntry (roll c) law j j' = K := roll_linear p r t c hne
  have htan : ∀ v : EuclideanSpace ℝ Unit, tangent (roll c) law 0 v = K • v := by
    intro v; ext j
    rw [tangent_apply]
    simp only [(hlin _ _).2, Finset.univ_unique, Finset.sum_singleton, law]
    exact congrArg (· * v ()) (hentry () ())
  have hrest : ∀ v : EuclideanSpace ℝ Unit, ofEntries (rest (roll c) r rubber (fun _ => p) (fun _ => t) 0) v = (-R) • v := by
    intro v
    rw [unit_apply]
    exact congrArg (· • v) (roll_rest p r t c hne 1 () ())
  have htrue : ∀ v : EuclideanSpace ℝ Unit,
      (tangent (roll c) law 0 + ofEntries (rest (roll c) r rubber (fun _ => p) (fun _ => t) 0)) v = (K - R) • v := by
    intro v; rw [_root_.add_apply, htan, hrest, ← add_smul, sub_eq_add_neg]
  constructor
  · intro hbad
    have h := hbad.unique (C154_derivative (roll c) r rubber (fun _ => p) (fun _ => t) hx0).1
    have h1 := congrArg (fun f : EuclideanSpace ℝ Unit →L[ℝ] EuclideanSpace ℝ Unit =>
      f (EuclideanSpace.single () 1) ()) (neg_injective h)
    have h2 : (K • EuclideanSpace.single () (1 : ℝ) : EuclideanSpace ℝ Unit) ()
        = ((K - R) • EuclideanSpace.single () (1 : ℝ) : EuclideanSpace ℝ Unit) () := by
      rw [← htan, ← htrue]; exact h1
    simp at h2
    linarith
  let Fv : EuclideanSpace ℝ Unit := WithLp.toLp 2 (roll c).F
  have hres : ∀ l x, residual ((roll c).scale l) law x = residual ((roll c).scale 0) law x + l • Fv := by
    intro l x
    ext j
    show (∑ q ∈ (roll c).Q, _) + l * (roll c).F j = ((∑ q ∈ (roll c).Q, _) + 0 * (roll c).F j) + l * (roll c).F j
    rw [zero_mul, add_zero]
    rfl
  obtain ⟨h1, h2, -⟩ := smooth_at ((roll c).scale 0) r rubber (fun _ => p) (fun _ => t) (x := 0) hx0
  have h0 : residual ((roll c).scale 0) law 0 = 0 := by
    ext j
    have := (C154_linear ((roll c).scale 0) r rubber (fun _ => p) (fun _ => t) rfl hreg j j).1
    rw [show residual ((roll c).scale 0) law 0 j = ((roll c).scale 0).F j from this]
    exact zero_mul _
  have hFv : ‖Fv‖ = 1 := by simp [EuclideanSpace.norm_eq, Fv, roll]
  obtain ⟨l₀, ρ, C, hl0, hρ, hall⟩ := Solve.small_loads
    (K := fun x => tangent (roll c) law x + ofEntries (rest (roll c) r rubber (fun _ => p) (fun _ => t) x))
    (R := residual ((roll c).scale 0) law) h2 h1
    (by
      refine (injective_iff_map_eq_zero _).2 fun v hv => ?_
      have hv' : (K - R) • v = 0 := (htrue v).symm.trans hv
      exact (smul_eq_zero.1 hv').resolve_left hKR.ne') h0 (states_nhds hx0) Fv ((K - R)⁻¹ • Fv)
    (by
      refine (htrue _).trans ?_
      rw [smul_smul, mul_inv_cancel₀ hKR.ne', one_smul])
  -- the gap between the two solutions, to first order
  set g := (K - R)⁻¹ - K⁻¹ with hg
  have hgpos : 0 < g := by
    rw [hg, sub_pos]
    exact inv_strictAnti₀ hKR (by linarith)
  refine ⟨K * g / 2, min l₀ (g / (2 * (|C| + 1))), ρ, by positivity, by positivity, hρ, fun l hl hle => ?_⟩
  obtain ⟨xs, hxs, e1, e2, e3, -⟩ := hall l (hle.trans (min_le_left _ _))
  refine ⟨xs, hxs, (hres l xs).trans e1, fun x hx h => e3 x hx ((hres l x).symm.trans h), fun xl hxl => ?_⟩
  have hxl' : xl = (l * K⁻¹) • Fv := by
    ext j
    have h := hxl j
    simp only [Finset.univ_unique, Finset.sum_singleton] at h
    rw [show linearEntry (roll c) (solids (roll c) r rubber (fun _ => p) fun _ => t) j default = K from hentry _ _] at h
    show xl default = l * K⁻¹ * (roll c).F j
    field_simp
    linarith
  have hnl : ‖xl‖ = |l| * K⁻¹ := by
    rw [hxl', norm_smul, hFv, mul_one, Real.norm_eq_abs, abs_mul, abs_of_pos (inv_pos.2 hKpos)]
  have hlpos : 0 < |l| := abs_pos.2 hl
  refine ⟨by rw [hnl]; positivity, ?_⟩
  have hlow : |l| * (K - R)⁻¹ - C * l ^ 2 ≤ ‖xs‖ := by
    have h3 : ‖l • (K - R)⁻¹ • Fv‖ = |l| * (K - R)⁻¹ := by
      rw [norm_smul, norm_smul, hFv, mul_one, Real.norm_eq_abs, Real.norm_eq_abs, abs_of_pos (inv_pos.2 hKR)]
    have h4 := norm_sub_norm_le (l • (K - R)⁻¹ • Fv) xs
    rw [norm_sub_rev] at h4
    linarith
  have hCl : C * l ^ 2 ≤ |l| * (g / 2) := by
    have h5 : |l| ≤ g / (2 * (|C| + 1)) := hle.trans (min_le_right _ _)
    rw [le_div_iff₀ (by positivity)] at h5
    rw [← sq_abs]
    nlinarith [le_abs_self C, abs_nonneg C]
  have hfin : (1 + K * g / 2) * ‖xl‖ = |l| * (K - R)⁻¹ - |l| * (g / 2) := by
    rw [hnl, show (K - R)⁻¹ = g + K⁻¹ by rw [hg]; ring]
    field_simp
    ring
  linarith

/-- Non-vacuity. -/
example : simpson.Exact 3 ∧ (∀ j, 0 ≤ simpson.w j) ∧ (∀ j, |simpson.ξ j| ≤ 1 / 2) ∧ |(1 : ℝ)| * 1 < 2 :=
  ⟨simpson_exact, simpson_nonneg, simpson_inside, by norm_num⟩

end Cylinder

end Verif.HyperShell
