import Verif.Lemmas.PlaneShell
import Verif.Props.HyperShell
import Verif.Props.PlaneSheet

/-! # Property C162: the nonlinear system of a shell of compressible hyperelastic material -/

namespace Verif.PlaneShell

open V3 Verif.Geometry Verif.Variation Verif.Balance Verif.Integrate Verif.ShellTangent
open Verif.ShellSystem hiding curved curved_normal
open Spec.ShellTangent Spec.HyperShell Spec.Hyper Spec.Solve Filter Topology
open Spec.LoadedShell (Conservative)
open Spec.ShellSystem (Solver)
open Spec.PlaneSheet (Constants exact)
open Spec.PosDef (Metric)
open Verif.LoadedShell (ofEntries ofEntries_apply)
open Verif.PlaneSheet (Solid solids)
open Verif.HyperShell (modulus_symm start roll_start simpson simpson_exact simpson_nonneg simpson_inside states_nhds
  ofEntries_zero flat_curved unit_apply roll cylinder node stretching cylinder_regular thin thin_ne exact_node node_nonneg
  node_pos soft_pos lack_pos bend_third stretch_third stretch_em stretch_ef)

section General

variable {J κ : Type} [Fintype J] (P : Problem J κ) (r : Rule) (S : κ → Solid) (p : κ → Hyper.Par) (t : κ → ℝ)
  (hS : ∀ q ∈ P.Q, Constants (S q) (p q))

/-! ## The derivative of the residual -/

include hS

omit [Fintype J] in
theorem all_lawful : ∀ q ∈ P.Q, ∀ A, Metric A → Lawful (solids S p q) A := fun q hq A hA => lawful (hS q hq) A hA

/-- **C162** The derivative of the residual is minus the assembled tangent, which is symmetric, minus what
the third fundamental form adds. -/
theorem C162_derivative {x : EuclideanSpace ℝ J} (hx : x ∈ States P r t) :
    HasFDerivAt (residual P (shells P r (solids S p) t))
      (-(tangent P (shells P r (solids S p) t) x
        + ofEntries (third P (fun q => heights (solids S p q) (P.ori q)) r t x))) x ∧
    ∀ j j', entry P (shells P r (solids S p) t) x j j' = entry P (shells P r (solids S p) t) x j' j := by
  classical
  refine ⟨residual_deriv (all_lawful P S p hS) hx, fun j j' => Finset.sum_congr rfl fun q _ => ?_⟩
  congr 1
  exact C66_symmetric _ _ _ _ _ _ _ _ _ (modulus_symm r _ _ _ _) (modulus_symm r _ _ _ _) (modulus_symm r _ _ _ _)

/-- Non-vacuity: a cylinder of curvature 1 and thickness 1, constants of the three materials. -/
example : (0 : EuclideanSpace ℝ Unit) ∈ States ((roll 1).scale 1) simpson (fun _ => 1) ∧ Constants .neoHooke ⟨1, 1 / 4, 7⟩ ∧
    Constants .mooneyRivlin ⟨1, -1 / 4, 7⟩ ∧ Constants .extended ⟨1, 1 / 4, 7⟩ := by
  refine ⟨roll_start (thin_ne (by norm_num) (by norm_num) simpson_inside) 1, ?_, ?_, ?_⟩ <;>
    constructor <;> norm_num
  exact fun h => by cases h

/-! ## The linear problem -/

omit hS in
theorem resultant_rest {S : Solid} {p : Hyper.Par} (hc : Constants S p) (t : ℝ) (m : ℕ) (s : Surf) (h : Regular r t s s) :
    resultant (heights (PlaneSheet.material S p (exact S p)) s) r t m s = fun _ => 0 := by
  have hz : ∀ j, ∀ i k : Fin 3, i ≠ 2 → k ≠ 2 →
      (heights (PlaneSheet.material S p (exact S p)) s).stress (r.ξ j * t) (Gblock s (r.ξ j * t)) i k = 0 := by
    intro j i k hi hk
    have hm := block_metric s _ (h j).1
    show S.stress p (Hyper.cdata _ (exact S p _)) i k = 0
    rw [PlaneSheet.exact_rest (PlaneSheet.positive_of hc) hm]
    exact PlaneSheet.stress_rest S p hm i k (.inl ⟨hi, hk⟩)
  funext k
  unfold resultant integrateZ
  refine Finset.sum_eq_zero fun j _ => ?_
  rcases fin3_cases k with rfl | rfl | rfl <;> simp [stressV, hz]

/-- **C162** Without prescribed displacements the undeformed state carries no internal forces, and the
matrix of the linear problem is the assembled tangent there. -/
theorem C162_linear (hp : P.pre = P.ori) (hb : ∀ q ∈ P.Q, Regular r (t q) (P.ori q) (P.ori q)) (j j' : J) :
    residual P (shells P r (solids S p) t) 0 j = P.F j ∧
    entry P (shells P r (solids S p) t) 0 j j' = linearEntry P (shells P r (solids S p) t) j j' := by
  have hd : ∀ q, deformed P 0 q = P.ori q := fun q => by rw [deformed_zero, hp]
  have hN : ∀ q ∈ P.Q, (shells P r (solids S p) t q (P.ori q)).N = (fun _ => 0) ∧
      (shells P r (solids S p) t q (P.ori q)).M = fun _ => 0 := fun q hq =>
    ⟨resultant_rest r (hS q hq) _ _ _ (hb q hq), resultant_rest r (hS q hq) _ _ _ (hb q hq)⟩
  constructor
  · show (∑ q ∈ P.Q, _) + _ = _
    rw [Finset.sum_eq_zero fun q hq => ?_, zero_add]
    rw [hd, (hN q hq).1, (hN q hq).2]
    simp [internalForce, dotV]
  · refine Finset.sum_congr rfl fun q hq => ?_
    rw [hd, (hN q hq).1, (hN q hq).2, (C66_linear _ _ _ _ _ _ _).1]

/-! ## States without curvature -/

omit hS in
theorem rest_flat {x : EuclideanSpace ℝ J} (hx : x ∈ States P r t) (hf : ∀ q ∈ P.Q, Flat (deformed P x q)) :
    rest P r (solids S p) t x = fun _ _ => 0 := by
  funext j j'
  refine Finset.sum_eq_zero fun q hq => ?_
  have h : thirdRate (deformed P x q) (P.field q j') = 0 := by
    funext a b
    exact (flat_third _ (P.field q j') (hx q hq).1 (hf q hq) a b).deriv
  have h0 : half (0 : T2) = fun _ => 0 := by
    funext k; rcases fin3_cases k with rfl | rfl | rfl <;> simp [half]
  simp [thirdWork, h, h0]

/-- **C162** (partial: states without curvature) The assembled tangent is minus the derivative of the
residual. -/
theorem C162_flat_partial {x : EuclideanSpace ℝ J} (hx : x ∈ States P r t)
    (hf : ∀ q ∈ P.Q, Flat (deformed P x q)) :
    HasFDerivAt (residual P (shells P r (solids S p) t)) (-tangent P (shells P r (solids S p) t) x) x := by
  have h := (C162_derivative P r S p t hS hx).1
  rw [show third P (fun q => heights (solids S p q) (P.ori q)) r t x = fun _ _ => 0 from rest_flat P r S p t hx hf,
    ofEntries_zero, add_zero] at h
  exact h

/-- Non-vacuity: the plate. -/
example : (0 : EuclideanSpace ℝ Unit) ∈ States ((roll 0).scale 1) simpson (fun _ => 1) ∧
    ∀ q ∈ ((roll 0).scale 1).Q, Flat (deformed ((roll 0).scale 1) (0 : EuclideanSpace ℝ Unit) q) :=
  ⟨roll_start (fun _ => by norm_num) 1, fun q _ => by rw [deformed_zero]; exact flat_curved⟩

/-! ## Newton's method -/

/-- **C162** (partial: what the third fundamental form adds is small against the tangent) Around an
equilibrium there is a ball such that the programs, started with a linear solution in this ball, stop by
themselves with a solution that is right up to a constant times the tolerance. -/
theorem C162_newton_partial {xs : EuclideanSpace ℝ J} (hx : xs ∈ States P r t)
    (h0 : residual P (shells P r (solids S p) t) xs = 0) {β : ℝ} (hβ : 0 < β)
    (hb : ∀ v, ‖v‖ ≤ β * ‖tangent P (shells P r (solids S p) t) xs v‖)
    (hs : β * ‖ofEntries (third P (fun q => heights (solids S p q) (P.ori q)) r t xs)‖ ≤ 1 / 16) :
    ∃ ρ C : ℝ, 0 < ρ ∧ ∀ (s : Solve.Sys (EuclideanSpace ℝ J)) (solve : _ → EuclideanSpace ℝ J → EuclideanSpace ℝ J),
      Assembles s (residual P (shells P r (solids S p) t)) (tangent P (shells P r (solids S p) t)) (States P r t) →
      Solver solve → ‖solve s.K0 s.F - xs‖ ≤ ρ →
      ∃ res, Solve.program s solve = .ok res ∧ res.broke = true ∧ ‖res.x - xs‖ ≤ C * (1 / 10 ^ 6) := by
  classical
  obtain ⟨h1, h2, h3⟩ := smooth_at (all_lawful P S p hS) hx
  exact Solve.local_varying h2 h1 h3.continuousAt h0 hβ hb hs (states_nhds hx)

/-! ## Small loads on a plate -/

/-- **C162** (partial: the undeformed shell is flat) For small loads there is exactly one solution close to
the undeformed state; it differs from the linear solution by the square of the load, and the programs stop
by themselves, with an error that is at most a constant times the tolerance times load plus tolerance. -/
theorem C162_small_partial (hp : P.pre = P.ori)
    (hb : ∀ q ∈ P.Q, Indep ((P.ori q).a 0) ((P.ori q).a 1) ∧ Regular r (t q) (P.ori q) (P.ori q))
    (hf : ∀ q ∈ P.Q, Flat (P.ori q))
    (hi : ∀ v : EuclideanSpace ℝ J, (∀ j, ∑ j', linearEntry P (shells P r (solids S p) t) j j' * v j' = 0) → v = 0) :
    ∃ l₀ ρ C : ℝ, 0 < l₀ ∧ 0 < ρ ∧ ∀ l : ℝ, |l| ≤ l₀ →
      ∃ xs ∈ States P r t, residual (P.scale l) (shells P r (solids S p) t) xs = 0 ∧
      (∀ x, ‖x‖ ≤ ρ → residual (P.scale l) (shells P r (solids S p) t) x = 0 → x = xs) ∧
      (∃ xl : EuclideanSpace ℝ J,
        (∀ j, ∑ j', linearEntry P (shells P r (solids S p) t) j j' * xl j' = l * P.F j) ∧ ‖xs - xl‖ ≤ C * l ^ 2) ∧
      ∀ (s : Solve.Sys (EuclideanSpace ℝ J)) (solve : _ → _ → EuclideanSpace ℝ J),
        Assembles s (residual (P.scale l) (shells P r (solids S p) t)) (tangent P (shells P r (solids S p) t)) (States P r t) →
        (∀ v j, s.K0 v j = ∑ j', linearEntry P (shells P r (solids S p) t) j j' * v j') →
        (∀ j, s.F j = l * P.F j) → Solver solve →
        ∃ res, Solve.program s solve = .ok res ∧ res.broke = true ∧
          ‖res.x - xs‖ ≤ C * (|l| + 1 / 10 ^ 6) * (1 / 10 ^ 6) := by
  classical
  have hx0 := start P hp hb
  have hreg : ∀ q ∈ P.Q, Regular r (t q) (P.ori q) (P.ori q) := fun q hq => (hb q hq).2
  let Fv : EuclideanSpace ℝ J := WithLp.toLp 2 P.F
  have hres : ∀ l x, residual (P.scale l) (shells P r (solids S p) t) x
      = residual (P.scale 0) (shells P r (solids S p) t) x + l • Fv := by
    intro l x
    ext j
    show (∑ q ∈ P.Q, _) + l * P.F j = ((∑ q ∈ P.Q, _) + 0 * P.F j) + l * P.F j
    rw [zero_mul, add_zero]
    rfl
  have hlin : ∀ (v : EuclideanSpace ℝ J) j, (tangent P (shells P r (solids S p) t) 0 v) j
      = ∑ j', linearEntry P (shells P r (solids S p) t) j j' * v j' := by
    intro v j
    rw [tangent_apply]
    exact Finset.sum_congr rfl fun j' _ => by rw [(C162_linear P r S p t hS hp hreg j j').2]
  have hinj : Function.Injective (tangent P (shells P r (solids S p) t) 0) := by
    refine (injective_iff_map_eq_zero _).2 fun v hv => hi v fun j => ?_
    rw [← hlin, hv]; rfl
  obtain ⟨h1, h2, h3⟩ := smooth_at (P := P.scale 0) (r := r) (t := t) (all_lawful (P.scale 0) S p hS) (x := 0) hx0
  have hr0 : rest (P.scale 0) r (solids S p) t 0 = fun _ _ => 0 :=
    rest_flat (P.scale 0) r S p t hx0 fun q hq => by rw [deformed_zero]; show Flat (P.pre q); rw [hp]; exact hf q hq
  have h0 : residual (P.scale 0) (shells P r (solids S p) t) 0 = 0 := by
    ext j
    have := (C162_linear (P.scale 0) r S p t hS hp hreg j j).1
    rw [show residual (P.scale 0) (shells P r (solids S p) t) 0 j = (P.scale 0).F j from this]
    exact zero_mul _
  obtain ⟨xl, hxl⟩ : ∃ xl, tangent P (shells P r (solids S p) t) 0 xl = Fv :=
    (LinearMap.injective_iff_surjective (f := (tangent P (shells P r (solids S p) t) 0 :
      EuclideanSpace ℝ J →ₗ[ℝ] EuclideanSpace ℝ J))).1 hinj Fv
  obtain ⟨l₀, ρ, C, hl0, hρ, hall⟩ := Solve.small_inexact h2 h1 h3 (by rw [hr0, ofEntries_zero]) hinj h0
    (states_nhds (P := P) hx0) Fv xl hxl
  refine ⟨l₀, ρ, C, hl0, hρ, fun l hl => ?_⟩
  obtain ⟨xs, hxs, e1, e2, e3, e4⟩ := hall l hl
  refine ⟨xs, hxs, (hres l xs).trans e1, fun x hx h => e3 x hx ((hres l x).symm.trans h), ⟨l • xl, fun j => ?_, e2⟩,
    fun s solve ha hk hb hsol => ?_⟩
  · rw [← hlin, map_smul, hxl]; rfl
  · refine e4 s solve ⟨fun x hx => ?_, ha.jacobian⟩ hsol ?_ ?_
    · rw [ha.residual x hx]; exact congrArg some (hres l x)
    · ext v j
      rw [hk v j]; exact (hlin v j).symm
    · ext j
      rw [hb j]; rfl

end General

/-! ## A piece of a cylinder -/

section Cylinder

variable {s : Solid} {p : Hyper.Par} (hc : Constants s p) (r : Rule) (t c : ℝ)

/-- A quarter of the plane strain modulus. -/
noncomputable abbrev quarter (p : Hyper.Par) : ℝ := p.E / (4 * (1 - p.ν ^ 2))

theorem quarter_pos {s : Solid} {p : Hyper.Par} (hc : Constants s p) : 0 < quarter p := by
  have h1 := hc.modulus
  have h2 : 0 < 1 - p.ν ^ 2 := by nlinarith [hc.lower, hc.upper]
  unfold quarter; positivity

include hc

theorem cylinder_modulus (h : ∀ j, c * (r.ξ j * t) ≠ 1) (m : ℕ) :
    modulus (heights (PlaneSheet.material s p (exact s p)) (curved c)) r t m (curved c) 0 0
      = ∑ j, (r.ξ j * t) ^ m * node (quarter p) r t c j := by
  simp only [modulus, integrateZ, node]
  refine Finset.sum_congr rfl fun j _ => ?_
  have hz : 1 - r.ξ j * t * c ≠ 0 := fun e => h j (by linarith)
  have hm := block_metric (curved c) _ (cylinder_regular h j).1
  have e : Hyper.fillMatrix ((heights (PlaneSheet.material s p (exact s p)) (curved c)).tangent (r.ξ j * t)
      (Gblock (curved c) (r.ξ j * t))) 0 0 = 4 * quarter p * ((1 - c * (r.ξ j * t)) ^ 4)⁻¹ := by
    show Hyper.condense (s.tangent p (Hyper.cdata _ (exact s p _))) (Hyper.up 0) (Hyper.up 0) (Hyper.up 0) (Hyper.up 0) = _
    rw [PlaneSheet.exact_rest (PlaneSheet.positive_of hc) hm, PlaneSheet.rest_hooke hc hm, curved_G]
    have h1 : 1 + p.ν ≠ 0 := by linarith [hc.lower]
    have h2 : 1 - p.ν ≠ 0 := by linarith [hc.upper]
    have h3 : 1 - p.ν ^ 2 = (1 - p.ν) * (1 + p.ν) := by ring
    simp only [Spec.Hyper.hooke, inv2, det2, quarter, h3]
    simp
    rw [show c * (r.ξ j * t) = r.ξ j * t * c by ring]
    field_simp
    ring
  rw [e]; ring

/-- What the tangent lacks between a field and the bending, and between the bending and the stretching. -/
theorem lacks (h : ∀ j, c * (r.ξ j * t) ≠ 1) :
    thirdWork (heights (PlaneSheet.material s p (exact s p)) (curved c)) r t (curved c) bending bending
      = -∑ j, c * (r.ξ j * t) ^ 3 * node (quarter p) r t c j ∧
    thirdWork (heights (PlaneSheet.material s p (exact s p)) (curved c)) r t (curved c) stretching bending
      = ∑ j, c * (r.ξ j * t) ^ 2 * node (quarter p) r t c j ∧
    thirdWork (heights (PlaneSheet.material s p (exact s p)) (curved c)) r t (curved c) bending stretching
      = ∑ j, c ^ 2 * (r.ξ j * t) ^ 3 * node (quarter p) r t c j := by
  have h2 := cylinder_modulus hc r t c h 2
  have h3 := cylinder_modulus hc r t c h 3
  refine ⟨?_, ?_, ?_⟩
  · simp only [thirdWork, bend_third, curved_em, curved_ef, Fin.sum_univ_three, half]
    simp [h3, Finset.mul_sum, Finset.sum_mul]
    exact Finset.sum_congr rfl fun j _ => by ring
  · simp only [thirdWork, bend_third, stretch_em, stretch_ef, Fin.sum_univ_three, half]
    simp [h2, Finset.mul_sum, Finset.sum_mul]
    exact Finset.sum_congr rfl fun j _ => by ring
  · simp only [thirdWork, stretch_third, curved_em, curved_ef, Fin.sum_univ_three, half]
    simp [h3, Finset.mul_sum, Finset.sum_mul]
    rw [← Finset.sum_neg_distrib]
    exact Finset.sum_congr rfl fun j _ => by ring

theorem roll_linear (h : ∀ j, c * (r.ξ j * t) ≠ 1) (j j' : Unit) :
    linearEntry (roll c) (shells (roll c) r (solids (fun _ => s) fun _ => p) fun _ => t) j j'
      = ∑ j, (r.ξ j * t) ^ 2 * node (quarter p) r t c j := by
  have h2 := cylinder_modulus hc r t c h 2
  show ∑ q ∈ {()}, linStiffness (curved c) bending bending _ _ _ _ * (1 : ℝ) = _
  rw [Finset.sum_singleton, linStiffness, curved_em, curved_ef]
  simp [dotV, rowMul, Fin.sum_univ_three, shells, integrated, roll, h2]

theorem roll_rest (h : ∀ j, c * (r.ξ j * t) ≠ 1) (l : ℝ) (j j' : Unit) :
    rest ((roll c).scale l) r (solids (fun _ => s) fun _ => p) (fun _ => t) 0 j j'
      = -∑ j, c * (r.ξ j * t) ^ 3 * node (quarter p) r t c j := by
  rw [← (lacks hc r t c h).1]
  show ∑ q ∈ {()}, thirdWork (heights (PlaneSheet.material s p (exact s p)) (curved c)) r t (deformed ((roll c).scale l) 0 q) bending bending
    * (1 : ℝ) = _
  rw [Finset.sum_singleton, deformed_zero, mul_one]
  rfl

omit hc

/-- **C162** (violation) On every cylinder of each of the three materials the assembled residual is the gradient of
no potential, not even close to the undeformed state. -/
theorem C162_conservative_violated {s : Solid} {p : Hyper.Par} (hm : Constants s p) {r : Rule} {t c : ℝ} (ht : 0 < t) (hc : c ≠ 0)
    (hct : |c| * t < 2) (hr : r.Exact 2) (hw : ∀ j, 0 ≤ r.w j) (hξ : ∀ j, |r.ξ j| ≤ 1 / 2) :
    ¬ Conservative (residual (cylinder c) (shells (cylinder c) r (solids (fun _ => s) fun _ => p) fun _ => t)) 0 := by
  intro hcon
  have hμ := quarter_pos hm
  have hne := thin_ne (r := r) (c := c) ht hct hξ
  have hx : (0 : EuclideanSpace ℝ (Fin 2)) ∈ States (cylinder c) r fun _ => t :=
    start _ rfl fun _ _ => ⟨curved_indep c, cylinder_regular hne⟩
  obtain ⟨hd, hsym⟩ := C162_derivative (cylinder c) r (fun _ => s) (fun _ => p) (fun _ => t) (fun _ _ => hm) hx
  set T := third (cylinder c) (fun q => heights (solids (fun _ => s) (fun _ => p) q) ((cylinder c).ori q)) r (fun _ => t) 0 with hT
  have he : tangent (cylinder c) (shells (cylinder c) r (solids (fun _ => s) fun _ => p) fun _ => t) 0 + ofEntries T
      = ofEntries fun j j' => entry (cylinder c) (shells (cylinder c) r (solids (fun _ => s) fun _ => p) fun _ => t) 0 j j' + T j j' := by
    ext v j
    simp only [_root_.add_apply, PiLp.add_apply, tangent_apply, ofEntries_apply, add_mul, Finset.sum_add_distrib]
  rw [he] at hd
  have hs := LoadedShell.symmetric_of_conservative hd hcon 0 1
  rw [hsym 0 1] at hs
  have e01 : T 0 1 = ∑ j, c * (r.ξ j * t) ^ 2 * node (quarter p) r t c j := by
    rw [← (lacks hm r t c hne).2.1]
    show ∑ q ∈ {()}, thirdWork (heights (PlaneSheet.material s p (exact s p)) (curved c)) r t (deformed (cylinder c) 0 q) stretching bending
      * (1 : ℝ) = _
    rw [Finset.sum_singleton, deformed_zero, mul_one]
    rfl
  have e10 : T 1 0 = ∑ j, c ^ 2 * (r.ξ j * t) ^ 3 * node (quarter p) r t c j := by
    rw [← (lacks hm r t c hne).2.2]
    show ∑ q ∈ {()}, thirdWork (heights (PlaneSheet.material s p (exact s p)) (curved c)) r t (deformed (cylinder c) 0 q) bending stretching
      * (1 : ℝ) = _
    rw [Finset.sum_singleton, deformed_zero, mul_one]
    rfl
  have hpos := soft_pos (c := c) hμ ht hct hr hw hξ
  have hdiff : T 0 1 - T 1 0 = c * ∑ j, (1 - c * (r.ξ j * t)) * (r.ξ j * t) ^ 2 * node (quarter p) r t c j := by
    rw [e01, e10, ← Finset.sum_sub_distrib, Finset.mul_sum]
    exact Finset.sum_congr rfl fun j _ => by ring
  have h0 : T 0 1 - T 1 0 = 0 := by linarith
  rw [hdiff] at h0
  exact (mul_ne_zero hc hpos.ne') h0

/-- **C162** (violation) A cylinder of each of the three materials under a small bending load: the assembled
tangent at the undeformed state, which is the matrix of the linear problem, is not minus the derivative of the residual, and
the solution of the nonlinear problem differs from the one of the linear problem by a fixed proportion,
however small the load is. -/
theorem C162_linear_violated {s : Solid} {p : Hyper.Par} (hm : Constants s p) {r : Rule} {t c : ℝ} (ht : 0 < t) (hc : c ≠ 0)
    (hct : |c| * t < 2) (hr : r.Exact 3) (hw : ∀ j, 0 ≤ r.w j) (hξ : ∀ j, |r.ξ j| ≤ 1 / 2) :
    ¬ HasFDerivAt (residual (roll c) (shells (roll c) r (solids (fun _ => s) fun _ => p) fun _ => t))
      (-tangent (roll c) (shells (roll c) r (solids (fun _ => s) fun _ => p) fun _ => t) 0) 0 ∧
    ∃ θ l₀ ρ : ℝ, 0 < θ ∧ 0 < l₀ ∧ 0 < ρ ∧ ∀ l : ℝ, l ≠ 0 → |l| ≤ l₀ →
      ∃ xs ∈ States (roll c) r fun _ => t,
      residual ((roll c).scale l) (shells (roll c) r (solids (fun _ => s) fun _ => p) fun _ => t) xs = 0 ∧
      (∀ x, ‖x‖ ≤ ρ →
        residual ((roll c).scale l) (shells (roll c) r (solids (fun _ => s) fun _ => p) fun _ => t) x = 0 → x = xs) ∧
      ∀ xl : EuclideanSpace ℝ Unit,
        (∀ j, ∑ j', linearEntry (roll c) (shells (roll c) r (solids (fun _ => s) fun _ => p) fun _ => t) j j' * xl j'
          = l * (roll c).F j) → 0 < ‖xl‖ ∧ (1 + θ) * ‖xl‖ ≤ ‖xs‖ := by
  have hμ := quarter_pos hm
  have hne := thin_ne (r := r) (c := c) ht hct hξ
  set K := ∑ j, (r.ξ j * t) ^ 2 * node (quarter p) r t c j with hK
  set R := ∑ j, c * (r.ξ j * t) ^ 3 * node (quarter p) r t c j with hR
  have hRpos : 0 < R := lack_pos hμ ht hc hct hr hw hξ
  have hKR : 0 < K - R := by
    have h := soft_pos (c := c) hμ ht hct (fun k hk => hr k (by omega)) hw hξ
    rwa [show ∑ j, (1 - c * (r.ξ j * t)) * (r.ξ j * t) ^ 2 * node (quarter p) r t c j = K - R by
      rw [hK, hR, ← Finset.sum_sub_distrib]; exact Finset.sum_congr rfl fun j _ => by ring] at h
  have hKpos : 0 < K := by linarith
  let law := shells (roll c) r (solids (fun _ => s) fun _ => p) fun _ => t
  have hreg : ∀ q ∈ (roll c).Q, Regular r t ((roll c).ori q) ((roll c).ori q) := fun _ _ => cylinder_regular hne
  have hx0 : (0 : EuclideanSpace ℝ Unit) ∈ States (roll c) r fun _ => t := roll_start hne 1
  have hlin := C162_linear (roll c) r (fun _ => s) (fun _ => p) (fun _ => t) (fun _ _ => hm) rfl hreg
  have hentry : ∀ j j', linearEntry (roll c) law j j' = K := roll_linear hm r t c hne
  have htan : ∀ v : EuclideanSpace ℝ Unit, tangent (roll c) law 0 v = K • v := by
    intro v; ext j
    rw [tangent_apply]
    simp only [(hlin _ _).2, Finset.univ_unique, Finset.sum_singleton, law]
    exact congrArg (· * v ()) (hentry () ())
  have hrest : ∀ v : EuclideanSpace ℝ Unit, ofEntries (rest (roll c) r (solids (fun _ => s) fun _ => p) (fun _ => t) 0) v = (-R) • v := by
    intro v
    rw [unit_apply]
    exact congrArg (· • v) (roll_rest hm r t c hne 1 () ())
  have htrue : ∀ v : EuclideanSpace ℝ Unit,
      (tangent (roll c) law 0 + ofEntries (rest (roll c) r (solids (fun _ => s) fun _ => p) (fun _ => t) 0)) v = (K - R) • v := by
    intro v; rw [_root_.add_apply, htan, hrest, ← add_smul, sub_eq_add_neg]
  constructor
  · intro hbad
    have h := hbad.unique (C162_derivative (roll c) r (fun _ => s) (fun _ => p) (fun _ => t) (fun _ _ => hm) hx0).1
    have h1 := congrArg (fun f : EuclideanSpace ℝ Unit →L[ℝ] EuclideanSpace ℝ Unit =>
      f (EuclideanSpace.single () 1) ()) (neg_injective h)
    have h2 : (K • EuclideanSpace.single () (1 : ℝ) : EuclideanSpace ℝ Unit) ()
        = ((K - R) • EuclideanSpace.single () (1 : ℝ) : EuclideanSpace ℝ Unit) () := by
      rw [← htan, ← htrue]; exact h1
    simp at h2
    linarith
  let Fv : EuclideanSpace ℝ Unit := WithLp.toLp 2 (roll c).F
  have hres : ∀ l x, residual ((roll c).scale l) law x = residual ((roll c).scale 0) law x + l • Fv := by
    intro l x
    ext j
    show (∑ q ∈ (roll c).Q, _) + l * (roll c).F j = ((∑ q ∈ (roll c).Q, _) + 0 * (roll c).F j) + l * (roll c).F j
    rw [zero_mul, add_zero]
    rfl
  obtain ⟨h1, h2, -⟩ := smooth_at (P := (roll c).scale 0) (r := r) (t := fun _ => t) (all_lawful ((roll c).scale 0) (fun _ => s) (fun _ => p) fun _ _ => hm) (x := 0) hx0
  have h0 : residual ((roll c).scale 0) law 0 = 0 := by
    ext j
    have := (C162_linear ((roll c).scale 0) r (fun _ => s) (fun _ => p) (fun _ => t) (fun _ _ => hm) rfl hreg j j).1
    rw [show residual ((roll c).scale 0) law 0 j = ((roll c).scale 0).F j from this]
    exact zero_mul _
  have hFv : ‖Fv‖ = 1 := by simp [EuclideanSpace.norm_eq, Fv, roll]
  obtain ⟨l₀, ρ, C, hl0, hρ, hall⟩ := Solve.small_loads
    (K := fun x => tangent (roll c) law x + ofEntries (rest (roll c) r (solids (fun _ => s) fun _ => p) (fun _ => t) x))
    (R := residual ((roll c).scale 0) law) h2 h1
    (by
      refine (injective_iff_map_eq_zero _).2 fun v hv => ?_
      have hv' : (K - R) • v = 0 := (htrue v).symm.trans hv
      exact (smul_eq_zero.1 hv').resolve_left hKR.ne') h0 (states_nhds hx0) Fv ((K - R)⁻¹ • Fv)
    (by
      refine (htrue _).trans ?_
      rw [smul_smul, mul_inv_cancel₀ hKR.ne', one_smul])
  -- the gap between the two solutions, to first order
  set g := (K - R)⁻¹ - K⁻¹ with hg
  have hgpos : 0 < g := by
    rw [hg, sub_pos]
    exact inv_strictAnti₀ hKR (by linarith)
  refine ⟨K * g / 2, min l₀ (g / (2 * (|C| + 1))), ρ, by positivity, by positivity, hρ, fun l hl hle => ?_⟩
  obtain ⟨xs, hxs, e1, e2, e3, -⟩ := hall l (hle.trans (min_le_left _ _))
  refine ⟨xs, hxs, (hres l xs).trans e1, fun x hx h => e3 x hx ((hres l x).symm.trans h), fun xl hxl => ?_⟩
  have hxl' : xl = (l * K⁻¹) • Fv := by
    ext j
    have h := hxl j
    simp only [Finset.univ_unique, Finset.sum_singleton] at h
    rw [show linearEntry (roll c) (shells (roll c) r (solids (fun _ => s) fun _ => p) fun _ => t) j default = K from hentry _ _] at h
    show xl default = l * K⁻¹ * (roll c).F j
    field_simp
    linarith
  have hnl : ‖xl‖ = |l| * K⁻¹ := by
    rw [hxl', norm_smul, hFv, mul_one, Real.norm_eq_abs, abs_mul, abs_of_pos (inv_pos.2 hKpos)]
  have hlpos : 0 < |l| := abs_pos.2 hl
  refine ⟨by rw [hnl]; positivity, ?_⟩
  have hlow : |l| * (K - R)⁻¹ - C * l ^ 2 ≤ ‖xs‖ := by
    have h3 : ‖l • (K - R)⁻¹ • Fv‖ = |l| * (K - R)⁻¹ := by
      rw [norm_smul, norm_smul, hFv, mul_one, Real.norm_eq_abs, Real.norm_eq_abs, abs_of_pos (inv_pos.2 hKR)]
    have h4 := norm_sub_norm_le (l • (K - R)⁻¹ • Fv) xs
    rw [norm_sub_rev] at h4
    linarith
  have hCl : C * l ^ 2 ≤ |l| * (g / 2) := by
    have h5 : |l| ≤ g / (2 * (|C| + 1)) := hle.trans (min_le_right _ _)
    rw [le_div_iff₀ (by positivity)] at h5
    rw [← sq_abs]
    nlinarith [le_abs_self C, abs_nonneg C]
  have hfin : (1 + K * g / 2) * ‖xl‖ = |l| * (K - R)⁻¹ - |l| * (g / 2) := by
    rw [hnl, show (K - R)⁻¹ = g + K⁻¹ by rw [hg]; ring]
    field_simp
    ring
  linarith

/-- Non-vacuity. -/
example : Constants .neoHooke ⟨1, 1 / 4, 7⟩ ∧ simpson.Exact 3 ∧ (∀ j, 0 ≤ simpson.w j) ∧ (∀ j, |simpson.ξ j| ≤ 1 / 2) ∧
    |(1 : ℝ)| * 1 < 2 := by
  refine ⟨?_, simpson_exact, simpson_nonneg, simpson_inside, by norm_num⟩
  constructor <;> norm_num

theorem bend_pos {s : Solid} {p : Hyper.Par} (hc : Constants s p) : 0 < ∑ j, (simpson.ξ j * 1) ^ 2 * node (quarter p) simpson 1 0 j := by
  have hpos := soft_pos (μ := quarter p) (r := simpson) (t := 1) (c := 0) (quarter_pos hc) (by norm_num) (by norm_num)
    (fun k hk => simpson_exact k (by omega)) simpson_nonneg simpson_inside
  simpa using hpos

/-- Non-vacuity of the hypotheses of `C162_small_partial`: a plate of each of the three materials. -/
example {s : Solid} {p : Hyper.Par} (hc : Constants s p) : (roll 0).pre = (roll 0).ori ∧
    (∀ q ∈ (roll 0).Q, Indep (((roll 0).ori q).a 0) (((roll 0).ori q).a 1) ∧
      Regular simpson 1 ((roll 0).ori q) ((roll 0).ori q)) ∧ (∀ q ∈ (roll 0).Q, Flat ((roll 0).ori q)) ∧
    ∀ v : EuclideanSpace ℝ Unit, (∀ j, ∑ j', linearEntry (roll 0)
      (shells (roll 0) simpson (solids (fun _ => s) fun _ => p) fun _ => 1) j j' * v j' = 0) → v = 0 := by
  have hne : ∀ j, (0 : ℝ) * (simpson.ξ j * 1) ≠ 1 := fun j => by norm_num
  refine ⟨rfl, fun q _ => ⟨curved_indep 0, cylinder_regular hne⟩, fun q _ => flat_curved, fun v hv => ?_⟩
  have h := hv ()
  have hpos := bend_pos hc
  simp only [roll_linear hc _ _ _ hne] at h
  ext j
  simp only [Finset.univ_unique, Finset.sum_singleton, mul_eq_zero] at h
  rcases h with h | h
  · rw [h] at hpos; exact absurd hpos (lt_irrefl _)
  · exact h

/-- Non-vacuity of the hypotheses of `C162_newton_partial`: the plate without loads. -/
example {s : Solid} {p : Hyper.Par} (hc : Constants s p) :
    (0 : EuclideanSpace ℝ Unit) ∈ States ((roll 0).scale 0) simpson (fun _ => 1) ∧
    residual ((roll 0).scale 0) (shells ((roll 0).scale 0) simpson (solids (fun _ => s) fun _ => p) fun _ => 1) 0 = 0 ∧
    ∃ β : ℝ, 0 < β ∧
    (∀ v, ‖v‖ ≤ β * ‖tangent ((roll 0).scale 0)
      (shells ((roll 0).scale 0) simpson (solids (fun _ => s) fun _ => p) fun _ => 1) 0 v‖) ∧
    β * ‖ofEntries (third ((roll 0).scale 0) (fun q => heights (solids (fun _ => s) (fun _ => p) q) (((roll 0).scale 0).ori q))
      simpson (fun _ => 1) 0)‖ ≤ 1 / 16 := by
  have hne : ∀ j, (0 : ℝ) * (simpson.ξ j * 1) ≠ 1 := fun j => by norm_num
  have hpos := bend_pos hc
  have hx := roll_start hne 0
  have hlin := C162_linear ((roll 0).scale 0) simpson (fun _ => s) (fun _ => p) (fun _ => 1) (fun _ _ => hc) rfl
    (fun _ _ => cylinder_regular hne)
  refine ⟨hx, ?_, _, inv_pos.2 hpos, fun v => ?_, ?_⟩
  · ext j
    rw [(hlin j j).1]; simp [Problem.scale]
  · have e : tangent ((roll 0).scale 0)
        (shells ((roll 0).scale 0) simpson (solids (fun _ => s) fun _ => p) fun _ => 1) 0 v
        = (∑ j, (simpson.ξ j * 1) ^ 2 * node (quarter p) simpson 1 0 j) • v := by
      ext j
      rw [tangent_apply]
      simp only [(hlin _ _).2, Finset.univ_unique, Finset.sum_singleton]
      exact congrArg (· * v ()) (roll_linear hc simpson 1 0 hne () ())
    rw [e, norm_smul, Real.norm_eq_abs, abs_of_pos hpos, inv_mul_cancel_left₀ hpos.ne']
  · rw [show third ((roll 0).scale 0) (fun q => heights (solids (fun _ => s) (fun _ => p) q) (((roll 0).scale 0).ori q))
        simpson (fun _ => 1) 0 = fun _ _ => 0 from
      rest_flat ((roll 0).scale 0) simpson (fun _ => s) (fun _ => p) (fun _ => 1) hx fun q _ => by
        rw [deformed_zero]; exact flat_curved, ofEntries_zero, norm_zero, mul_zero]
    norm_num

end Cylinder

/-! ## The computed thickness -/

/-- **C162** (partial: extended neo-Hookean material, moderate area ratios, not nearly incompressible) With
the thickness stretches as computed the forces and moments are the exact ones up to `10⁻¹⁰` times the
compressibility. -/
theorem C162_close_partial {p : Hyper.Par} (hc : Constants .extended p) (hinc : p.lam ≤ 10 ^ 6 * p.mu) (r : Rule) {t : ℝ}
    (ht : 0 < t) {ori s : Surf} (hr : Regular r t ori s)
    (he : ∀ j, 2 * p.mu * |det2 (Gblock s (r.ξ j * t)) / det2 (Gblock ori (r.ξ j * t)) - 1|
      ≤ det2 (Gblock s (r.ξ j * t)) / det2 (Gblock ori (r.ξ j * t)) * (p.mu + p.lam / 2)) :
    (∀ j, ∃ y, PlaneSheet.computed .extended p (Hyper.data (Gblock ori (r.ξ j * t)) (Gblock s (r.ξ j * t))) = .ok y) ∧
    ∀ ξ : Hyper.Data → ℝ, (∀ j, PlaneSheet.computed .extended p (Hyper.data (Gblock ori (r.ξ j * t)) (Gblock s (r.ξ j * t)))
        = .ok (ξ (Hyper.data (Gblock ori (r.ξ j * t)) (Gblock s (r.ξ j * t))))) →
      ∀ m k, |resultant (heights (PlaneSheet.material .extended p ξ) ori) r t m s k
          - resultant (heights (PlaneSheet.material .extended p (exact .extended p)) ori) r t m s k|
        ≤ 1 / 10 ^ 10 * ∑ j, |r.w j| * |r.ξ j * t| ^ m * p.lam
          * (det2 (Gblock s (r.ξ j * t)) / det2 (Gblock ori (r.ξ j * t)))
          * |vec3 (inv2 (Gblock s (r.ξ j * t)) 0 0) (inv2 (Gblock s (r.ξ j * t)) 1 1) (inv2 (Gblock s (r.ξ j * t)) 0 1) k|
          * t := by
  have hpo := PlaneSheet.positive_of hc
  have hf : ∀ j, ∃ y, PlaneSheet.computed .extended p (Hyper.data (Gblock ori (r.ξ j * t)) (Gblock s (r.ξ j * t))) = .ok y ∧
      |y - exact .extended p (Hyper.data (Gblock ori (r.ξ j * t)) (Gblock s (r.ξ j * t)))| ≤ 2 / 10 ^ 10 := by
    intro j
    have hA := block_metric ori _ (hr j).1
    have hC := block_metric s _ (hr j).2
    obtain ⟨y, z, h1, -, h3, h4, h5⟩ := PlaneStress.C127_found_partial p hpo.1 hpo.2 hA hC hinc (he j)
    refine ⟨y, h1, ?_⟩
    rw [PlaneSheet.exact_unique hpo hA hC h3 h4]
    exact h5
  refine ⟨fun j => ⟨_, (hf j).choose_spec.1⟩, fun ξ hξ m k => ?_⟩
  simp only [resultant, integrateZ]
  rw [← Finset.sum_sub_distrib, Finset.mul_sum]
  refine (Finset.abs_sum_le_sum_abs _ _).trans (Finset.sum_le_sum fun j _ => ?_)
  obtain ⟨y, h1, h2⟩ := hf j
  have hy : ξ (Hyper.data (Gblock ori (r.ξ j * t)) (Gblock s (r.ξ j * t))) = y := Outcome.ok.inj ((hξ j).symm.trans h1)
  have hl : 0 ≤ p.lam := hpo.2
  set e := exact .extended p (Hyper.data (Gblock ori (r.ξ j * t)) (Gblock s (r.ξ j * t))) with hedef
  set R := det2 (Gblock s (r.ξ j * t)) / det2 (Gblock ori (r.ξ j * t)) with hR
  have hRp : 0 < R := PlaneSheet.ratio_pos (block_metric ori _ (hr j).1) (block_metric s _ (hr j).2)
  set I := vec3 (inv2 (Gblock s (r.ξ j * t)) 0 0) (inv2 (Gblock s (r.ξ j * t)) 1 1) (inv2 (Gblock s (r.ξ j * t)) 0 1) k with hI
  have key : stressV ((heights (PlaneSheet.material .extended p ξ) ori).stress (r.ξ j * t) (Gblock s (r.ξ j * t))) k
      - stressV ((heights (PlaneSheet.material .extended p (exact .extended p)) ori).stress (r.ξ j * t) (Gblock s (r.ξ j * t))) k
      = p.lam / 2 * R * (y - e) * I := by
    simp only [heights, PlaneSheet.material, hy, ← hedef]
    rcases fin3_cases k with rfl | rfl | rfl <;>
      simp [stressV, hI, Solid.stress, Hyper.sNHe, Hyper.cdata, Hyper.withThickness, Hyper.data, embed, hR] <;> ring
  rw [show r.w j * (r.ξ j * t) ^ m * stressV ((heights (PlaneSheet.material .extended p ξ) ori).stress (r.ξ j * t)
        (Gblock s (r.ξ j * t))) k * t
      - r.w j * (r.ξ j * t) ^ m * stressV ((heights (PlaneSheet.material .extended p (exact .extended p)) ori).stress
        (r.ξ j * t) (Gblock s (r.ξ j * t))) k * t
      = r.w j * (r.ξ j * t) ^ m * (p.lam / 2 * R * (y - e) * I) * t by rw [← key]; ring]
  rw [abs_mul, abs_mul, abs_mul, abs_mul, abs_mul, abs_pow, abs_of_pos ht, abs_of_nonneg (by positivity : 0 ≤ p.lam / 2 * R)]
  have h3 : |r.w j| * |r.ξ j * t| ^ m * (p.lam / 2 * R * |y - e| * |I|) * t
      = |r.w j| * |r.ξ j * t| ^ m * (p.lam / 2 * R) * |I| * t * |y - e| := by ring
  rw [h3]
  calc _ ≤ |r.w j| * |r.ξ j * t| ^ m * (p.lam / 2 * R) * |I| * t * (2 / 10 ^ 10) :=
        mul_le_mul_of_nonneg_left h2 (by positivity)
    _ = _ := by ring

/-- Non-vacuity: the undeformed cylinder. -/
example : Regular simpson 1 (curved 1) (curved 1) ∧ (⟨2, 1 / 4, 1⟩ : Hyper.Par).lam ≤ 10 ^ 6 * (⟨2, 1 / 4, 1⟩ : Hyper.Par).mu ∧
    ∀ j, 2 * (⟨2, 1 / 4, 1⟩ : Hyper.Par).mu * |det2 (Gblock (curved 1) (simpson.ξ j * 1)) / det2 (Gblock (curved 1) (simpson.ξ j * 1)) - 1|
      ≤ det2 (Gblock (curved 1) (simpson.ξ j * 1)) / det2 (Gblock (curved 1) (simpson.ξ j * 1))
        * ((⟨2, 1 / 4, 1⟩ : Hyper.Par).mu + (⟨2, 1 / 4, 1⟩ : Hyper.Par).lam / 2) := by
  have hr : Regular simpson 1 (curved 1) (curved 1) := cylinder_regular (thin_ne (by norm_num) (by norm_num) simpson_inside)
  refine ⟨hr, by norm_num [Hyper.Par.mu, Hyper.Par.lam], fun j => ?_⟩
  rw [div_self (hr j).1]
  norm_num [Hyper.Par.mu, Hyper.Par.lam]

end Verif.PlaneShell
