import Verif.Lemmas.PlateLaw
import Verif.Lemmas.ShellSystemLaw
import Verif.Props.Composite
import Verif.Props.System

/-! # Property C149: the nonlinear system of a shell of linear material -/

namespace Verif.ShellSystem

open V3 Verif.Geometry Verif.Variation Verif.Balance Verif.Integrate Spec.ShellSystem Spec.Solve Spec.System
open Filter Topology RealInnerProductSpace

variable {J κ : Type} [Fintype J] (P : Problem J κ) (r : Rule) (E ν t : κ → ℝ)

/-- Material constants for which the moduli are finite and positive. -/
def Constants (Q : Finset κ) (E ν t : κ → ℝ) : Prop :=
  ∀ q ∈ Q, 0 < E q ∧ -1 < ν q ∧ ν q < 1 / 2 ∧ 0 < t q

/-- The linear material at all points. -/
noncomputable abbrev linear : Law κ := fun q => linearLaw r (E q) (ν q) (t q) (P.ori q)

omit [Fintype J] in
theorem linear_plain' (q : κ) : Plain (linear P r E ν t q) (P.ori q)
    (fun i j => t q * Linear.matrix (E q) (ν q) (Acon (P.ori q)) i j)
    (fun i j => t q ^ 3 / 12 * Linear.matrix (E q) (ν q) (Acon (P.ori q)) i j) :=
  linear_plain r (E q) (ν q) (t q) (P.ori q)

/-! ## Potential -/

/-- **C149** The assembled residual is minus the gradient of the potential of the Koiter shell, at all
states with independent tangents. -/
theorem C149_gradient (hc : Constants P.Q E ν t) {x : EuclideanSpace ℝ J} (hx : x ∈ Admissible P) :
    HasGradientAt (potential P E ν t) (-residual P (linear P r E ν t) x) x := by
  classical
  have h := energy_gradient (P := P) (law := linear P r E ν t) (fun q _ => linear_plain' P r E ν t q)
    (fun q _ i j => by rw [Linear.C18_matrix_symmetric]) (fun q _ i j => by rw [Linear.C18_matrix_symmetric]) hx
  have e : potential P E ν t = fun y : EuclideanSpace ℝ J => (∑ q ∈ P.Q, quadEnergy
      (fun i j => t q * Linear.matrix (E q) (ν q) (Acon (P.ori q)) i j)
      (fun i j => t q ^ 3 / 12 * Linear.matrix (E q) (ν q) (Acon (P.ori q)) i j) (P.ori q)
        (deformed P y q) * P.μ q) - ∑ i, P.F i * y i := by
    funext y
    unfold potential
    congr 1
    refine Finset.sum_congr rfl fun q hq => ?_
    obtain ⟨_, h1, h2, _⟩ := hc q hq
    rw [koiter_eq _ _ _ (by linarith) (by linarith) (by linarith)]
  rw [e]; exact h

/-- **C149** The assembled tangent is minus the derivative of the residual, and symmetric. -/
theorem C149_tangent {x : EuclideanSpace ℝ J} (hx : x ∈ Admissible P) :
    HasFDerivAt (residual P (linear P r E ν t)) (-tangent P (linear P r E ν t) x) x ∧
    (∀ j j', entry P (linear P r E ν t) x j j' = entry P (linear P r E ν t) x j' j) ∧
    ∀ u v, ⟪tangent P (linear P r E ν t) x u, v⟫ = ⟪u, tangent P (linear P r E ν t) x v⟫ := by
  classical
  have hsym : ∀ j j', entry P (linear P r E ν t) x j j' = entry P (linear P r E ν t) x j' j := by
    intro j j'
    refine Finset.sum_congr rfl fun q _ => ?_
    have h := linear_plain' P r E ν t q
    congr 1
    refine C66_symmetric _ _ _ _ _ _ _ _ _ (fun i k => ?_) (fun i k => ?_) fun i k => ?_
    · rw [h.hA]; simp only [Linear.C18_matrix_symmetric (E q) (ν q) _ i k]
    · rw [h.hD]; simp only [Linear.C18_matrix_symmetric (E q) (ν q) _ i k]
    · rw [h.hB, h.hC]
  refine ⟨residual_deriv (fun q _ => linear_plain' P r E ν t q) hx, hsym, fun u v => ?_⟩
  simp only [PiLp.inner_apply, tangent_apply, RCLike.inner_apply, conj_trivial, Finset.sum_mul, Finset.mul_sum]
  rw [Finset.sum_comm]
  refine Finset.sum_congr rfl fun j _ => Finset.sum_congr rfl fun j' _ => ?_
  rw [hsym j' j]; ring

omit [Fintype J] in
theorem linear_rest (q : κ) : (linear P r E ν t q (P.ori q)).N = (fun _ => 0) ∧
    (linear P r E ν t q (P.ori q)).M = fun _ => 0 := by
  have h := linear_plain' P r E ν t q
  have e1 : voigtMembrane (P.ori q) (P.ori q) = fun _ => 0 := by
    funext k; rcases fin3_cases k with rfl | rfl | rfl <;> simp [voigtMembrane]
  have e2 : voigtBending (P.ori q) (P.ori q) = fun _ => 0 := by
    funext k; rcases fin3_cases k with rfl | rfl | rfl <;> simp [voigtBending]
  rw [h.hN, h.hM, e1, e2]
  constructor <;> funext k <;> simp [mulVec3]

/-- **C149** Without prescribed displacements the undeformed state carries no internal forces, and the
matrix of the linear problem is the tangent there. -/
theorem C149_linear (hp : P.pre = P.ori) (j j' : J) :
    residual P (linear P r E ν t) 0 j = P.F j ∧
    entry P (linear P r E ν t) 0 j j' = linearEntry P (linear P r E ν t) j j' := by
  have hd : ∀ q, deformed P 0 q = P.ori q := fun q => by rw [deformed_zero, hp]
  constructor
  · show (∑ q ∈ P.Q, _) + _ = _
    rw [Finset.sum_eq_zero fun q _ => ?_, zero_add]
    rw [hd, (linear_rest P r E ν t q).1, (linear_rest P r E ν t q).2]
    simp [internalForce, dotV]
  · refine Finset.sum_congr rfl fun q _ => ?_
    rw [hd, (linear_rest P r E ν t q).1, (linear_rest P r E ν t q).2, (C66_linear _ _ _ _ _ _ _).1]

theorem near {x : EuclideanSpace ℝ J} (hx : x ∈ Admissible P) :
    (∀ᶠ y in 𝓝 x, HasFDerivAt (residual P (linear P r E ν t)) (-tangent P (linear P r E ν t) y) y) ∧
    ContDiffAt ℝ 2 (residual P (linear P r E ν t)) x :=
  ⟨Filter.mem_of_superset (admissible_nhds P hx) fun _ hy => (C149_tangent P r E ν t hy).1,
    residual_smooth (fun q _ => linear_plain' P r E ν t q) hx⟩

/-! ## An example -/

/-- A flat sheet with one quadrature point and one unknown, the stretch in the first direction. -/
def sheet : Problem Unit Unit :=
  ⟨{()}, fun _ => 1, fun _ => Plate.flatS, fun _ => Plate.flatS,
    fun _ _ => ⟨fun i => if i = 0 then ⟨1, 0, 0⟩ else 0, 0, 0, 0⟩, fun _ => 0⟩

theorem sheet_admissible : (0 : EuclideanSpace ℝ Unit) ∈ Admissible sheet := by
  intro q _
  rw [deformed_zero]
  exact indep_iff.2 (by show cross (Plate.flatS.a 0) (Plate.flatS.a 1) ≠ 0; rw [Plate.flat_cross]; simp [V3.ext_iff])

theorem sheet_constants : Constants sheet.Q (fun _ => 1) (fun _ => 0) (fun _ => 1) :=
  fun _ _ => by norm_num

/-- The residual of this sheet as a function of the unknown is not affine: `-((1+x)^2-1)/2 (1+x)`. -/
theorem sheet_residual (x : EuclideanSpace ℝ Unit) :
    residual sheet (linear sheet ⟨1, fun _ => 0, fun _ => 2⟩ (fun _ => 1) (fun _ => 0) fun _ => 1) x ()
      = -(((1 + x ()) ^ 2 - 1) / 2 * (1 + x ())) := by
  have h := linear_plain' sheet ⟨1, fun _ => 0, fun _ => 2⟩ (fun _ => 1) (fun _ => 0) (fun _ => 1) ()
  have hd : deformed sheet x () = ⟨fun i => if i = 0 then ⟨1 + x (), 0, 0⟩ else ⟨0, 1, 0⟩, 0, 0, 0⟩ := by
    unfold deformed
    congr 1
    · funext i
      rcases fin2_cases i with rfl | rfl <;> ext <;> simp [sheet, vsum, Plate.flatS]
    all_goals ext <;> simp [sheet, vsum, Plate.flatS]
  have hM : voigtBending (sheet.ori ()) (deformed sheet x ()) = fun _ => 0 := by
    rw [hd]
    funext k
    rcases fin3_cases k with rfl | rfl | rfl <;>
      simp [voigtBending, sheet, Plate.flatS, dot]
  have hE : EmDer (deformed sheet x ()) (sheet.field () ()) = vec3 (1 + x ()) 0 0 := by
    rw [hd]
    funext k
    rcases fin3_cases k with rfl | rfl | rfl <;> simp [EmDer, sheet, dot]
  have hN : voigtMembrane (sheet.ori ()) (deformed sheet x ()) = vec3 (((1 + x ()) ^ 2 - 1) / 2) 0 0 := by
    rw [hd]
    funext k
    rcases fin3_cases k with rfl | rfl | rfl <;>
      simp [voigtMembrane, sheet, Plate.flatS, dot]
    ring
  show (∑ q ∈ {()}, internalForce (deformed sheet x q) (sheet.field q ()) _ _ * (1 : ℝ)) + 0 = _
  rw [Finset.sum_singleton, h.hN, h.hM, hM, hN, internalForce, hE]
  have hf := Plate.flat_linear (E := 1) (ν := 0) (by norm_num) (by norm_num) (by norm_num) (by norm_num)
  rw [show Acon (sheet.ori ()) = Acon Plate.flatS from rfl, hf]
  simp [dotV, mulVec3, Fin.sum_univ_three, Plate.iso]

/-- Its tangent at the undeformed state is the modulus. -/
theorem sheet_entry (j j' : Unit) :
    entry sheet (linear sheet ⟨1, fun _ => 0, fun _ => 2⟩ (fun _ => 1) (fun _ => 0) fun _ => 1) 0 j j' = 1 := by
  have h := residual_line (P := sheet) (x := 0) (fun q _ => linear_plain' sheet ⟨1, fun _ => 0, fun _ => 2⟩
    (fun _ => 1) (fun _ => 0) (fun _ => 1) q) sheet_admissible j j'
  have h2 : HasDerivAt (fun τ : ℝ => -(((1 + τ) ^ 2 - 1) / 2 * (1 + τ))) (-1) 0 := by
    have e1 : HasDerivAt (fun τ : ℝ => 1 + τ) 1 0 := (hasDerivAt_id' (0 : ℝ)).const_add 1
    refine ((((e1.pow 2).sub_const 1).div_const 2).mul e1).neg.congr_deriv ?_
    norm_num
  have h3 : HasDerivAt (fun τ : ℝ => -(((1 + τ) ^ 2 - 1) / 2 * (1 + τ))) (-entry sheet
      (linear sheet ⟨1, fun _ => 0, fun _ => 2⟩ (fun _ => 1) (fun _ => 0) fun _ => 1) 0 j j') 0 := by
    refine h.congr_of_eventuallyEq (Filter.Eventually.of_forall fun τ => ?_)
    show _ = residual sheet _ _ ()
    rw [sheet_residual]
    simp
  linarith [h2.unique h3]

theorem sheet_zero :
    residual sheet (linear sheet ⟨1, fun _ => 0, fun _ => 2⟩ (fun _ => 1) (fun _ => 0) fun _ => 1) 0 = 0 := by
  ext j
  show residual sheet _ _ () = 0
  rw [sheet_residual]; simp

/-- Non-vacuity of the hypotheses on states and constants, with a residual that is not affine. -/
example : (0 : EuclideanSpace ℝ Unit) ∈ Admissible sheet ∧
    Constants sheet.Q (fun _ => 1) (fun _ => 0) (fun _ => 1) ∧ sheet.pre = sheet.ori :=
  ⟨sheet_admissible, sheet_constants, rfl⟩

/-! ## Stability -/

/-- **C149** An equilibrium with a positive definite tangent is stable: a strict local minimum of the
potential. -/
theorem C149_stable (hc : Constants P.Q E ν t) {x : EuclideanSpace ℝ J} (hx : x ∈ Admissible P)
    (h0 : residual P (linear P r E ν t) x = 0)
    (hpos : ∀ v : J → ℝ, v ≠ 0 → 0 < ∑ j, ∑ j', v j * entry P (linear P r E ν t) x j j' * v j') :
    ∃ ρ > 0, ∀ y, y ≠ x → ‖y - x‖ ≤ ρ → potential P E ν t x < potential P E ν t y := by
  obtain ⟨h1, h2⟩ := near P r E ν t hx
  refine Solve.local_min (Filter.mem_of_superset (admissible_nhds P hx) fun y hy => C149_gradient P r E ν t hc hy) h2 h1 h0
    fun v hv => lt_of_lt_of_eq (hpos v.ofLp (fun h => hv (by ext j; exact congrFun h j))) ?_
  simp only [PiLp.inner_apply, tangent_apply, RCLike.inner_apply, conj_trivial, Finset.mul_sum]
  exact Finset.sum_congr rfl fun j _ => Finset.sum_congr rfl fun j' _ => by ring

/-- Non-vacuity of the hypotheses on the equilibrium. -/
example : residual sheet (linear sheet ⟨1, fun _ => 0, fun _ => 2⟩ (fun _ => 1) (fun _ => 0) fun _ => 1) 0 = 0 ∧
    ∀ v : Unit → ℝ, v ≠ 0 → 0 < ∑ j, ∑ j', v j * entry sheet
      (linear sheet ⟨1, fun _ => 0, fun _ => 2⟩ (fun _ => 1) (fun _ => 0) fun _ => 1) 0 j j' * v j' := by
  refine ⟨sheet_zero, fun v hv => ?_⟩
  simp only [sheet_entry]
  have : v () ≠ 0 := fun h => hv (funext fun _ => h)
  simpa using this

/-! ## Newton's method -/

/-- **C149** Around an equilibrium with a regular tangent there is a ball such that the programs, started
with a linear solution in this ball, stop by themselves with a solution that is right up to a constant
times the square of the tolerance. -/
theorem C149_newton {xs : EuclideanSpace ℝ J} (hx : xs ∈ Admissible P)
    (h0 : residual P (linear P r E ν t) xs = 0)
    (hi : Function.Injective (tangent P (linear P r E ν t) xs)) :
    ∃ ρ C : ℝ, 0 < ρ ∧ ∀ (s : Solve.Sys (EuclideanSpace ℝ J)) (solve : _ → EuclideanSpace ℝ J → EuclideanSpace ℝ J),
      Assembles s (residual P (linear P r E ν t)) (tangent P (linear P r E ν t)) (Admissible P) →
      Solver solve → ‖solve s.K0 s.F - xs‖ ≤ ρ →
      ∃ res, Solve.program s solve = .ok res ∧ res.broke = true ∧ ‖res.x - xs‖ ≤ C * (1 / 10 ^ 6) ^ 2 := by
  obtain ⟨h1, h2⟩ := near P r E ν t hx
  exact Solve.local_newton h2 h1 hi h0 (admissible_nhds P hx)

/-- Non-vacuity of the hypothesis on the tangent. -/
example : Function.Injective (tangent sheet
    (linear sheet ⟨1, fun _ => 0, fun _ => 2⟩ (fun _ => 1) (fun _ => 0) fun _ => 1) 0) := by
  refine (injective_iff_map_eq_zero _).2 fun v hv => ?_
  have h := congrArg (fun w : EuclideanSpace ℝ Unit => w ()) hv
  simp only [tangent_apply, sheet_entry] at h
  ext j
  simpa using h

/-! ## Small loads -/

section Held

variable {ι : Type} [Fintype ι] (Q : Finset κ) (μ : κ → ℝ) (ori : κ → Surf) (φ : κ → ι → Shape)
  (free : ι × Fin 3 → Prop) [DecidablePred free] (F : {p // free p} → ℝ)

omit [Fintype ι] [DecidablePred free] in
/-- The matrix of the linear problem is the one of `Model/System`. -/
theorem held_entry (j j' : {p // free p}) :
    linearEntry (Problem.held Q μ ori φ free F) (linear (Problem.held Q μ ori φ free F) r E ν t) j j'
      = System.matrix true Q μ ori φ (fun q => System.linearModuli r (t q) (E q) (ν q) (ori q)) j.1 j'.1 := rfl

/-- Without strain-free displacements the tangent of the undeformed state is regular. -/
theorem held_injective (hμ : ∀ q ∈ Q, 0 < μ q) (hs : ∀ q ∈ Q, Indep ((ori q).a 0) ((ori q).a 1))
    (hc : Constants Q E ν t)
    (hf : ∀ x, Supported free x → StrainFree Q ori φ x → x = 0) :
    Function.Injective (tangent (Problem.held Q μ ori φ free F)
      (linear (Problem.held Q μ ori φ free F) r E ν t) 0) := by
  classical
  have hw := (System.C131_solvable Q μ ori φ (fun q => System.linearModuli r (t q) (E q) (ν q) (ori q)) hμ hs
    (fun q hq => by
      obtain ⟨h1, h2, h3, h4⟩ := hc q hq
      exact (System.C131_linear r (t q) (E q) (ν q) h4 h1 h2 h3 (ori q) (hs q hq)).1) free).2 hf
  refine (injective_iff_map_eq_zero _).2 fun v hv => ?_
  have hrow : ∀ j : {p // free p}, ∑ j' : {p // free p}, System.matrix true Q μ ori φ
      (fun q => System.linearModuli r (t q) (E q) (ν q) (ori q)) j.1 j'.1 * v j' = 0 := by
    intro j
    have h1 := congrArg (fun w : EuclideanSpace ℝ {p // free p} => w j) hv
    simp only [tangent_apply] at h1
    refine Eq.trans (Finset.sum_congr rfl fun j' _ => ?_) h1
    rw [(C149_linear (Problem.held Q μ ori φ free F) r E ν t rfl j j').2, held_entry]
  obtain ⟨x₀, -, huniq⟩ := hw 0
  have hz : (0 : ι × Fin 3 → ℝ) = x₀ := huniq 0 ⟨fun p _ => rfl, fun p _ => by simp⟩
  have hx : (fun p => if hp : free p then v ⟨p, hp⟩ else 0) = x₀ := by
    refine huniq _ ⟨fun p hp => by simp [hp], fun p hp => ?_⟩
    have h1 := hrow ⟨p, hp⟩
    refine Eq.trans ?_ h1
    rw [← Fintype.sum_subtype_add_sum_subtype free]
    have h2 : ∀ i : {p // ¬ free p}, System.matrix true Q μ ori φ
      (fun q => System.linearModuli r (t q) (E q) (ν q) (ori q)) p i.1 * (if hp : free i.1 then v ⟨i.1, hp⟩ else 0) = 0 :=
      fun i => by rw [dif_neg i.2, mul_zero]
    rw [Finset.sum_eq_zero fun i _ => h2 i, add_zero]
    exact Finset.sum_congr rfl fun i _ => by simp only [dif_pos i.2]
  ext j
  have := congrFun (hx.trans hz.symm) j.1
  simpa [j.2] using this

/-- **C149** A shell that is held such that no displacement is free of strain, under small loads: the
nonlinear problem has one solution close to the undeformed state, it differs from the solution of the
linear problem by the square of the load, and the programs find it. -/
theorem C149_small (hμ : ∀ q ∈ Q, 0 < μ q) (hs : ∀ q ∈ Q, Indep ((ori q).a 0) ((ori q).a 1))
    (hc : Constants Q E ν t)
    (hf : ∀ x, Supported free x → StrainFree Q ori φ x → x = 0)
    {P : Problem {p // free p} κ} (hP : P = Problem.held Q μ ori φ free F) :
    ∃ l₀ ρ C : ℝ, 0 < l₀ ∧ 0 < ρ ∧ ∀ l : ℝ, |l| ≤ l₀ →
      ∃ xs ∈ Admissible P, residual (P.scale l) (linear P r E ν t) xs = 0 ∧
      (∀ x, ‖x‖ ≤ ρ → residual (P.scale l) (linear P r E ν t) x = 0 → x = xs) ∧
      (∃ xl : EuclideanSpace ℝ {p // free p},
        (∀ j, ∑ j', linearEntry P (linear P r E ν t) j j' * xl j' = l * F j) ∧ ‖xs - xl‖ ≤ C * l ^ 2) ∧
      ∀ (s : Solve.Sys (EuclideanSpace ℝ {p // free p})) (solve : _ → _ → EuclideanSpace ℝ {p // free p}),
        Assembles s (residual (P.scale l) (linear P r E ν t)) (tangent P (linear P r E ν t)) (Admissible P) →
        (∀ v j, s.K0 v j = ∑ j', linearEntry P (linear P r E ν t) j j' * v j') →
        (∀ j, s.F j = l * F j) → Solver solve →
        ∃ res, Solve.program s solve = .ok res ∧ res.broke = true ∧ ‖res.x - xs‖ ≤ C * (1 / 10 ^ 6) ^ 2 := by
  classical
  have hinj := held_injective r E ν t Q μ ori φ free F hμ hs hc hf
  rw [← hP] at hinj
  have hpre : P.pre = P.ori := by rw [hP]; rfl
  have hF : P.F = F := by rw [hP]; rfl
  have hx0 : (0 : EuclideanSpace ℝ {p // free p}) ∈ Admissible P := by
    rw [hP]
    intro q hq
    rw [deformed_zero]
    exact hs q hq
  let Fv : EuclideanSpace ℝ {p // free p} := WithLp.toLp 2 F
  have hres : ∀ l x, residual (P.scale l) (linear P r E ν t) x
      = residual (P.scale 0) (linear P r E ν t) x + l • Fv := by
    intro l x
    ext j
    show (∑ q ∈ P.Q, _) + l * P.F j = ((∑ q ∈ P.Q, _) + 0 * P.F j) + l * F j
    rw [hF, zero_mul, add_zero]
    rfl
  have hlin : ∀ (v : EuclideanSpace ℝ {p // free p}) j, (tangent P (linear P r E ν t) 0 v) j
      = ∑ j', linearEntry P (linear P r E ν t) j j' * v j' := by
    intro v j
    rw [tangent_apply]
    exact Finset.sum_congr rfl fun j' _ => by rw [(C149_linear P r E ν t hpre j j').2]
  obtain ⟨h1, h2⟩ := near (P.scale 0) r E ν t (x := 0) hx0
  have h0 : residual (P.scale 0) (linear P r E ν t) 0 = 0 := by
    ext j
    have := (C149_linear (P.scale 0) r E ν t hpre j j).1
    rw [show residual (P.scale 0) (linear P r E ν t) 0 j = (P.scale 0).F j from this]
    exact zero_mul _
  obtain ⟨xl, hxl⟩ : ∃ xl, tangent P (linear P r E ν t) 0 xl = Fv :=
    (LinearMap.injective_iff_surjective (f := (tangent P (linear P r E ν t) 0 :
      EuclideanSpace ℝ {p // free p} →ₗ[ℝ] EuclideanSpace ℝ {p // free p}))).1 hinj Fv
  obtain ⟨l₀, ρ, C, hl0, hρ, hall⟩ := Solve.small_loads h2 h1 hinj h0 (admissible_nhds P hx0) Fv xl hxl
  refine ⟨l₀, ρ, C, hl0, hρ, fun l hl => ?_⟩
  obtain ⟨xs, hxs, e1, e2, e3, e4⟩ := hall l hl
  refine ⟨xs, hxs, (hres l xs).trans e1, fun x hx h => e3 x hx ((hres l x).symm.trans h), ⟨l • xl, fun j => ?_, e2⟩,
    fun s solve ha hk hb hsol => ?_⟩
  · rw [← hlin, map_smul, hxl]; rfl
  · refine e4 s solve ⟨fun x hx => ?_, ha.jacobian⟩ hsol ?_ ?_
    · rw [ha.residual x hx]; exact congrArg some (hres l x)
    · ext v j
      rw [hk v j]; exact (hlin v j).symm
    · ext j
      rw [hb j]; rfl

end Held

/-- Non-vacuity of the hypotheses: the point of `Props/System` with the first component free. -/
example (x : Unit × Fin 3 → ℝ) (hx : Supported (fun p : Unit × Fin 3 => p.2 = 0) x)
    (hf : StrainFree {()} (fun _ => System.flatPoint) (fun _ _ => System.slope) x) : x = 0 := by
  have h := ((System.free_iff (fun _ _ => System.flatPoint_indep) x).1 hf () (by simp)).1
  rw [System.example_form] at h
  have h0 := congrFun h 0
  simp at h0
  funext ⟨_, d⟩
  rcases fin3_cases d with rfl | rfl | rfl
  · exact h0
  · exact hx _ (by simp)
  · exact hx _ (by simp)

/-! ## Laminates -/

/-- **C149** for laminates with a symmetric stacking sequence: the tangent is exact and the programs
converge.  Without this hypothesis it is false, see `C149_laminate_violated`. -/
theorem C149_laminate_partial (ls : κ → List Composite.Layer) (hls : ∀ q ∈ P.Q, (ls q).reverse = ls q)
    {x : EuclideanSpace ℝ J} (hx : x ∈ Admissible P)
    {law : Law κ} (hlaw : law = fun q => laminateLaw r (t q) (ls q) (P.ori q)) :
    HasFDerivAt (residual P law) (-tangent P law x) x ∧
    (residual P law x = 0 → Function.Injective (tangent P law x) →
      ∃ ρ C : ℝ, 0 < ρ ∧ ∀ (s : Solve.Sys (EuclideanSpace ℝ J)) (solve : _ → _ → EuclideanSpace ℝ J),
        Assembles s (residual P law) (tangent P law) (Admissible P) → Solver solve → ‖solve s.K0 s.F - x‖ ≤ ρ →
        ∃ res, Solve.program s solve = .ok res ∧ res.broke = true ∧ ‖res.x - x‖ ≤ C * (1 / 10 ^ 6) ^ 2) := by
  classical
  have hpl : ∀ q ∈ P.Q, Plain (law q) (P.ori q) (System.laminateModuli r (t q) (ls q) (P.ori q)).A
      (System.laminateModuli r (t q) (ls q) (P.ori q)).D := by
    intro q hq
    rw [hlaw]
    exact laminate_plain r (t q) (ls q) (hls q hq) (P.ori q)
  refine ⟨residual_deriv hpl hx, fun h0 hi => ?_⟩
  exact Solve.local_newton (residual_smooth hpl hx)
    (Filter.mem_of_superset (admissible_nhds P hx) fun y hy => residual_deriv hpl hy) hi h0 (admissible_nhds P hx)

/-- Non-vacuity: three plies, symmetric. -/
example : [Composite.scaledPly 1 1, Composite.scaledPly 2 3, Composite.scaledPly 1 1].reverse
    = [Composite.scaledPly 1 1, Composite.scaledPly 2 3, Composite.scaledPly 1 1] := rfl

/-- A flat sheet with a stretch and a curvature as unknowns. -/
def bent : Problem (Fin 2) Unit :=
  ⟨{()}, fun _ => 1, fun _ => Plate.flatS, fun _ => Plate.flatS,
    fun _ j => if j = 0 then ⟨fun i => if i = 0 then ⟨1, 0, 0⟩ else 0, 0, 0, 0⟩ else ⟨fun _ => 0, ⟨0, 0, 1⟩, 0, 0⟩,
    fun _ => 0⟩

/-- The flat sheet with a curvature. -/
def curved (τ : ℝ) : Surf := ⟨Plate.flatS.a, ⟨0, 0, τ⟩, 0, 0⟩

theorem bent_deformed (τ : ℝ) :
    deformed bent (0 + τ • EuclideanSpace.single (1 : Fin 2) (1 : ℝ)) () = curved τ := by
  rw [deformed_shift, deformed_zero]
  unfold shift curved
  congr 1
  · funext i
    rcases fin2_cases i with rfl | rfl <;> ext <;> simp [bent, Plate.flatS]
  all_goals ext <;> simp [bent, Plate.flatS]

theorem curved_normal (τ : ℝ) : normal (curved τ) = ⟨0, 0, 1⟩ := Plate.flat_normal

theorem bent_var (τ : ℝ) : var1 (curved τ) (bent.field () 0) = 0 := by
  have hm : Variation.measure (curved τ) = 1 := Plate.flat_measure
  have : mvec (curved τ) (bent.field () 0) = ⟨0, 0, 1⟩ := by
    rw [mvec, hm]
    ext <;> simp [bent, curved, Plate.flatS, cross]
  rw [var1, this, curved_normal]
  ext <;> simp [dot]

theorem bent_forces (τ : ℝ) : EfDer (curved τ) (bent.field () 0) = (fun _ => 0) ∧
    EmDer (curved τ) (bent.field () 0) = vec3 1 0 0 ∧
    EfDer (curved 0) (bent.field () 1) = vec3 (-1) 0 0 ∧
    EmDer (curved 0) (bent.field () 1) = fun _ => 0 := by
  have h1 : var1 (curved 0) (bent.field () 1) = 0 := by
    have : mvec (curved 0) (bent.field () 1) = 0 := by
      unfold mvec
      ext <;> simp [bent, cross]
    rw [var1, this]
    ext <;> simp [dot]
  refine ⟨?_, ?_, ?_, ?_⟩
  · funext k
    unfold EfDer
    rw [bent_var, curved_normal]
    rcases fin3_cases k with rfl | rfl | rfl <;> simp [dbl3, deriv2dot, bent, dot]
  · funext k
    rcases fin3_cases k with rfl | rfl | rfl <;> simp [EmDer, bent, curved, Plate.flatS, dot]
  · funext k
    unfold EfDer
    rw [h1, curved_normal]
    rcases fin3_cases k with rfl | rfl | rfl <;> simp [dbl3, deriv2dot, bent, dot]
  · funext k
    rcases fin3_cases k with rfl | rfl | rfl <;> simp [EmDer, bent, dot]

/-- **C149** is violated by laminates of two different plies: the tangent couples the stretch to the
curvature, the residual does not. -/
theorem C149_laminate_violated : ∃ (P : Problem (Fin 2) Unit) (r : Rule) (t : ℝ) (ls : List Composite.Layer),
    (0 : EuclideanSpace ℝ (Fin 2)) ∈ Admissible P ∧
    ¬ HasFDerivAt (residual P fun q => laminateLaw r t ls (P.ori q))
      (-tangent P (fun q => laminateLaw r t ls (P.ori q)) 0) 0 := by
  refine ⟨bent, ⟨1, fun _ => 0, fun _ => 2⟩, 2, [Composite.scaledPly 1 1, Composite.scaledPly 1 3], ?_, fun hd => ?_⟩
  · intro q _
    rw [deformed_zero]
    exact indep_iff.2 (by show cross (Plate.flatS.a 0) (Plate.flatS.a 1) ≠ 0; rw [Plate.flat_cross]; simp [V3.ext_iff])
  · set law : Law Unit := fun q => laminateLaw ⟨1, fun _ => 0, fun _ => 2⟩ 2
      [Composite.scaledPly 1 1, Composite.scaledPly 1 3] (bent.ori q) with hlaw
    have hN : ∀ τ, (law () (curved τ)).N = fun _ => 0 := by
      intro τ
      have : strainVec (membraneStrain (bent.ori ()) (curved τ)) = fun _ => 0 := by
        funext k
        rcases fin3_cases k with rfl | rfl | rfl <;> simp [strainVec, membraneStrain, bent, curved, Acov]
      show mulVec3 _ (strainVec (membraneStrain (bent.ori ()) (curved τ))) = _
      rw [this]; funext k; simp [mulVec3]
    have hM : (law () (curved 0)).M = fun _ => 0 := by
      have : strainVec (bendingStrain (bent.ori ()) (curved 0)) = fun _ => 0 := by
        have e : curved 0 = Plate.flatS := rfl
        funext k
        rcases fin3_cases k with rfl | rfl | rfl <;> simp [strainVec, bendingStrain, bent, e]
      show mulVec3 _ (strainVec (bendingStrain (bent.ori ()) (curved 0))) = _
      rw [this]; funext k; simp [mulVec3]
    have hres : ∀ τ : ℝ, residual bent law (0 + τ • EuclideanSpace.single (1 : Fin 2) (1 : ℝ)) 0 = 0 := by
      intro τ
      show (∑ q ∈ {()}, internalForce (deformed bent _ q) (bent.field q 0) _ _ * (1 : ℝ)) + 0 = _
      rw [Finset.sum_singleton, bent_deformed, hN, internalForce, (bent_forces τ).1]
      simp [dotV]
    have hent : entry bent law 0 0 1 = 1 := by
      show (∑ q ∈ {()}, stiffness (deformed bent _ q) (bent.field q 0) (bent.field q 1) _ _ _ _ _ _ * (1 : ℝ)) = _
      have e0 : deformed bent 0 () = curved 0 := by rw [deformed_zero]; rfl
      rw [Finset.sum_singleton, e0, hN, hM, ← (C66_linear _ _ _ _ _ _ _).1, linStiffness, (bent_forces 0).1,
        (bent_forces 0).2.1, (bent_forces 0).2.2.1, (bent_forces 0).2.2.2]
      have hC : (law () (curved 0)).C = Composite.abd .C [Composite.scaledPly 1 1, Composite.scaledPly 1 3] :=
        (Plate.flat_laminate ⟨1, fun _ => 0, fun _ => 2⟩ 2 _).2.1
      have hC0 : Composite.abd .C [Composite.scaledPly 1 1, Composite.scaledPly 1 3] 0 0 = -1 := by
        simp [Composite.abd_eq, Composite.acc, Composite.factor, Composite.plyD_scaled, Composite.thickness]
        norm_num [Composite.scaledPly]
      rw [hC]
      simp [dotV, rowMul, Fin.sum_univ_three, hC0]
    have h1 : HasDerivAt (fun τ : ℝ => (0 : EuclideanSpace ℝ (Fin 2)) + τ • EuclideanSpace.single (1 : Fin 2) (1 : ℝ))
        (EuclideanSpace.single (1 : Fin 2) (1 : ℝ)) 0 := by
      simpa using (((hasDerivAt_id' (0 : ℝ)).smul_const (EuclideanSpace.single (1 : Fin 2) (1 : ℝ))).const_add
        (0 : EuclideanSpace ℝ (Fin 2)))
    have h2 : HasDerivAt (fun τ : ℝ => residual bent law (0 + τ • EuclideanSpace.single (1 : Fin 2) (1 : ℝ)))
        ((-tangent bent law 0) (EuclideanSpace.single (1 : Fin 2) (1 : ℝ))) 0 := by
      have hd' : HasFDerivAt (residual bent law) (-tangent bent law 0)
          ((fun τ : ℝ => (0 : EuclideanSpace ℝ (Fin 2)) + τ • EuclideanSpace.single (1 : Fin 2) (1 : ℝ)) 0) := by
        simpa using hd
      exact HasFDerivAt.comp_hasDerivAt (0 : ℝ) hd' h1
    have h3 := (EuclideanSpace.proj (𝕜 := ℝ) (0 : Fin 2)).hasFDerivAt.comp_hasDerivAt (0 : ℝ) h2
    have h4 : HasDerivAt (fun _ : ℝ => (0 : ℝ)) (-entry bent law 0 0 1) 0 := by
      refine (h3.congr_deriv ?_).congr_of_eventuallyEq (Filter.Eventually.of_forall fun τ => (hres τ).symm)
      show (-(tangent bent law 0 (EuclideanSpace.single (1 : Fin 2) (1 : ℝ)))) 0 = _
      rw [PiLp.neg_apply, tangent_apply]
      simp
    have := h4.unique (hasDerivAt_const (0 : ℝ) (0 : ℝ))
    rw [hent] at this
    norm_num at this

end Verif.ShellSystem
