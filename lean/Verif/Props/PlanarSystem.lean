import Verif.Lemmas.PlanarSystem
import Verif.Props.HyperReference
import Verif.Props.PosDef

/-! # Property C150: the nonlinear system of a sheet of incompressible hyperelastic material -/

namespace Verif.PlanarSystem

open Verif.Geometry Verif.Variation Verif.Planar Verif.Integrate Verif.Hyper
open Spec.PlanarSystem Spec.ShellTangent Spec.Hyper Spec.ShellSystem Spec.Solve Spec.PosDef
open Filter Topology RealInnerProductSpace

variable {J κ : Type} [Fintype J] (P : Problem J κ) (r : Rule) (S : κ → Solid) (p : κ → Par)

/-- The materials at all points. -/
noncomputable abbrev solids (S : κ → Solid) (p : κ → Par) : κ → Material := fun q => (S q).law (p q)

/-- Their energy densities. -/
noncomputable abbrev densities (S : κ → Solid) (p : κ → Par) : κ → T2 → T2 → ℝ := fun q => density (S q) (p q)

theorem solid_elastic (s : Solid) (p : Par) {A : T2} (hA : det2 A ≠ 0) (hs : A 0 1 = A 1 0) :
    Elastic (s.law p) (density s p) A := by
  cases s
  · exact neoHooke_elastic p hA hs
  · exact mooneyRivlin_elastic p hA hs

omit [Fintype J] in
variable {P} in
theorem body_sheet (hB : Body P) : Sheet P (solids S p) (densities S p) :=
  ⟨fun q hq => (hB q hq).1, fun q hq => (solid_elastic (S q) (p q) (det_ne (hB q hq).1) (metric_sym _)).on⟩

/-! ## Potential -/

/-- **C150** The assembled residual is minus the gradient of the stored energy less the work of the
loads, at all states that are not degenerate. -/
theorem C150_gradient (hB : Body P) (hr : ∑ j, r.w j = 1) {x : EuclideanSpace ℝ J} (hx : x ∈ Admissible P) :
    HasGradientAt (potential P (densities S p)) (-residual P (solids S p) r x) x := by
  classical
  refine potential_gradient (body_sheet S p hB) (fun q _ => ?_) hx
  rw [weight, ← Finset.sum_mul, hr, one_mul]

/-- **C150** The assembled tangent is minus the derivative of the residual, and symmetric. -/
theorem C150_tangent (hB : Body P) {x : EuclideanSpace ℝ J} (hx : x ∈ Admissible P) :
    HasFDerivAt (residual P (solids S p) r) (-tangent P (solids S p) r x) x ∧
    (∀ j j', entry P (solids S p) r x j j' = entry P (solids S p) r x j' j) ∧
    ∀ u v, ⟪tangent P (solids S p) r x u, v⟫ = ⟪u, tangent P (solids S p) r x v⟫ := by
  classical
  have hsym : ∀ j j', entry P (solids S p) r x j j' = entry P (solids S p) r x j' j := by
    intro j j'
    refine Finset.sum_congr rfl fun q hq => ?_
    congr 1
    refine stiffness_symm _ _ _ _ (fun i k => ?_) _
    have hJ : jdet (P.ori q) ≠ 0 := (hB q hq).1
    have hK : jdet (deformed P x q) ≠ 0 := hx q hq
    rw [moduli, modulus_eq _ r _ hJ hK, modulus_eq _ r _ hJ hK]
    rcases fin3_cases i with rfl | rfl | rfl <;> rcases fin3_cases k with rfl | rfl | rfl <;> simp [fillMatrix]
  refine ⟨residual_deriv (body_sheet S p hB) hx, hsym, fun u v => ?_⟩
  simp only [PiLp.inner_apply, tangent_apply, RCLike.inner_apply, conj_trivial, Finset.sum_mul, Finset.mul_sum]
  rw [Finset.sum_comm]
  refine Finset.sum_congr rfl fun j _ => Finset.sum_congr rfl fun j' _ => ?_
  rw [hsym j' j]; ring

omit [Fintype J] in
theorem rest (hB : Body P) {q : κ} (hq : q ∈ P.Q) :
    resultant (solids S p q) r (P.t q) 0 (P.ori q) (P.ori q) = fun _ => 0 := by
  funext k
  have hJ : jdet (P.ori q) ≠ 0 := (hB q hq).1
  rw [resultant_eq _ r _ hJ hJ]
  have hz : ∀ i j, (solids S p q).stress (Hyper.data (AcovPlanar (P.ori q)) (AcovPlanar (P.ori q))) i j = 0 := by
    intro i j
    show ((S q).law (p q)).stress _ i j = 0
    cases S q
    · exact C46_NH (p q) _ (det_ne hJ) i j
    · exact C46_MR (p q) _ (det_ne hJ) (metric_sym _) i j
  rcases fin3_cases k with rfl | rfl | rfl <;> simp [ShellTangent.stressV, hz]

/-- **C150** Without prescribed displacements the undeformed state carries no internal forces, and the
matrix of the linear problem is the tangent there. -/
theorem C150_linear (hB : Body P) (hp : P.pre = P.ori) (j j' : J) :
    residual P (solids S p) r 0 j = P.F j ∧
    entry P (solids S p) r 0 j j' = linearEntry P (solids S p) r j j' := by
  have hd : ∀ q, deformed P 0 q = P.ori q := fun q => by rw [deformed_zero, hp]
  constructor
  · show (∑ q ∈ P.Q, _) + _ = _
    rw [Finset.sum_eq_zero fun q hq => ?_, zero_add]
    rw [forces, hd, rest P r S p hB hq]
    simp [Planar.internalForce, dotV]
  · refine Finset.sum_congr rfl fun q hq => ?_
    rw [forces, moduli, hd, rest P r S p hB hq]
    simp [Planar.stiffness, Planar.EmDer2]

theorem near (hB : Body P) {x : EuclideanSpace ℝ J} (hx : x ∈ Admissible P) :
    (∀ᶠ y in 𝓝 x, HasFDerivAt (residual P (solids S p) r) (-tangent P (solids S p) r y) y) ∧
    ContDiffAt ℝ 2 (residual P (solids S p) r) x :=
  ⟨Filter.mem_of_superset (admissible_nhds P hx) fun _ hy => (C150_tangent P r S p hB hy).1,
    residual_smooth (body_sheet S p hB) hx⟩

/-! ## An example -/

/-- The unit Jacobian. -/
def unitJac : Jac := fun i d => if i = d then 1 else 0

/-- A sheet with one quadrature point and one unknown, the stretch in the first direction, pulled with the
force `f`. -/
def strip (f : ℝ) : Problem Unit Unit :=
  ⟨{()}, fun _ => 1, fun _ => 1, fun _ => unitJac, fun _ => unitJac,
    fun _ _ i d => if i = 0 ∧ d = 0 then 1 else 0, fun _ => f⟩

/-- A neo-Hookean material with unit shear modulus. -/
noncomputable def rubber : Par := ⟨3, 1 / 2, 1⟩

theorem rubber_mu : rubber.mu = 1 := by norm_num [rubber, Par.mu]

theorem strip_body (f : ℝ) : Body (strip f) := fun _ _ => by simp [strip, unitJac]

/-- The Jacobian with the stretch `1 + x`. -/
theorem strip_deformed (f : ℝ) (x : EuclideanSpace ℝ Unit) (q : Unit) :
    deformed (strip f) x q = fun i d => if i = d then (if i = 0 then 1 + x () else 1) else 0 := by
  funext i d
  rcases fin2_cases i with rfl | rfl <;> rcases fin2_cases d with rfl | rfl <;>
    simp [deformed, strip, unitJac, combine]

theorem strip_admissible (f : ℝ) (x : EuclideanSpace ℝ Unit) (hx : 1 + x () ≠ 0) : x ∈ Admissible (strip f) := by
  intro q _
  rw [strip_deformed]; simpa using hx

theorem strip_held (f : ℝ) (x : EuclideanSpace ℝ Unit) (hx : 1 + x () ≠ 0) :
    Held (strip f) (deformed (strip f) x) := by
  intro v hv
  have h := hv () (by simp [strip]) 0 0
  simp [strip_deformed] at h
  simp [strip] at h
  funext u
  rcases h with h | h
  · exact absurd h hx
  · exact h

/-- Its forces with the stretch `1 + x`. -/
theorem strip_forces (f : ℝ) (x : EuclideanSpace ℝ Unit) (hx : 1 + x () ≠ 0) :
    forces (strip f) (solids (fun _ => .neoHooke) fun _ => rubber) ⟨1, fun _ => 0, fun _ => 1⟩ x ()
      = vec3 (1 - 1 / (1 + x ()) ^ 4) (1 - 1 / (1 + x ()) ^ 2) 0 := by
  have hJ : jdet ((strip f).ori ()) ≠ 0 := by simp [strip, unitJac, jdet]
  have hK : jdet (deformed (strip f) x ()) ≠ 0 := strip_admissible f x hx () (by simp [strip])
  funext k
  rw [forces, resultant_eq _ _ _ hJ hK]
  have hA : AcovPlanar ((strip f).ori ()) = fun i j => if i = j then 1 else 0 := by
    funext i j
    rcases fin2_cases i with rfl | rfl <;> rcases fin2_cases j with rfl | rfl <;>
      simp [AcovPlanar, strip, unitJac]
  have hC : AcovPlanar (deformed (strip f) x ()) = fun i j => if i = j then (if i = 0 then (1 + x ()) ^ 2 else 1) else 0 := by
    funext i j
    rw [strip_deformed]
    rcases fin2_cases i with rfl | rfl <;> rcases fin2_cases j with rfl | rfl <;>
      simp [AcovPlanar, sq]
  rw [hA, hC]
  rcases fin3_cases k with rfl | rfl | rfl <;>
    simp [weight, strip, ShellTangent.stressV, solids, Solid.law, neoHooke, sNH, rubber_mu, Hyper.data, inv2, det2, embed]
  all_goals field_simp

/-- Non-vacuity of the hypotheses: a stretched state that is not degenerate; the weights. -/
example : Body (strip 0) ∧ (EuclideanSpace.single () (1 : ℝ)) ∈ Admissible (strip 0) ∧
    (∑ _j : Fin 1, (1 : ℝ)) = 1 ∧ (strip 0).pre = (strip 0).ori :=
  ⟨strip_body 0, strip_admissible 0 _ (by simp), by simp, rfl⟩

/-- The state is stretched and not free of forces. -/
example : forces (strip 0) (solids (fun _ => .neoHooke) fun _ => rubber) ⟨1, fun _ => 0, fun _ => 1⟩
    (EuclideanSpace.single () (1 : ℝ)) () = vec3 (15 / 16) (3 / 4) 0 := by
  rw [strip_forces _ _ (by simp)]
  norm_num

/-! ## Stability -/

theorem posMat_mul {c : ℝ} (hc : 0 < c) {A B : T3} (h : ∀ i j, A i j = c * B i j) (hB : PosMat B) : PosMat A := by
  intro v hv
  have : ∑ i, ∑ j, v i * A i j * v j = c * ∑ i, ∑ j, v i * B i j * v j := by
    simp only [Finset.mul_sum, h]
    exact Finset.sum_congr rfl fun i _ => Finset.sum_congr rfl fun j _ => by ring
  rw [this]
  exact mul_pos hc (hB v hv)

theorem moduli_pos (hB : Body P) (hr : 0 < ∑ j, r.w j) {x : EuclideanSpace ℝ J} {q : κ} (hq : q ∈ P.Q)
    (hK : jdet (deformed P x q) ≠ 0) (hs : Stiff (S q) (p q) (gram (P.ori q)) (gram (deformed P x q))) :
    PosMat (moduli P (solids S p) r x q) := by
  have hJ : jdet (P.ori q) ≠ 0 := (hB q hq).1
  refine posMat_mul (c := weight r (P.t q)) ?_ (fun i j => modulus_eq _ r _ hJ hK i j) ?_
  · rw [weight, ← Finset.sum_mul]; exact mul_pos hr (hB q hq).2.1
  · rw [gram_eq, gram_eq] at hs
    show PosMat (fillMatrix (((S q).law (p q)).tangent _))
    cases h : S q <;> rw [h] at hs
    · exact PosDef.C126_neoHooke (p q) hs (metric_metric hJ) (metric_metric hK)
    · exact (PosDef.C126_mooneyRivlin_partial (p q) hs.1 hs.2.1 (metric_metric hJ) (metric_metric hK)).2 hs.2.2

/-- **C150** A sheet in tension everywhere, held such that no displacement is without strain in the
deformed state: the tangent is positive definite and regular, and a state of equilibrium is stable, a
strict local minimum of the potential.  A neo-Hookean sheet is stiff in all states, a Mooney–Rivlin
sheet as long as it does not soften. -/
theorem C150_tension (hB : Body P) (hr : ∑ j, r.w j = 1) {x : EuclideanSpace ℝ J} (hx : x ∈ Admissible P)
    (hs : ∀ q ∈ P.Q, Stiff (S q) (p q) (gram (P.ori q)) (gram (deformed P x q)))
    (hn : ∀ q ∈ P.Q, Tension (forces P (solids S p) r x q)) (hH : Held P (deformed P x)) :
    (∀ v : J → ℝ, v ≠ 0 → 0 < ∑ j, ∑ j', v j * entry P (solids S p) r x j j' * v j') ∧
    Function.Injective (tangent P (solids S p) r x) ∧
    (residual P (solids S p) r x = 0 →
      ∃ ρ > 0, ∀ y, y ≠ x → ‖y - x‖ ≤ ρ → potential P (densities S p) x < potential P (densities S p) y) := by
  have hd := definite (P := P) (M := solids S p) (r := r) (x := x) (fun q hq => (hB q hq).2.2)
    (fun q hq => moduli_pos P r S p hB (by rw [hr]; norm_num) hq (hx q hq) (hs q hq)) hn hH
  obtain ⟨h1, h2⟩ := near P r S p hB hx
  refine ⟨hd, injective_of hd, fun h0 => Solve.local_min
    (Filter.mem_of_superset (admissible_nhds P hx) fun y hy => C150_gradient P r S p hB hr hy) h2 h1 h0 fun v hv => ?_⟩
  rw [inner_form]
  exact hd v.ofLp (fun h => hv (by ext j; exact congrFun h j))

/-- Non-vacuity: the strip pulled to twice its length. -/
example : residual (strip (15 / 8)) (solids (fun _ => .neoHooke) fun _ => rubber) ⟨1, fun _ => 0, fun _ => 1⟩
      (EuclideanSpace.single () (1 : ℝ)) = 0 ∧
    (∀ q ∈ (strip (15 / 8)).Q, Tension (forces (strip (15 / 8)) (solids (fun _ => .neoHooke) fun _ => rubber)
      ⟨1, fun _ => 0, fun _ => 1⟩ (EuclideanSpace.single () (1 : ℝ)) q)) ∧
    Held (strip (15 / 8)) (deformed (strip (15 / 8)) (EuclideanSpace.single () (1 : ℝ))) ∧
    Stiff .neoHooke rubber (gram ((strip (15 / 8)).ori ())) (gram (deformed (strip (15 / 8)) (EuclideanSpace.single () 1) ())) := by
  have hx : (1 : ℝ) + (EuclideanSpace.single () (1 : ℝ) : EuclideanSpace ℝ Unit) () ≠ 0 := by simp
  refine ⟨?_, fun q _ => ?_, strip_held _ _ hx, by show 0 < rubber.mu; rw [rubber_mu]; norm_num⟩
  · ext j
    show (∑ q ∈ {()}, Planar.internalForce (deformed (strip (15 / 8)) _ q) ((strip (15 / 8)).field q ()) (forces _ _ _ _ q) * (1 : ℝ))
      + 15 / 8 = 0
    rw [Finset.sum_singleton, strip_forces _ _ hx, strip_deformed]
    simp [Planar.internalForce, dotV, Fin.sum_univ_three, Planar.EmDer, dot2, strip]
    norm_num
  · rw [strip_forces _ _ hx]
    norm_num [Tension]

/-! ## Newton's method -/

/-- **C150** Around an equilibrium with a regular tangent there is a ball such that the programs, started
with a linear solution in this ball, stop by themselves with a solution that is right up to a constant
times the square of the tolerance. -/
theorem C150_newton (hB : Body P) {xs : EuclideanSpace ℝ J} (hx : xs ∈ Admissible P)
    (h0 : residual P (solids S p) r xs = 0) (hi : Function.Injective (tangent P (solids S p) r xs)) :
    ∃ ρ C : ℝ, 0 < ρ ∧ ∀ (s : Solve.Sys (EuclideanSpace ℝ J)) (solve : _ → EuclideanSpace ℝ J → EuclideanSpace ℝ J),
      Assembles s (residual P (solids S p) r) (tangent P (solids S p) r) (Admissible P) →
      Solver solve → ‖solve s.K0 s.F - xs‖ ≤ ρ →
      ∃ res, Solve.program s solve = .ok res ∧ res.broke = true ∧ ‖res.x - xs‖ ≤ C * (1 / 10 ^ 6) ^ 2 := by
  obtain ⟨h1, h2⟩ := near P r S p hB hx
  exact Solve.local_newton h2 h1 hi h0 (admissible_nhds P hx)

/-- Non-vacuity: the tangent of the pulled strip is regular. -/
example : Function.Injective (tangent (strip (15 / 8)) (solids (fun _ => .neoHooke) fun _ => rubber)
    ⟨1, fun _ => 0, fun _ => 1⟩ (EuclideanSpace.single () (1 : ℝ))) := by
  have hx : (1 : ℝ) + (EuclideanSpace.single () (1 : ℝ) : EuclideanSpace ℝ Unit) () ≠ 0 := by simp
  refine (C150_tension (strip (15 / 8)) ⟨1, fun _ => 0, fun _ => 1⟩ _ _ (strip_body _) (by simp) (strip_admissible _ _ hx)
    (fun q _ => by show 0 < rubber.mu; rw [rubber_mu]; norm_num) (fun q _ => ?_) (strip_held _ _ hx)).2.1
  rw [strip_forces _ _ hx]
  norm_num [Tension]

/-! ## Small loads -/

/-- Materials with positive constants are stiff in the undeformed state. -/
theorem positive_stiff (s : Solid) (p : Par) (h : Positive s p) {A : T2} (hA : det2 A ≠ 0) (hs : A 0 1 = A 1 0) :
    Stiff s p A A := by
  cases s
  · exact h
  · obtain ⟨h1, h2⟩ := h
    refine ⟨h1, h2, ?_⟩
    have ht : ∑ i, ∑ j, inv2 A i j * A i j = 2 := by
      simp only [Fin.sum_univ_two, inv2]
      simp
      rw [← hs]
      have : det2 A = A 0 0 * A 1 1 - A 0 1 * A 0 1 := by rw [det2, hs]
      field_simp
      rw [this]; ring
    rw [ht, div_self hA]
    nlinarith [mul_pos h1 h2, sq_nonneg p.c1, sq_nonneg p.c2]

/-- **C150** A sheet of material with positive constants, held such that no displacement is without
strain, under small loads: the nonlinear problem has one solution close to the undeformed state, it
differs from the solution of the linear problem by the square of the load, and the programs find it. -/
theorem C150_small (hB : Body P) (hp : P.pre = P.ori) (hr : ∑ j, r.w j = 1)
    (hpos : ∀ q ∈ P.Q, Positive (S q) (p q)) (hH : Held P P.ori) :
    ∃ l₀ ρ C : ℝ, 0 < l₀ ∧ 0 < ρ ∧ ∀ l : ℝ, |l| ≤ l₀ →
      ∃ xs ∈ Admissible P, residual (P.scale l) (solids S p) r xs = 0 ∧
      (∀ x, ‖x‖ ≤ ρ → residual (P.scale l) (solids S p) r x = 0 → x = xs) ∧
      (∃ xl : EuclideanSpace ℝ J,
        (∀ j, ∑ j', linearEntry P (solids S p) r j j' * xl j' = l * P.F j) ∧ ‖xs - xl‖ ≤ C * l ^ 2) ∧
      ∀ (s : Solve.Sys (EuclideanSpace ℝ J)) (solve : _ → _ → EuclideanSpace ℝ J),
        Assembles s (residual (P.scale l) (solids S p) r) (tangent P (solids S p) r) (Admissible P) →
        (∀ v j, s.K0 v j = ∑ j', linearEntry P (solids S p) r j j' * v j') →
        (∀ j, s.F j = l * P.F j) → Solver solve →
        ∃ res, Solve.program s solve = .ok res ∧ res.broke = true ∧ ‖res.x - xs‖ ≤ C * (1 / 10 ^ 6) ^ 2 := by
  have hd0 : ∀ q, deformed P 0 q = P.ori q := fun q => by rw [deformed_zero, hp]
  have hx0 : (0 : EuclideanSpace ℝ J) ∈ Admissible P := by
    intro q hq
    rw [hd0]; exact (hB q hq).1
  have hinj : Function.Injective (tangent P (solids S p) r 0) := by
    refine (C150_tension P r S p hB hr hx0 (fun q hq => ?_) (fun q hq => ?_) ?_).2.1
    · rw [hd0, gram_eq]
      exact positive_stiff _ _ (hpos q hq) (det_ne (hB q hq).1) (metric_sym _)
    · rw [forces, hd0, rest P r S p hB hq]
      simp [Tension]
    · rw [show deformed P 0 = P.ori from funext hd0]; exact hH
  let Fv : EuclideanSpace ℝ J := WithLp.toLp 2 P.F
  have hres : ∀ l x, residual (P.scale l) (solids S p) r x = residual (P.scale 0) (solids S p) r x + l • Fv := by
    intro l x
    ext j
    show (∑ q ∈ P.Q, _) + l * P.F j = ((∑ q ∈ P.Q, _) + 0 * P.F j) + l * P.F j
    rw [zero_mul, add_zero]
    rfl
  have hlin : ∀ (v : EuclideanSpace ℝ J) j, (tangent P (solids S p) r 0 v) j
      = ∑ j', linearEntry P (solids S p) r j j' * v j' := by
    intro v j
    rw [tangent_apply]
    exact Finset.sum_congr rfl fun j' _ => by rw [(C150_linear P r S p hB hp j j').2]
  obtain ⟨h1, h2⟩ := near (P.scale 0) r S p hB (x := 0) hx0
  have h0 : residual (P.scale 0) (solids S p) r 0 = 0 := by
    ext j
    rw [(C150_linear (P.scale 0) r S p hB hp j j).1]
    exact zero_mul _
  obtain ⟨xl, hxl⟩ : ∃ xl, tangent P (solids S p) r 0 xl = Fv :=
    (LinearMap.injective_iff_surjective (f := (tangent P (solids S p) r 0 :
      EuclideanSpace ℝ J →ₗ[ℝ] EuclideanSpace ℝ J))).1 hinj Fv
  obtain ⟨l₀, ρ, C, hl0, hρ, hall⟩ := Solve.small_loads h2 h1 hinj h0 (admissible_nhds P hx0) Fv xl hxl
  refine ⟨l₀, ρ, C, hl0, hρ, fun l hl => ?_⟩
  obtain ⟨xs, hxs, e1, e2, e3, e4⟩ := hall l hl
  refine ⟨xs, hxs, (hres l xs).trans e1, fun x hx h => e3 x hx ((hres l x).symm.trans h), ⟨l • xl, fun j => ?_, e2⟩,
    fun s solve ha hk hb hsol => ?_⟩
  · rw [← hlin, map_smul, hxl]; rfl
  · refine e4 s solve ⟨fun x hx => ?_, ha.jacobian⟩ hsol ?_ ?_
    · rw [ha.residual x hx]; exact congrArg some (hres l x)
    · ext v j
      rw [hk v j]; exact (hlin v j).symm
    · ext j
      rw [hb j]; rfl

/-- Non-vacuity of the hypotheses on the material and the supports. -/
example : Positive .neoHooke rubber ∧ Positive .mooneyRivlin rubber ∧ Held (strip 1) (strip 1).ori := by
  refine ⟨by show 0 < rubber.mu; rw [rubber_mu]; norm_num, ?_, ?_⟩
  · norm_num [Spec.PlanarSystem.Positive, rubber, Par.c1, Par.c2, Par.mu]
  · have h := strip_held 1 0 (by simp)
    rwa [show deformed (strip 1) 0 = (strip 1).ori from funext fun q => deformed_zero (strip 1) q] at h

end Verif.PlanarSystem
