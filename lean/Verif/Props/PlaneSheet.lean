import Verif.Lemmas.PlaneSheet
import Verif.Props.PlanarSystem
import Verif.Props.PlaneStress

/-! # Property C161: the nonlinear system of a sheet of compressible hyperelastic material -/

namespace Verif.PlaneSheet

open Verif.Geometry Verif.Variation Verif.Planar Verif.Integrate Verif.Hyper
open Verif.PlanarSystem (Problem Sheet residual tangent entry forces moduli deformed linearEntry strip unitJac)
open Spec.PlaneSheet Spec.ShellTangent Spec.Hyper Spec.ShellSystem Spec.Solve Spec.PosDef
open Spec.PlanarSystem (Body Admissible Tension Held potential gram)
open Filter Topology RealInnerProductSpace

variable {J κ : Type} [Fintype J] (P : Problem J κ) (r : Rule) (S : κ → Solid) (p : κ → Par)

/-- The materials at all points with the thickness stretch without thickness stress. -/
noncomputable abbrev solids (S : κ → Solid) (p : κ → Par) : κ → Material :=
  fun q => material (S q) (p q) (exact (S q) (p q))

/-- Their energy densities. -/
noncomputable abbrev densities (S : κ → Solid) (p : κ → Par) : κ → T2 → T2 → ℝ := fun q => density (S q) (p q)

omit [Fintype J] in
variable {P S p} in
theorem body_sheet (hB : Body P) (hp : ∀ q ∈ P.Q, Constants (S q) (p q)) : Sheet P (solids S p) (densities S p) :=
  ⟨fun q hq => (hB q hq).1, fun q hq => on_metrics (positive_of (hp q hq)) (PlanarSystem.metric_metric (hB q hq).1)⟩

/-! ## Thickness -/

/-- **C161** For every deformation there is exactly one thickness stretch without stress across the
thickness, and it is the one with the least energy. -/
theorem C161_thickness {s : Solid} {p : Par} (h : Constants s p) {A C : T2} (hA : Metric A) (hC : Metric C) :
    (∃! x, 0 < x ∧ s.stress p (cdata (Hyper.data A C) x) 2 2 = 0) ∧
    0 < exact s p (Hyper.data A C) ∧ s.stress p (cdata (Hyper.data A C) (exact s p (Hyper.data A C))) 2 2 = 0 ∧
    density s p A C = energy s p A C (exact s p (Hyper.data A C)) ∧
    ∀ x, 0 < x → energy s p A C (exact s p (Hyper.data A C)) ≤ energy s p A C x := by
  have hp := positive_of h
  have ht := tr_pos hA hC
  have hj := ratio_pos hA hC
  have hs := exact_spec hp ht hj
  exact ⟨⟨_, hs, fun y hy => (exact_unique hp hA hC hy.1 hy.2).symm⟩, hs.1, hs.2, density_eq hp ht hj,
    fun x hx => energy_min hp ht hj hx⟩

/-- Non-vacuity: a Mooney–Rivlin material, skew metrics. -/
example : Constants .mooneyRivlin ⟨1, 1 / 3, 7⟩ ∧ Metric ![![2, 1], ![1, 3]] ∧ Metric ![![4, 1], ![1, 1]] :=
  ⟨⟨by norm_num, by norm_num, by norm_num, fun _ => by norm_num, fun h => by simp at h⟩, ⟨by simp, by simp, by simp; norm_num⟩,
    by simp, by simp, by simp⟩

/-! ## Potential -/

/-- **C161** The assembled residual is minus the gradient of the stored energy, with the thickness of least
energy, less the work of the loads, at all states that are not degenerate. -/
theorem C161_gradient (hB : Body P) (hp : ∀ q ∈ P.Q, Constants (S q) (p q)) (hr : ∑ j, r.w j = 1)
    {x : EuclideanSpace ℝ J} (hx : x ∈ Admissible P) :
    HasGradientAt (potential P (densities S p)) (-residual P (solids S p) r x) x := by
  classical
  refine PlanarSystem.potential_gradient (body_sheet hB hp) (fun q _ => ?_) hx
  rw [PlanarSystem.weight, ← Finset.sum_mul, hr, one_mul]

/-- **C161** The assembled tangent, with the condensed moduli, is minus the derivative of the residual, and
symmetric. -/
theorem C161_tangent (hB : Body P) (hp : ∀ q ∈ P.Q, Constants (S q) (p q))
    {x : EuclideanSpace ℝ J} (hx : x ∈ Admissible P) :
    HasFDerivAt (residual P (solids S p) r) (-tangent P (solids S p) r x) x ∧
    (∀ j j', entry P (solids S p) r x j j' = entry P (solids S p) r x j' j) ∧
    ∀ u v, ⟪tangent P (solids S p) r x u, v⟫ = ⟪u, tangent P (solids S p) r x v⟫ := by
  classical
  have hsym : ∀ j j', entry P (solids S p) r x j j' = entry P (solids S p) r x j' j := by
    intro j j'
    refine Finset.sum_congr rfl fun q hq => ?_
    congr 1
    refine PlanarSystem.stiffness_symm _ _ _ _ (fun i k => ?_) _
    have hJ : jdet (P.ori q) ≠ 0 := (hB q hq).1
    have hK : jdet (deformed P x q) ≠ 0 := hx q hq
    rw [moduli, PlanarSystem.modulus_eq _ r _ hJ hK, PlanarSystem.modulus_eq _ r _ hJ hK]
    rcases fin3_cases i with rfl | rfl | rfl <;> rcases fin3_cases k with rfl | rfl | rfl <;> simp [fillMatrix]
  refine ⟨PlanarSystem.residual_deriv (body_sheet hB hp) hx, hsym, fun u v => ?_⟩
  simp only [PiLp.inner_apply, PlanarSystem.tangent_apply, RCLike.inner_apply, conj_trivial, Finset.sum_mul, Finset.mul_sum]
  rw [Finset.sum_comm]
  refine Finset.sum_congr rfl fun j _ => Finset.sum_congr rfl fun j' _ => ?_
  rw [hsym j' j]; ring

omit [Fintype J] in
theorem rest (hB : Body P) (hp : ∀ q ∈ P.Q, Constants (S q) (p q)) {q : κ} (hq : q ∈ P.Q) :
    resultant (solids S p q) r (P.t q) 0 (P.ori q) (P.ori q) = fun _ => 0 := by
  funext k
  have hJ : jdet (P.ori q) ≠ 0 := (hB q hq).1
  have hm := PlanarSystem.metric_metric hJ
  rw [PlanarSystem.resultant_eq _ r _ hJ hJ]
  have hz : ∀ i j, i ≠ 2 → j ≠ 2 →
      (solids S p q).stress (Hyper.data (AcovPlanar (P.ori q)) (AcovPlanar (P.ori q))) i j = 0 := by
    intro i j hi hj
    show (S q).stress (p q) (cdata _ (exact (S q) (p q) _)) i j = 0
    rw [exact_rest (positive_of (hp q hq)) hm]
    exact stress_rest (S q) (p q) hm i j (.inl ⟨hi, hj⟩)
  rcases fin3_cases k with rfl | rfl | rfl <;> simp [ShellTangent.stressV, hz]

/-- **C161** Without prescribed displacements the undeformed state carries no internal forces, and the
matrix of the linear problem is the tangent there; its moduli are those of plane stress with the given
Young's modulus and Poisson's ratio. -/
theorem C161_linear (hB : Body P) (hp : ∀ q ∈ P.Q, Constants (S q) (p q)) (hpre : P.pre = P.ori) :
    (∀ j, residual P (solids S p) r 0 j = P.F j) ∧
    (∀ j j', entry P (solids S p) r 0 j j' = linearEntry P (solids S p) r j j') ∧
    ∀ q ∈ P.Q, ∀ i j k l, (solids S p q).tangent (Hyper.data (gram (P.ori q)) (gram (P.ori q))) (up i) (up j) (up k) (up l)
      = hooke (p q).E (p q).ν (inv2 (gram (P.ori q))) i j k l := by
  have hd : ∀ q, deformed P 0 q = P.ori q := fun q => by rw [PlanarSystem.deformed_zero, hpre]
  refine ⟨fun j => ?_, fun j j' => ?_, fun q hq i j k l => ?_⟩
  · show (∑ q ∈ P.Q, _) + _ = _
    rw [Finset.sum_eq_zero fun q hq => ?_, zero_add]
    rw [forces, hd, rest P r S p hB hp hq]
    simp [Planar.internalForce, dotV]
  · refine Finset.sum_congr rfl fun q hq => ?_
    rw [forces, moduli, hd, rest P r S p hB hp hq]
    simp [Planar.stiffness, Planar.EmDer2]
  · have hm := PlanarSystem.metric_metric (hB q hq).1
    rw [PlanarSystem.gram_eq]
    show condense ((S q).tangent (p q) (cdata _ (exact (S q) (p q) _))) _ _ _ _ = _
    rw [exact_rest (positive_of (hp q hq)) hm]
    exact rest_hooke (hp q hq) hm i j k l

theorem near (hB : Body P) (hp : ∀ q ∈ P.Q, Constants (S q) (p q)) {x : EuclideanSpace ℝ J} (hx : x ∈ Admissible P) :
    (∀ᶠ y in 𝓝 x, HasFDerivAt (residual P (solids S p) r) (-tangent P (solids S p) r y) y) ∧
    ContDiffAt ℝ 2 (residual P (solids S p) r) x :=
  ⟨Filter.mem_of_superset (PlanarSystem.admissible_nhds P hx) fun _ hy => (C161_tangent P r S p hB hp hy).1,
    PlanarSystem.residual_smooth (body_sheet hB hp) hx⟩

/-- Non-vacuity of the hypotheses: a stretched strip of extended neo-Hookean material. -/
example : Body (strip 0) ∧ Constants .extended ⟨2, 1 / 4, 1⟩ ∧ (EuclideanSpace.single () (1 : ℝ)) ∈ Admissible (strip 0) ∧
    (∑ _j : Fin 1, (1 : ℝ)) = 1 ∧ (strip 0).pre = (strip 0).ori :=
  ⟨PlanarSystem.strip_body 0, ⟨by norm_num, by norm_num, by norm_num, fun h => by simp at h, fun _ => by norm_num⟩,
    PlanarSystem.strip_admissible 0 _ (by simp), by simp, rfl⟩

/-! ## Stability -/

/-- **C161** A sheet in tension everywhere whose moduli are positive definite, held such that no
displacement is without strain in the deformed state: the tangent is positive definite and regular, and a
state of equilibrium is stable, a strict local minimum of the potential.  The moduli of the extended
neo-Hookean material are positive definite in all states. -/
theorem C161_tension (hB : Body P) (hp : ∀ q ∈ P.Q, Constants (S q) (p q)) (hr : ∑ j, r.w j = 1)
    {x : EuclideanSpace ℝ J} (hx : x ∈ Admissible P)
    (hs : ∀ q ∈ P.Q, S q ≠ .extended → PosMat (moduli P (solids S p) r x q))
    (hn : ∀ q ∈ P.Q, Tension (forces P (solids S p) r x q)) (hH : Held P (deformed P x)) :
    (∀ v : J → ℝ, v ≠ 0 → 0 < ∑ j, ∑ j', v j * entry P (solids S p) r x j j' * v j') ∧
    Function.Injective (tangent P (solids S p) r x) ∧
    (residual P (solids S p) r x = 0 →
      ∃ ρ > 0, ∀ y, y ≠ x → ‖y - x‖ ≤ ρ → potential P (densities S p) x < potential P (densities S p) y) := by
  have hs' : ∀ q ∈ P.Q, PosMat (moduli P (solids S p) r x q) := by
    intro q hq
    by_cases h : S q = .extended
    · have hJ : jdet (P.ori q) ≠ 0 := (hB q hq).1
      have hK : jdet (deformed P x q) ≠ 0 := hx q hq
      refine PlanarSystem.posMat_mul (c := PlanarSystem.weight r (P.t q)) ?_
        (fun i j => PlanarSystem.modulus_eq _ r _ hJ hK i j) ?_
      · rw [PlanarSystem.weight, ← Finset.sum_mul, hr, one_mul]; exact (hB q hq).2.1
      · have hc := hp q hq
        have hA := PlanarSystem.metric_metric hJ
        have hC := PlanarSystem.metric_metric hK
        have he := exact_spec (positive_of hc) (tr_pos hA hC) (ratio_pos hA hC)
        show PosMat (fillMatrix (condense ((S q).tangent (p q) (cdata _ (exact (S q) (p q) _)))))
        rw [h] at he hc ⊢
        exact (PosDef.C126_extended (p q) hc.modulus (hc.sign rfl) hc.upper hA hC _ he.1 he.2).2
    · exact hs q hq h
  have hd := PlanarSystem.definite (P := P) (M := solids S p) (r := r) (x := x) (fun q hq => (hB q hq).2.2) hs' hn hH
  obtain ⟨h1, h2⟩ := near P r S p hB hp hx
  refine ⟨hd, PlanarSystem.injective_of hd, fun h0 => Solve.local_min
    (Filter.mem_of_superset (PlanarSystem.admissible_nhds P hx) fun y hy => C161_gradient P r S p hB hp hr hy) h2 h1 h0 fun v hv => ?_⟩
  rw [PlanarSystem.inner_form]
  exact hd v.ofLp (fun h => hv (by ext j; exact congrFun h j))

/-! ## Newton's method -/

/-- **C161** Around an equilibrium with a regular tangent there is a ball such that the programs, started
with a linear solution in this ball, stop by themselves with a solution that is right up to a constant
times the square of the tolerance. -/
theorem C161_newton (hB : Body P) (hp : ∀ q ∈ P.Q, Constants (S q) (p q)) {xs : EuclideanSpace ℝ J} (hx : xs ∈ Admissible P)
    (h0 : residual P (solids S p) r xs = 0) (hi : Function.Injective (tangent P (solids S p) r xs)) :
    ∃ ρ C : ℝ, 0 < ρ ∧ ∀ (s : Solve.Sys (EuclideanSpace ℝ J)) (solve : _ → EuclideanSpace ℝ J → EuclideanSpace ℝ J),
      Assembles s (residual P (solids S p) r) (tangent P (solids S p) r) (Admissible P) →
      Solver solve → ‖solve s.K0 s.F - xs‖ ≤ ρ →
      ∃ res, Solve.program s solve = .ok res ∧ res.broke = true ∧ ‖res.x - xs‖ ≤ C * (1 / 10 ^ 6) ^ 2 := by
  obtain ⟨h1, h2⟩ := near P r S p hB hp hx
  exact Solve.local_newton h2 h1 hi h0 (PlanarSystem.admissible_nhds P hx)

/-! ## Small loads -/

/-- **C161** A sheet held such that no displacement is without strain, under small loads: the nonlinear
problem has one solution close to the undeformed state, it differs from the solution of the linear problem
by the square of the load, and the programs find it. -/
theorem C161_small (hB : Body P) (hp : ∀ q ∈ P.Q, Constants (S q) (p q)) (hpre : P.pre = P.ori) (hr : ∑ j, r.w j = 1)
    (hH : Held P P.ori) :
    ∃ l₀ ρ C : ℝ, 0 < l₀ ∧ 0 < ρ ∧ ∀ l : ℝ, |l| ≤ l₀ →
      ∃ xs ∈ Admissible P, residual (P.scale l) (solids S p) r xs = 0 ∧
      (∀ x, ‖x‖ ≤ ρ → residual (P.scale l) (solids S p) r x = 0 → x = xs) ∧
      (∃ xl : EuclideanSpace ℝ J,
        (∀ j, ∑ j', linearEntry P (solids S p) r j j' * xl j' = l * P.F j) ∧ ‖xs - xl‖ ≤ C * l ^ 2) ∧
      ∀ (s : Solve.Sys (EuclideanSpace ℝ J)) (solve : _ → _ → EuclideanSpace ℝ J),
        Assembles s (residual (P.scale l) (solids S p) r) (tangent P (solids S p) r) (Admissible P) →
        (∀ v j, s.K0 v j = ∑ j', linearEntry P (solids S p) r j j' * v j') →
        (∀ j, s.F j = l * P.F j) → Solver solve →
        ∃ res, Solve.program s solve = .ok res ∧ res.broke = true ∧ ‖res.x - xs‖ ≤ C * (1 / 10 ^ 6) ^ 2 := by
  have hd0 : ∀ q, deformed P 0 q = P.ori q := fun q => by rw [PlanarSystem.deformed_zero, hpre]
  have hx0 : (0 : EuclideanSpace ℝ J) ∈ Admissible P := by
    intro q hq
    rw [hd0]; exact (hB q hq).1
  have hinj : Function.Injective (tangent P (solids S p) r 0) := by
    refine (C161_tension P r S p hB hp hr hx0 (fun q hq _ => ?_) (fun q hq => ?_) ?_).2.1
    · have hJ : jdet (P.ori q) ≠ 0 := (hB q hq).1
      have hm := PlanarSystem.metric_metric hJ
      rw [moduli, hd0]
      refine PlanarSystem.posMat_mul (c := PlanarSystem.weight r (P.t q)) ?_
        (fun i j => PlanarSystem.modulus_eq _ r _ hJ hJ i j) ?_
      · rw [PlanarSystem.weight, ← Finset.sum_mul, hr, one_mul]; exact (hB q hq).2.1
      · show PosMat (fillMatrix (condense ((S q).tangent (p q) (cdata _ (exact (S q) (p q) _)))))
        rw [exact_rest (positive_of (hp q hq)) hm]
        exact rest_positive (hp q hq) hm
    · rw [forces, hd0, rest P r S p hB hp hq]
      simp [Tension]
    · rw [show deformed P 0 = P.ori from funext hd0]; exact hH
  let Fv : EuclideanSpace ℝ J := WithLp.toLp 2 P.F
  have hres : ∀ l x, residual (P.scale l) (solids S p) r x = residual (P.scale 0) (solids S p) r x + l • Fv := by
    intro l x
    ext j
    show (∑ q ∈ P.Q, _) + l * P.F j = ((∑ q ∈ P.Q, _) + 0 * P.F j) + l * P.F j
    rw [zero_mul, add_zero]
    rfl
  have hlin : ∀ (v : EuclideanSpace ℝ J) j, (tangent P (solids S p) r 0 v) j
      = ∑ j', linearEntry P (solids S p) r j j' * v j' := by
    intro v j
    rw [PlanarSystem.tangent_apply]
    exact Finset.sum_congr rfl fun j' _ => by rw [(C161_linear P r S p hB hp hpre).2.1 j j']
  obtain ⟨h1, h2⟩ := near (P.scale 0) r S p hB hp (x := 0) hx0
  have h0 : residual (P.scale 0) (solids S p) r 0 = 0 := by
    ext j
    rw [(C161_linear (P.scale 0) r S p hB hp hpre).1 j]
    exact zero_mul _
  obtain ⟨xl, hxl⟩ : ∃ xl, tangent P (solids S p) r 0 xl = Fv :=
    (LinearMap.injective_iff_surjective (f := (tangent P (solids S p) r 0 :
      EuclideanSpace ℝ J →ₗ[ℝ] EuclideanSpace ℝ J))).1 hinj Fv
  obtain ⟨l₀, ρ, C, hl0, hρ, hall⟩ := Solve.small_loads h2 h1 hinj h0 (PlanarSystem.admissible_nhds P hx0) Fv xl hxl
  refine ⟨l₀, ρ, C, hl0, hρ, fun l hl => ?_⟩
  obtain ⟨xs, hxs, e1, e2, e3, e4⟩ := hall l hl
  refine ⟨xs, hxs, (hres l xs).trans e1, fun x hx h => e3 x hx ((hres l x).symm.trans h), ⟨l • xl, fun j => ?_, e2⟩,
    fun s solve ha hk hb hsol => ?_⟩
  · rw [← hlin, map_smul, hxl]; rfl
  · refine e4 s solve ⟨fun x hx => ?_, ha.jacobian⟩ hsol ?_ ?_
    · rw [ha.residual x hx]; exact congrArg some (hres l x)
    · ext v j
      rw [hk v j]; exact (hlin v j).symm
    · ext j
      rw [hb j]; rfl

/-- Non-vacuity of the hypothesis on the supports. -/
example : Held (strip 1) (strip 1).ori := by
  have h := PlanarSystem.strip_held 1 0 (by simp)
  rwa [show deformed (strip 1) 0 = (strip 1).ori from funext fun q => PlanarSystem.deformed_zero (strip 1) q] at h

/-! ## The computed thickness -/

/-- **C161** Partial: with the thickness stretches as computed the residual of a sheet of extended
neo-Hookean material is the exact one up to `10⁻¹⁰` times the compressibility, if the area ratios are
moderate and the material is not nearly incompressible.  What is missing: the tangent with the computed
stretches, and the two other materials; C163 treats both, but close to the undeformed state only. -/
theorem C161_close_partial (hB : Body P) (hS : ∀ q ∈ P.Q, S q = .extended) (hp : ∀ q ∈ P.Q, Constants (S q) (p q))
    (hr : ∑ j, r.w j = 1) (hinc : ∀ q ∈ P.Q, (p q).lam ≤ 10 ^ 6 * (p q).mu)
    {x : EuclideanSpace ℝ J} (hx : x ∈ Admissible P)
    (he : ∀ q ∈ P.Q, 2 * (p q).mu * |det2 (gram (deformed P x q)) / det2 (gram (P.ori q)) - 1|
      ≤ det2 (gram (deformed P x q)) / det2 (gram (P.ori q)) * ((p q).mu + (p q).lam / 2)) :
    (∀ q ∈ P.Q, ∃ y, computed (S q) (p q) (Hyper.data (gram (P.ori q)) (gram (deformed P x q))) = .ok y) ∧
    ∀ ξ : κ → Data → ℝ, (∀ q ∈ P.Q, computed (S q) (p q) (Hyper.data (gram (P.ori q)) (gram (deformed P x q)))
        = .ok (ξ q (Hyper.data (gram (P.ori q)) (gram (deformed P x q))))) →
      ∀ j, |residual P (fun q => material (S q) (p q) (ξ q)) r x j - residual P (solids S p) r x j|
        ≤ 1 / 10 ^ 10 * ∑ q ∈ P.Q, P.t q * (p q).lam * (det2 (gram (deformed P x q)) / det2 (gram (P.ori q)))
          * |∑ i, ∑ k, inv2 (gram (deformed P x q)) i k * dot2 (deformed P x q i) (P.field q j k)| * P.μ q := by
  have hf : ∀ q ∈ P.Q, ∃ y, computed (S q) (p q) (Hyper.data (gram (P.ori q)) (gram (deformed P x q))) = .ok y ∧
      |y - exact (S q) (p q) (Hyper.data (gram (P.ori q)) (gram (deformed P x q)))| ≤ 2 / 10 ^ 10 := by
    intro q hq
    have hA := PlanarSystem.metric_metric (hB q hq).1
    have hC := PlanarSystem.metric_metric (hx q hq)
    have hc := hp q hq
    have hpo := positive_of hc
    have e1 := he q hq
    rw [hS q hq] at hpo ⊢
    rw [PlanarSystem.gram_eq, PlanarSystem.gram_eq] at e1 ⊢
    obtain ⟨y, z, h1, -, h3, h4, h5⟩ := PlaneStress.C127_found_partial (p q) hpo.1 hpo.2 hA hC (hinc q hq) e1
    refine ⟨y, h1, ?_⟩
    rw [exact_unique hpo hA hC h3 h4]
    exact h5
  refine ⟨fun q hq => ⟨_, (hf q hq).choose_spec.1⟩, fun ξ hξ j => ?_⟩
  show |(_ + P.F j) - (_ + P.F j)| ≤ _
  rw [add_sub_add_right_eq_sub, ← Finset.sum_sub_distrib, Finset.mul_sum]
  refine (Finset.abs_sum_le_sum_abs _ _).trans (Finset.sum_le_sum fun q hq => ?_)
  have hJ : jdet (P.ori q) ≠ 0 := (hB q hq).1
  have hK : jdet (deformed P x q) ≠ 0 := hx q hq
  obtain ⟨y, h1, h2⟩ := hf q hq
  have hy : ξ q (Hyper.data (gram (P.ori q)) (gram (deformed P x q))) = y := Outcome.ok.inj ((hξ q hq).symm.trans h1)
  have hw : PlanarSystem.weight r (P.t q) = P.t q := by rw [PlanarSystem.weight, ← Finset.sum_mul, hr, one_mul]
  have hμ := (hB q hq).2.2
  have ht := (hB q hq).2.1
  have hl : 0 ≤ (p q).lam := by
    have := positive_of (hp q hq)
    rw [hS q hq] at this
    exact this.2
  set e := exact (S q) (p q) (Hyper.data (gram (P.ori q)) (gram (deformed P x q))) with hedef
  set R := det2 (gram (deformed P x q)) / det2 (gram (P.ori q)) with hR
  have hRp : 0 < R := by
    rw [hR, PlanarSystem.gram_eq, PlanarSystem.gram_eq]
    exact ratio_pos (PlanarSystem.metric_metric hJ) (PlanarSystem.metric_metric hK)
  have hsym : inv2 (gram (deformed P x q)) 1 0 = inv2 (gram (deformed P x q)) 0 1 := by
    simp [inv2, gram, mul_comm]
  have key : Planar.internalForce (deformed P x q) (P.field q j) (forces P (fun q => material (S q) (p q) (ξ q)) r x q) * P.μ q
      - Planar.internalForce (deformed P x q) (P.field q j) (forces P (solids S p) r x q) * P.μ q
      = -(P.t q * ((p q).lam / 2) * R * (y - e)
        * (∑ i, ∑ k, inv2 (gram (deformed P x q)) i k * dot2 (deformed P x q i) (P.field q j k)) * P.μ q) := by
    have hst : ∀ a b : Fin 2, (S q).stress (p q) (cdata (Hyper.data (gram (P.ori q)) (gram (deformed P x q))) y) (up a) (up b)
        - (S q).stress (p q) (cdata (Hyper.data (gram (P.ori q)) (gram (deformed P x q))) e) (up a) (up b)
        = (p q).lam / 2 * R * (y - e) * inv2 (gram (deformed P x q)) a b := by
      intro a b
      rw [hS q hq]
      rcases fin2_cases a with rfl | rfl <;> rcases fin2_cases b with rfl | rfl <;>
        simp [Solid.stress, sNHe, cdata, withThickness, Hyper.data, embed, up, hR] <;> ring
    have e0 := hst 0 0
    have e1 := hst 1 1
    have e2 := hst 0 1
    simp only [up_zero, up_one] at e0 e1 e2
    simp only [Planar.internalForce, dotV, Fin.sum_univ_three, Fin.sum_univ_two, forces,
      PlanarSystem.resultant_eq _ r _ hJ hK, ← PlanarSystem.gram_eq, hw]
    simp only [ShellTangent.stressV, vec3_zero, vec3_one, vec3_two, Planar.EmDer, material, hy, ← hedef, hsym]
    linear_combination (-P.t q * P.μ q) * (dot2 (deformed P x q 0) (P.field q j 0) * e0
      + dot2 (deformed P x q 1) (P.field q j 1) * e1
      + (dot2 (deformed P x q 0) (P.field q j 1) + dot2 (deformed P x q 1) (P.field q j 0)) * e2)
  rw [key, abs_neg, abs_mul, abs_mul, abs_mul, abs_of_pos hμ, abs_of_nonneg (by positivity : 0 ≤ P.t q * ((p q).lam / 2) * R)]
  have h3 : P.t q * ((p q).lam / 2) * R * |y - e| ≤ P.t q * ((p q).lam / 2) * R * (2 / 10 ^ 10) :=
    mul_le_mul_of_nonneg_left h2 (by positivity)
  calc _ ≤ P.t q * ((p q).lam / 2) * R * (2 / 10 ^ 10)
        * |∑ i, ∑ k, inv2 (gram (deformed P x q)) i k * dot2 (deformed P x q i) (P.field q j k)| * P.μ q :=
        mul_le_mul_of_nonneg_right (mul_le_mul_of_nonneg_right h3 (abs_nonneg _)) hμ.le
    _ = _ := by ring

/-- Non-vacuity: the strip stretched by a quarter. -/
example : (⟨2, 1 / 4, 1⟩ : Par).lam ≤ 10 ^ 6 * (⟨2, 1 / 4, 1⟩ : Par).mu ∧
    2 * (⟨2, 1 / 4, 1⟩ : Par).mu * |det2 (gram (deformed (strip 0) (EuclideanSpace.single () (1 / 4)) ()))
        / det2 (gram ((strip 0).ori ())) - 1|
      ≤ det2 (gram (deformed (strip 0) (EuclideanSpace.single () (1 / 4)) ())) / det2 (gram ((strip 0).ori ()))
        * ((⟨2, 1 / 4, 1⟩ : Par).mu + (⟨2, 1 / 4, 1⟩ : Par).lam / 2) := by
  rw [PlanarSystem.strip_deformed]
  refine ⟨by norm_num [Par.mu, Par.lam], ?_⟩
  norm_num [Par.mu, Par.lam, det2, gram, strip, unitJac, Fin.sum_univ_two]

/-- The iteration for `a - b/c` stops with the error once the relative error is at least two. -/
theorem loop_throws {S T : ℝ → ℝ} {a b : ℝ} (ha : 0 < a) (hb : 0 < b) (hab : a ≤ b)
    (hS : ∀ c, c ≠ 0 → S c = a - b / c) (hT : ∀ c, c ≠ 0 → T c = 2 * b / c ^ 2) :
    ∀ (n : ℕ) (c : ℝ), c ≠ 0 → 2 ≤ |1 - a / b * c| → Newton.loop S T n c (Newton.step S T c) = .throws := by
  intro n
  induction n with
  | zero => intro c _ _; rfl
  | succ n ih =>
    intro c hc he
    rw [Newton.loop_succ]
    have e1 := Newton.iter_error hb.ne' hS hT hc
    have e2 : Newton.iter S T c = c + Newton.step S T c := rfl
    rw [e2] at e1
    set c' := c + Newton.step S T c with hc'
    have h1 : 4 ≤ (1 - a / b * c) ^ 2 := by
      rw [← sq_abs]; nlinarith [abs_nonneg (1 - a / b * c)]
    have hq : 0 < a / b := by positivity
    have hq1 : a / b ≤ 1 := (div_le_one hb).2 hab
    have h2 : a / b * c' ≤ -3 := by linarith
    have h3 : c' ≤ -3 := by
      by_contra hcon
      push Not at hcon
      rcases le_or_gt 0 c' with h | h
      · have := mul_nonneg hq.le h; linarith
      · nlinarith
    have h0 : c' ≠ 0 := by linarith
    have hT0 : T c' ≠ 0 := by rw [hT c' h0]; positivity
    have hstep : Newton.step S T c' = c' - a / b * c' * c' := by
      rw [Newton.step, hS c' h0, hT c' h0]
      field_simp
      ring
    have hbig : ¬ |Newton.step S T c'| < Newton.tol := by
      rw [hstep, not_lt, abs_of_neg (by nlinarith)]
      have : Newton.tol ≤ 1 := by norm_num [Newton.tol]
      nlinarith
    rw [if_neg (by push Not; exact ⟨h0, hT0⟩), if_neg hbig]
    by_cases hn : n = 0
    · rw [if_pos hn]
    rw [if_neg hn]
    refine ih c' h0 ?_
    rw [e1, abs_of_nonneg (by positivity)]
    linarith

/-- **C161** Violation: in every state of the extended neo-Hookean material with an area ratio that
satisfies `J² (3μ + λ) ≤ μ` the iteration for the thickness ends with the error "Method did not converge",
although the sheet there has a thickness without stress and its potential has a gradient; such a state is
the strip shortened sufficiently. -/
theorem C161_compressed_violated (p : Par) (h : Constants .extended p) :
    (∀ A C : T2, Metric A → Metric C → det2 C / det2 A * (3 * p.mu + p.lam) ≤ p.mu →
      computed .extended p (Hyper.data A C) = .throws ∧
      ∃ x, 0 < x ∧ Solid.extended.stress p (cdata (Hyper.data A C) x) 2 2 = 0) ∧
    ∃ x ∈ Admissible (strip 0), 0 < 1 + x () ∧
      HasGradientAt (potential (strip 0) (densities (fun _ => .extended) fun _ => p))
        (-residual (strip 0) (solids (fun _ => .extended) fun _ => p) ⟨1, fun _ => 0, fun _ => 1⟩ x) x ∧
      computed .extended p (Hyper.data (gram ((strip 0).ori ())) (gram (deformed (strip 0) x ()))) = .throws := by
  obtain ⟨hmu, hl⟩ := positive_of h
  have hgen : ∀ A C : T2, Metric A → Metric C → det2 C / det2 A * (3 * p.mu + p.lam) ≤ p.mu →
      computed .extended p (Hyper.data A C) = .throws ∧
      ∃ x, 0 < x ∧ Solid.extended.stress p (cdata (Hyper.data A C) x) 2 2 = 0 := by
    intro A C hA hC hJ
    refine ⟨?_, _, exact_spec (positive_of h) (tr_pos hA hC) (ratio_pos hA hC)⟩
    have hj : 0 < (Hyper.data A C).J0 := PlaneStress.J0_pos hA hC
    have ha : 0 < p.mu + p.lam * (Hyper.data A C).J0 / 2 := by positivity
    have hb : 0 < p.mu + p.lam / 2 := by positivity
    have e3 : det2 C / det2 A = (Hyper.data A C).J0 := rfl
    rw [e3] at hJ
    have hj1 : (Hyper.data A C).J0 ≤ 1 := by
      have : (Hyper.data A C).J0 * p.mu ≤ 1 * p.mu := by nlinarith
      exact le_of_mul_le_mul_right this hmu
    show Newton.c33Of (sNHe p) (cNHe p) (Hyper.data A C) = .throws
    unfold Newton.c33Of Newton.c33
    rw [if_neg]
    · refine loop_throws ha hb ?_ (fun c hc => Newton.NHe_S p A C hc) (fun c hc => Newton.NHe_T p A C hc) _ _
        (by positivity) ?_
      · nlinarith
      · rw [le_abs]
        right
        rw [show -(1 - (p.mu + p.lam * (Hyper.data A C).J0 / 2) / (p.mu + p.lam / 2) * (1 / (Hyper.data A C).J0))
          = (p.mu + p.lam * (Hyper.data A C).J0 / 2) / ((p.mu + p.lam / 2) * (Hyper.data A C).J0) - 1 by
            field_simp; ring]
        have : 3 ≤ (p.mu + p.lam * (Hyper.data A C).J0 / 2) / ((p.mu + p.lam / 2) * (Hyper.data A C).J0) := by
          rw [le_div_iff₀ (by positivity)]
          nlinarith
        linarith
    · push Not
      refine ⟨hj.ne', ?_⟩
      rw [Newton.NHe_T p A C (by positivity)]
      positivity
  refine ⟨hgen, ?_⟩
  have hpos : 0 < p.mu / (3 * p.mu + p.lam) := by positivity
  set σ := Real.sqrt (p.mu / (3 * p.mu + p.lam)) with hσ
  have hσp : 0 < σ := Real.sqrt_pos.2 hpos
  have hx : (1 : ℝ) + (EuclideanSpace.single () (σ - 1) : EuclideanSpace ℝ Unit) () = σ := by simp
  have hadm := PlanarSystem.strip_admissible 0 (EuclideanSpace.single () (σ - 1)) (by rw [hx]; exact hσp.ne')
  refine ⟨_, hadm, by rw [hx]; exact hσp, C161_gradient (strip 0) _ _ _ (PlanarSystem.strip_body 0) (fun _ _ => h) (by simp) hadm, ?_⟩
  have hA : Metric (gram ((strip 0).ori ())) := by
    rw [PlanarSystem.gram_eq]; exact PlanarSystem.metric_metric (PlanarSystem.strip_body 0 () (by simp [strip])).1
  have hC : Metric (gram (deformed (strip 0) (EuclideanSpace.single () (σ - 1)) ())) := by
    rw [PlanarSystem.gram_eq]; exact PlanarSystem.metric_metric (hadm () (by simp [strip]))
  refine (hgen _ _ hA hC ?_).1
  have hd : det2 (gram (deformed (strip 0) (EuclideanSpace.single () (σ - 1)) ())) / det2 (gram ((strip 0).ori ()))
      = p.mu / (3 * p.mu + p.lam) := by
    rw [PlanarSystem.strip_deformed, ← Real.sq_sqrt hpos.le, ← hσ]
    simp [det2, gram, strip, unitJac, sq]
  rw [hd, div_mul_cancel₀ _ (by positivity)]

/-- Non-vacuity: admissible constants. -/
example : Constants .extended ⟨2, 1 / 4, 1⟩ :=
  ⟨by norm_num, by norm_num, by norm_num, fun h => by simp at h, fun _ => by norm_num⟩

end Verif.PlaneSheet
