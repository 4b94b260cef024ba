import Verif.Lemmas.DWRShell

/-! # Property C153: accuracy of the error estimate of a nonlinear shell -/

namespace Verif.DWR

open V3 Verif.Geometry Verif.Variation Verif.Balance Verif.ShellSystem Spec.ShellSystem
open Filter Topology RealInnerProductSpace

section General

variable {n : ℕ} {κ β γ : Type} [DecidableEq κ] (D : Fine n κ β γ) (r : Integrate.Rule) (E ν τ : ℝ)

theorem fine_near {x : EuclideanSpace ℝ (Fin n)} (hx : x ∈ Admissible D.problem) :
    (∀ᶠ y in 𝓝 x, HasFDerivAt (ShellSystem.residual D.problem (D.law r E ν τ))
      (-tangent D.problem (D.law r E ν τ) y) y) ∧
    ContDiffAt ℝ 2 (ShellSystem.residual D.problem (D.law r E ν τ)) x :=
  ShellSystem.near D.problem r (fun _ => E) (fun _ => ν) (fun _ => τ) hx

theorem fine_symm {x : EuclideanSpace ℝ (Fin n)} (hx : x ∈ Admissible D.problem) (u v : EuclideanSpace ℝ (Fin n)) :
    ⟪tangent D.problem (D.law r E ν τ) x u, v⟫ = ⟪u, tangent D.problem (D.law r E ν τ) x v⟫ :=
  (ShellSystem.C149_tangent D.problem r (fun _ => E) (fun _ => ν) (fun _ => τ) hx).2.2 u v

/-- Loads enter the residual as a constant. -/
theorem loaded_residual (force : κ → V3) (gN : β → V3) (load : γ → LoadAt) (x y : EuclideanSpace ℝ (Fin n)) :
    ShellSystem.residual (D.loaded force gN load).problem (D.law r E ν τ) x
      - ShellSystem.residual (D.loaded force gN load).problem (D.law r E ν τ) y
      = ShellSystem.residual D.problem (D.law r E ν τ) x - ShellSystem.residual D.problem (D.law r E ν τ) y := by
  ext j
  let S : EuclideanSpace ℝ (Fin n) → ℝ := fun x => ∑ q ∈ D.problem.Q, internalForce (deformed D.problem x q)
    (D.field q j) (D.law r E ν τ q (deformed D.problem x q)).N (D.law r E ν τ q (deformed D.problem x q)).M
      * D.problem.μ q
  show (S x + (D.loaded force gN load).rhs j) - (S y + (D.loaded force gN load).rhs j)
    = (S x + D.rhs j) - (S y + D.rhs j)
  ring

/-- **C153** Near a state with a regular tangent there is a constant such that for all dead loads, all
coarser bases contained in the finer one, all solutions `x` of the coarser and `y` of the finer problem:
the estimate differs from the true change of the goal by at most the constant times the square of the
distance of the two solutions.  The dual of the coarser basis may be anything.  Missing: goals with
principal directions, goals on boundaries and points; pressure and foundation; loads without
`withLoads`. -/
theorem C153_quadratic_partial (hnd : D.elems.flatten.Nodup) (g : Goal) (hg : Direct g) (c : ℕ) (hc : Comp3 c)
    {xs : EuclideanSpace ℝ (Fin n)} (hx : xs ∈ Admissible D.problem)
    (hi : Function.Injective (tangent D.problem (D.law r E ν τ) xs)) :
    ∃ C ρ : ℝ, 0 < ρ ∧ ∀ (force : κ → V3) (gN : β → V3) (load : γ → LoadAt) (m : ℕ) (A : Fin m → Fin n → ℝ)
      (x y : EuclideanSpace ℝ (Fin n)), ‖x - xs‖ ≤ ρ → ‖y - xs‖ ≤ ρ →
      SolvesCoarse (D.loaded force gN load) (D.law r E ν τ) A x →
      SolvesFine (D.loaded force gN load) (D.law r E ν τ) y →
      ∀ (zL : Fin m → ℝ) (zH : Fin n → ℝ), SolvesDual D r E ν τ g c x zH →
      ∀ (wl : Bool), (wl = true ∨ D.loads = [] ∧ D.bdr = []) → ∀ res : Result,
      ∃ e d, totalError false .shell wl ((D.loaded force gN load).setup (D.law r E ν τ) x)
          (coarse (D.loaded force gN load) A zL) (comb zH D.basis) res = .ok e ∧
        GoalChange D E ν τ g c x y d ∧ |d - e| ≤ C * ‖y - x‖ ^ 2 := by
  obtain ⟨h1, h2⟩ := fine_near D r E ν τ hx
  obtain ⟨C, ρ, -, hρ, hsub, hall⟩ := dual_weighted h2 h1 hi (goalVal_smooth (D := D) E ν τ hg c hx)
    (admissible_nhds D.problem hx) fun x hx u v => fine_symm D r E ν τ hx u v
  refine ⟨C, ρ, hρ, fun force gN load m A x y hxx hyy hcoarse hfine zL zH hz wl hw res => ?_⟩
  have hxb : x ∈ Metric.closedBall xs ρ := by simpa [dist_eq_norm] using hxx
  have hyb : y ∈ Metric.closedBall xs ρ := by simpa [dist_eq_norm] using hyy
  have hxa : x ∈ Admissible D.problem := hsub hxb
  have key := (hall x hxb).2 y hyb (WithLp.toLp 2 zH) fun v => dual_fderiv r E ν τ hg hc hxa hz v
  have hy0 : ShellSystem.residual (D.loaded force gN load).problem (D.law r E ν τ) y = 0 := by
    ext j; exact hfine j
  rw [← loaded_residual D r E ν τ force gN load, hy0, sub_zero] at key
  exact ⟨_, _, estimate_eq (D := D.loaded force gN load) hnd hxa hcoarse zL zH res hw,
    ⟨_, _, fine_goal E ν τ hg hc x, fine_goal E ν τ hg hc y, rfl⟩, key⟩

/-- **C153** If the goal is sensitive to the error of the coarser solution, the ratio of the estimate
and the true change of the goal (the efficiency) tends to one, linearly in the distance of the
solutions. -/
theorem C153_efficiency_partial (hnd : D.elems.flatten.Nodup) (g : Goal) (hg : Direct g) (c : ℕ) (hc : Comp3 c)
    {xs : EuclideanSpace ℝ (Fin n)} (hx : xs ∈ Admissible D.problem)
    (hi : Function.Injective (tangent D.problem (D.law r E ν τ) xs)) {s : ℝ} (hs : 0 < s) :
    ∃ C ρ : ℝ, 0 < ρ ∧ ∀ (force : κ → V3) (gN : β → V3) (load : γ → LoadAt) (m : ℕ) (A : Fin m → Fin n → ℝ)
      (x y : EuclideanSpace ℝ (Fin n)), ‖x - xs‖ ≤ ρ → ‖y - xs‖ ≤ ρ → x ≠ y →
      SolvesCoarse (D.loaded force gN load) (D.law r E ν τ) A x →
      SolvesFine (D.loaded force gN load) (D.law r E ν τ) y →
      ∀ (zL : Fin m → ℝ) (zH : Fin n → ℝ), SolvesDual D r E ν τ g c x zH →
      ∀ (wl : Bool), (wl = true ∨ D.loads = [] ∧ D.bdr = []) → ∀ (res : Result) (d : ℝ),
      GoalChange D E ν τ g c x y d → s * ‖y - x‖ ≤ |d| →
      ∃ e, totalError false .shell wl ((D.loaded force gN load).setup (D.law r E ν τ) x)
          (coarse (D.loaded force gN load) A zL) (comb zH D.basis) res = .ok e ∧ |e / d - 1| ≤ C * ‖y - x‖ := by
  obtain ⟨C, ρ, hρ, h⟩ := C153_quadratic_partial D r E ν τ hnd g hg c hc hx hi
  refine ⟨C / s, ρ, hρ, fun force gN load m A x y h1 h2 hne h3 h4 zL zH h5 wl h6 res d hd hsd => ?_⟩
  obtain ⟨e, d', he, hd', hb⟩ := h force gN load m A x y h1 h2 h3 h4 zL zH h5 wl h6 res
  have hdd : d' = d := by
    obtain ⟨a, b, ha, hb', rfl⟩ := hd
    obtain ⟨a', b', ha', hb'', rfl⟩ := hd'
    rw [ha] at ha'; rw [hb'] at hb''
    rw [Outcome.ok.inj ha', Outcome.ok.inj hb'']
  subst hdd
  have hpos : 0 < ‖y - x‖ := norm_pos_iff.2 (sub_ne_zero.2 (Ne.symm hne))
  have hd0 : 0 < |d'| := lt_of_lt_of_le (mul_pos hs hpos) hsd
  refine ⟨e, he, ?_⟩
  have e1 : e / d' - 1 = -(d' - e) / d' := by
    field_simp [abs_pos.1 hd0]; ring
  rw [e1, abs_div, abs_neg, div_le_iff₀ hd0]
  refine hb.trans ?_
  have hC : 0 ≤ C := by
    have := (abs_nonneg _).trans hb
    exact nonneg_of_mul_nonneg_left this (by positivity)
  calc C * ‖y - x‖ ^ 2 = C / s * ‖y - x‖ * (s * ‖y - x‖) := by field_simp
    _ ≤ C / s * ‖y - x‖ * |d'| := mul_le_mul_of_nonneg_left hsd (by positivity)

/-- **C153** Near such a state the dual problem of the finer basis has exactly one solution. -/
theorem C153_dual_partial (g : Goal) (hg : Direct g) (c : ℕ) (hc : Comp3 c)
    {xs : EuclideanSpace ℝ (Fin n)} (hx : xs ∈ Admissible D.problem)
    (hi : Function.Injective (tangent D.problem (D.law r E ν τ) xs)) :
    ∃ ρ > 0, ∀ x : EuclideanSpace ℝ (Fin n), ‖x - xs‖ ≤ ρ → ∃! z, SolvesDual D r E ν τ g c x z := by
  obtain ⟨h1, h2⟩ := fine_near D r E ν τ hx
  obtain ⟨C, ρ, -, hρ, hsub, hall⟩ := dual_weighted h2 h1 hi (goalVal_smooth (D := D) E ν τ hg c hx)
    (admissible_nhds D.problem hx) fun x hx u v => fine_symm D r E ν τ hx u v
  refine ⟨ρ, hρ, fun x hxx => ?_⟩
  have hxb : x ∈ Metric.closedBall xs ρ := by simpa [dist_eq_norm] using hxx
  have hinj := (hall x hxb).1
  choose d hd _ using fun j => goal_line (D := D) E ν τ hg hc (hsub hxb) j
  obtain ⟨z, hz⟩ := (LinearMap.injective_iff_surjective (f := (tangent D.problem (D.law r E ν τ) x :
      EuclideanSpace ℝ (Fin n) →ₗ[ℝ] EuclideanSpace ℝ (Fin n)))).1 hinj (WithLp.toLp 2 d)
  refine ⟨z.ofLp, fun j => ?_, fun w hw => ?_⟩
  · rw [hd j]
    congr 1
    exact (congrArg (fun v : EuclideanSpace ℝ (Fin n) => v j) hz).symm
  · have : tangent D.problem (D.law r E ν τ) x (WithLp.toLp 2 w) = tangent D.problem (D.law r E ν τ) x z := by
      refine Eq.trans ?_ hz.symm
      ext j
      have h := hw j
      rw [hd j] at h
      exact (Outcome.ok.inj h).symm
    exact congrArg WithLp.ofLp (hinj this)

end General

/-! ## An example -/

/-- A flat sheet with one quadrature point, one unknown (the stretch in the first direction, with value
one at the point) and a body force in this direction. -/
def strip (f : ℝ) : Fine 1 Unit Unit Unit where
  elems := [[()]]
  wt _ := 1
  ori _ := Plate.flatS
  pre _ := Plate.flatS
  X _ := 0
  pos _ := 0
  field _ _ := ⟨fun i => if i = 0 then ⟨1, 0, 0⟩ else 0, 0, 0, 0⟩
  val _ _ := ⟨1, 0, 0⟩
  force _ := ⟨f, 0, 0⟩
  bdr := []
  bwt _ := 0
  gN _ := 0
  tv _ := 0
  bval _ _ := 0
  loads := []
  load _ := ⟨0, fun _ => 0, 0⟩
  lval _ _ := 0
  boxes := []

/-- An integration rule with one point. -/
def onePoint : Integrate.Rule := ⟨1, fun _ => 0, fun _ => 2⟩

theorem strip_measure (f : ℝ) (q : Unit) : Variation.measure ((strip f).ori q) = 1 := by
  show V3.norm (cross (Plate.flatS.a 0) (Plate.flatS.a 1)) = 1
  rw [Plate.flat_cross]
  simp [V3.norm, dot]

theorem strip_deformed (f : ℝ) (x : EuclideanSpace ℝ (Fin 1)) :
    deformed (strip f).problem x () = deformed sheet (WithLp.toLp 2 fun _ => x 0) () := by
  unfold deformed
  congr 1

theorem strip_residual (f : ℝ) (x : EuclideanSpace ℝ (Fin 1)) (j : Fin 1) :
    ShellSystem.residual (strip f).problem ((strip f).law onePoint 1 0 1) x j
      = f - ((1 + x 0) ^ 2 - 1) / 2 * (1 + x 0) := by
  have h := sheet_residual (WithLp.toLp 2 fun _ => x 0)
  have hF : (strip f).rhs j = f := by
    have := strip_measure f ()
    simp [Fine.rhs, strip, dot] at this ⊢
    rw [this, mul_one]
  show (∑ q ∈ {()}, internalForce (deformed (strip f).problem x q) (sheet.field q ()) _ _
    * (1 * Variation.measure ((strip f).ori q))) + (strip f).rhs j = _
  have h2 : (∑ q ∈ {()}, internalForce (deformed sheet (WithLp.toLp 2 fun _ => x 0) q) (sheet.field q ()) _ _ * (1 : ℝ)) + 0
    = _ := h
  rw [Finset.sum_singleton, strip_deformed, strip_measure, one_mul, hF]
  rw [Finset.sum_singleton, add_zero] at h2
  have e : ∀ a b : ℝ, a = -b → a + f = f - b := by intros; linarith
  exact e _ _ h2

theorem strip_admissible (f : ℝ) : (0 : EuclideanSpace ℝ (Fin 1)) ∈ Admissible (strip f).problem := by
  intro q _
  rw [deformed_zero]
  exact indep_iff.2 (by show cross (Plate.flatS.a 0) (Plate.flatS.a 1) ≠ 0; rw [Plate.flat_cross]; simp [V3.ext_iff])

theorem strip_entry (f : ℝ) (j j' : Fin 1) :
    entry (strip f).problem ((strip f).law onePoint 1 0 1) 0 j j' = 1 := by
  have h := sheet_entry () ()
  have hd : deformed (strip f).problem 0 () = deformed sheet 0 () := by
    rw [strip_deformed]
    congr 1
  show (∑ q ∈ {()}, stiffness (deformed (strip f).problem 0 q) (sheet.field q ()) (sheet.field q ()) _ _ _ _ _ _
    * (1 * Variation.measure ((strip f).ori q))) = 1
  have h2 : (∑ q ∈ {()}, stiffness (deformed sheet 0 q) (sheet.field q ()) (sheet.field q ()) _ _ _ _ _ _ * (1 : ℝ)) = 1 := h
  rw [Finset.sum_singleton, hd, strip_measure, one_mul]
  rw [Finset.sum_singleton] at h2
  exact h2

theorem strip_injective (f : ℝ) :
    Function.Injective (tangent (strip f).problem ((strip f).law onePoint 1 0 1) 0) := by
  refine (injective_iff_map_eq_zero _).2 fun v hv => ?_
  have h := congrArg (fun w : EuclideanSpace ℝ (Fin 1) => w 0) hv
  simp only [tangent_apply, strip_entry] at h
  ext j
  rw [Subsingleton.elim j 0]
  simpa using h

/-- The dual of the first component of the displacement is one. -/
theorem strip_dual (f : ℝ) (z : Fin 1 → ℝ) :
    SolvesDual (strip f) onePoint 1 0 1 .displacement 0 0 z ↔ z 0 = 1 := by
  have h1 : ∀ j, (strip f).dual 1 0 1 .displacement 0 0 j = .ok 1 := fun j => by
    have := strip_measure f ()
    simp [strip] at this
    simp [Fine.dual, strip, DWR.dual, dualAt, selectDer, Region.meas, Fine.point, linState, comps, Outcome.bind, this]
  constructor
  · intro h
    have := h 0
    rw [h1] at this
    have := Outcome.ok.inj this
    simp only [strip_entry] at this
    simpa using this.symm
  · intro h j
    rw [h1]
    simp only [strip_entry]
    simp [h]

theorem strip_goal (f : ℝ) (x : EuclideanSpace ℝ (Fin 1)) : (strip f).goal 1 0 1 .displacement 0 x = .ok (x 0) := by
  have := strip_measure f ()
  simp [strip] at this
  simp [Fine.goal, strip, DWR.goal, goalAt, quantity, select, Region.meas, Fine.point, linState, comps, Outcome.bind,
    this, vsum]

/-- Non-vacuity: the sheet without load, at rest, satisfies the hypotheses of the three theorems; for
every stretch `u` there is a load that the sheet carries with this stretch. -/
example (u : ℝ) : (strip 0).elems.flatten.Nodup ∧ (0 : EuclideanSpace ℝ (Fin 1)) ∈ Admissible (strip 0).problem ∧
    Function.Injective (tangent (strip 0).problem ((strip 0).law onePoint 1 0 1) 0) ∧
    SolvesFine (strip (((1 + u) ^ 2 - 1) / 2 * (1 + u))) ((strip 0).law onePoint 1 0 1) (WithLp.toLp 2 fun _ => u) ∧
    SolvesCoarse (m := 0) (strip (((1 + u) ^ 2 - 1) / 2 * (1 + u))) ((strip 0).law onePoint 1 0 1) (fun i => i.elim0) 0 ∧
    SolvesDual (strip 0) onePoint 1 0 1 .displacement 0 0 (fun _ => 1) ∧
    GoalChange (strip 0) 1 0 1 .displacement 0 0 (WithLp.toLp 2 fun _ => u) u ∧
    1 * ‖(WithLp.toLp 2 fun _ => u : EuclideanSpace ℝ (Fin 1)) - 0‖ ≤ |u| := by
  refine ⟨by simp [strip], strip_admissible 0, strip_injective 0, fun j => ?_, fun i => i.elim0,
    (strip_dual 0 _).2 rfl, ⟨0, u, strip_goal 0 0, strip_goal 0 _, by simp⟩, ?_⟩
  · refine (strip_residual _ _ j).trans ?_
    simp
  · rw [sub_zero, one_mul, EuclideanSpace.norm_eq]
    simp [Real.sqrt_sq_eq_abs]

/-- **C153** The estimate is not exact, and the power of the distance cannot be improved: a strip that
carries its load with the stretch `u` on the finer basis and not at all on the coarser one; the true
change of the displacement is `u`, the estimate is too large by more than `u²`. -/
theorem C153_exact_violated (u : ℝ) (hu : 0 < u) :
    ∃ (f : ℝ) (y : EuclideanSpace ℝ (Fin 1)), SolvesFine (strip f) ((strip f).law onePoint 1 0 1) y ∧
      SolvesCoarse (m := 0) (strip f) ((strip f).law onePoint 1 0 1) (fun i => i.elim0) 0 ∧ ‖y - 0‖ = u ∧
      GoalChange (strip f) 1 0 1 .displacement 0 0 y u ∧
      ∀ (zL : Fin 0 → ℝ) (zH : Fin 1 → ℝ), SolvesDual (strip f) onePoint 1 0 1 .displacement 0 0 zH →
        ∀ (wl : Bool) (res : Result), ∃ e, totalError false .shell wl ((strip f).setup ((strip f).law onePoint 1 0 1) 0)
          (coarse (strip f) (fun i => i.elim0) zL) (comb zH (strip f).basis) res = .ok e ∧ u + ‖y - 0‖ ^ 2 < e := by
  have hn : ‖(WithLp.toLp 2 fun _ => u : EuclideanSpace ℝ (Fin 1)) - 0‖ = u := by
    rw [sub_zero, EuclideanSpace.norm_eq]
    simp [Real.sqrt_sq_eq_abs, abs_of_pos hu]
  refine ⟨((1 + u) ^ 2 - 1) / 2 * (1 + u), WithLp.toLp 2 fun _ => u, fun j => ?_, fun i => i.elim0, hn,
    ⟨0, u, strip_goal _ 0, strip_goal _ _, by simp⟩, fun zL zH hz wl res => ?_⟩
  · refine (strip_residual _ _ j).trans ?_
    simp
  · refine ⟨_, estimate_eq (by simp [strip]) (strip_admissible _) (fun i => i.elim0) zL zH res
      (.inr ⟨rfl, rfl⟩), ?_⟩
    have h1 := (strip_dual _ zH).1 hz
    rw [hn]
    simp only [PiLp.inner_apply, RCLike.inner_apply, conj_trivial, Fin.sum_univ_one, h1, strip_residual, mul_one]
    simp
    nlinarith [mul_pos hu hu, mul_pos (mul_pos hu hu) hu]

end Verif.DWR
