import Verif.Lemmas.Solve
import Mathlib.Tactic.NormNum
import Mathlib.Analysis.Calculus.Deriv.Pow
import Mathlib.Tactic.FieldSimp

/-! # Property C139: the solution loop of the tutorials and examples -/

namespace Verif.Solve

open Spec.Solve

variable {V : Type} [NormedAddCommGroup V] [NormedSpace ℝ V]

/-! ## Springs, for the examples -/

/-- Division by the stiffness. -/
noncomputable def divide (m : ℝ →L[ℝ] ℝ) (r : ℝ) : ℝ := r / m 1

/-- The stiffness `c`. -/
noncomputable def mat (c : ℝ) : ℝ →L[ℝ] ℝ := c • ContinuousLinearMap.id ℝ ℝ

theorem mat_apply (c x : ℝ) : mat c x = c * x := by simp [mat]

theorem divide_mat (c r : ℝ) : divide (mat c) r = r / c := by simp [divide, mat]

/-- One degree of freedom: load `F`, stiffness `k 0` of the linear problem, `R` and `k`. -/
noncomputable def spring (F : ℝ) (R k : ℝ → ℝ) : Sys ℝ := ⟨mat (k 0), F, fun x => some (R x), fun x => some (mat (k x))⟩

/-! ## What is returned -/

/-- **C139** What is returned is consistent: the residual belongs to the solution, there are at most 100
iterations, and 100 unless the last update was below the tolerance. -/
theorem C139_returned (s : Sys V) (solve : (V →L[ℝ] V) → V → V) (res : Result V) (h : program s solve = .ok res) :
    s.residual res.x = some res.r ∧ res.its ≤ 100 ∧ (res.its < 100 → res.broke = true) := by
  unfold program at h
  cases hr : s.residual (solve s.K0 s.F) with
  | none => simp [hr, ensure, Outcome.bind] at h
  | some r =>
    simp only [hr, ensure, Outcome.bind] at h
    obtain ⟨h1, _, h3, h4⟩ := loop_ok s solve _ _ _ _ _ _ hr h
    refine ⟨h1, ?_, fun hi => ?_⟩
    · cases hb : res.broke with
      | false => rw [h3 hb]; simp [maxIt]
      | true => have := (h4 hb).1; simpa [maxIt] using this
    · cases hb : res.broke with
      | false => rw [h3 hb] at hi; simp [maxIt] at hi
      | true => rfl

/-- **C139** An assembly that fails ends the program with an error; otherwise it returns. -/
theorem C139_errors (s : Sys V) (solve : (V →L[ℝ] V) → V → V) :
    (program s solve ≠ .ub) ∧
    ((∀ x, s.residual x ≠ none) → (∀ x, s.jacobian x ≠ none) → ∃ res, program s solve = .ok res) ∧
    (s.residual (solve s.K0 s.F) = none ∨ s.jacobian (solve s.K0 s.F) = none → program s solve = .throws) := by
  refine ⟨?_, fun hr hj => ?_, ?_⟩
  · unfold program
    cases hr : s.residual (solve s.K0 s.F) with
    | none => simp [ensure, Outcome.bind]
    | some r => exact loop_ne_ub s solve _ _ _ _ _
  · obtain ⟨r, hr'⟩ := Option.ne_none_iff_exists'.1 (hr (solve s.K0 s.F))
    unfold program
    rw [hr']
    exact loop_safe s solve hr hj _ _ _ _ _
  · rintro (hr | hj)
    · simp [program, hr, ensure, Outcome.bind]
    · unfold program
      cases hr : s.residual (solve s.K0 s.F) with
      | none => simp [ensure, Outcome.bind]
      | some r => simp [ensure, Outcome.bind, maxIt, loop, hj]

example : ∃ res, program (spring 1 (fun x => 1 - 2 * x) fun _ => 2) divide = .ok res :=
  (C139_errors _ _).2.1 (fun x => by simp [spring]) fun x => by simp [spring]

/-! ## Linear problems -/

/-- **C139** If the residual is that of the linear problem, the loop makes one iteration and returns the linear
solution. -/
theorem C139_linear (s : Sys V) (solve : (V →L[ℝ] V) → V → V) (hs : Exact solve s.K0) (h0 : solve s.K0 0 = 0)
    (hR : ∀ x, s.residual x = some (s.F - s.K0 x)) (hK : ∀ x, s.jacobian x = some s.K0) :
    program s solve = .ok ⟨solve s.K0 s.F, 0, true, 1, false⟩ := by
  have ht : (0 : ℝ) < tol := by unfold tol; positivity
  unfold program
  simp only [hR, hs s.F, sub_self, ensure, Outcome.bind]
  rw [show maxIt = 99 + 1 from rfl, loop]
  simp [hR, hK, h0, hs s.F, ensure, Outcome.bind, ht]

/-- A linear spring. -/
example : Exact divide (spring 1 (fun x => 1 - 2 * x) fun _ => 2).K0 ∧ divide (spring 1 (fun x => 1 - 2 * x) fun _ => 2).K0 0 = 0
    ∧ ∀ x, (spring 1 (fun x => 1 - 2 * x) fun _ => 2).residual x
      = some ((spring 1 (fun x => 1 - 2 * x) fun _ => 2).F - (spring 1 (fun x => 1 - 2 * x) fun _ => 2).K0 x) := by
  refine ⟨fun r => ?_, ?_, fun x => ?_⟩
  · show mat 2 (divide (mat 2) r) = r
    rw [divide_mat, mat_apply]; ring
  · show divide (mat 2) 0 = 0
    rw [divide_mat]; simp
  · show some _ = some (1 - mat 2 x)
    rw [mat_apply]

/-! ## The residual of an accepted solution -/

/-- **C139** If the loop is left by the test of the update, the solution is in balance up to the square of the
tolerance: with matrices that are minus the derivative of the residual up to `ε` and change with constant `L`
(in a convex set that contains the iterates) the residual is at most `(L tol + ε) tol`, `tol = 10⁻⁶`. -/
theorem C139_accepted {s : Sys V} {solve : (V →L[ℝ] V) → V → V} {R : V → V} {R' K : V → V →L[ℝ] V} {D : Set V} {L ε : ℝ}
    (hD : Convex ℝ D) (ha : Assembles s R K D) (hout : ∀ x ∉ D, s.residual x = none) (ht : Tangent R R' K D L ε) (hL : 0 ≤ L)
    (hε : 0 ≤ ε) (hs : ∀ x ∈ D, Exact solve (K x)) (res : Result V) (h : program s solve = .ok res) (hb : res.broke = true) :
    ‖res.r‖ ≤ (L * (1 / 10 ^ 6) + ε) * (1 / 10 ^ 6) := by
  change ‖res.r‖ ≤ (L * tol + ε) * tol
  unfold program at h
  cases hr : s.residual (solve s.K0 s.F) with
  | none => simp [hr, ensure, Outcome.bind] at h
  | some r =>
    simp only [hr, ensure, Outcome.bind] at h
    obtain ⟨h1, _, _, h4⟩ := loop_ok s solve _ _ _ _ _ _ hr h
    obtain ⟨_, y, m, ry, e1, e2, e3, e4⟩ := h4 hb
    have hy : y ∈ D := by
      by_contra hn
      rw [hout y hn] at e1
      exact absurd e1 (by simp)
    have hx : res.x ∈ D := by
      by_contra hn
      rw [hout _ hn] at h1
      exact absurd h1 (by simp)
    have e5 : ry = R y := Option.some.inj (e1.symm.trans (ha.residual y hy))
    have e6 : m = K y := Option.some.inj (e2.symm.trans (ha.jacobian y hy))
    have e7 : res.r = R res.x := Option.some.inj (h1.symm.trans (ha.residual _ hx))
    subst e5 e6
    have k := ht.remainder hL hD hy hx
    have d : res.x - y = solve (K y) (R y) := by rw [e3]; abel
    rw [d, hs y hy (R y), sub_add_cancel] at k
    rw [e7]
    refine k.trans ?_
    have := e4.le
    have t0 : (0 : ℝ) ≤ tol := by unfold tol; positivity
    gcongr

/-- A spring that stiffens: `L = 6` for displacements up to `1`. -/
example : Tangent (fun x : ℝ => 1 / 10 - x - x ^ 3) (fun x => mat (-(1 + 3 * x ^ 2))) (fun x => mat (1 + 3 * x ^ 2))
    (Metric.closedBall 0 1) 6 0 := by
  refine ⟨fun x _ => ?_, fun x hx y hy => ?_⟩
  · have e : HasDerivAt (fun x : ℝ => 1 / 10 - x - x ^ 3) (-(1 + 3 * x ^ 2)) x :=
      (((hasDerivAt_id' x).const_sub (1 / 10)).fun_sub (hasDerivAt_pow 3 x)).congr_deriv (by push_cast; ring)
    have k : mat (-(1 + 3 * x ^ 2)) = ContinuousLinearMap.toSpanSingleton ℝ (-(1 + 3 * x ^ 2)) := by
      ext; simp [mat]
    rw [k]
    exact e.hasFDerivAt
  · have e : mat (-(1 + 3 * y ^ 2)) + mat (1 + 3 * x ^ 2) = mat (3 * (x ^ 2 - y ^ 2)) := by
      unfold mat; rw [← add_smul]; congr 1; ring
    rw [e, mat, norm_smul, ContinuousLinearMap.norm_id, mul_one, add_zero, Real.norm_eq_abs, Real.norm_eq_abs,
      show 3 * (x ^ 2 - y ^ 2) = (3 * (x + y)) * (x - y) by ring, abs_mul, abs_sub_comm x y]
    have hx' : |x| ≤ 1 := by simpa using hx
    have hy' : |y| ≤ 1 := by simpa using hy
    refine mul_le_mul_of_nonneg_right ?_ (abs_nonneg _)
    rw [abs_le] at *
    constructor <;> linarith [hx'.1, hx'.2, hy'.1, hy'.2]

/-! ## Convergence -/

/-- **C139** Near a solution with invertible tangents the loop finds it: if the linear solution is within `ρ`
of an equilibrium, the tangents there have inverses of norm at most `β` and `β (L ρ + ε) ≤ 1/2`, the loop stops
by itself, within `2 β (2 L tol + ε) tol` of the equilibrium (`ρ` below `10²⁰` length units). -/
theorem C139_converges {s : Sys V} {solve : (V →L[ℝ] V) → V → V} {R : V → V} {R' K : V → V →L[ℝ] V} {xs : V}
    {ρ β L ε : ℝ} (ha : Assembles s R K (Metric.closedBall xs ρ)) (h : Tangent R R' K (Metric.closedBall xs ρ) L ε)
    (hL : 0 ≤ L) (hε : 0 ≤ ε) (h0 : R xs = 0) (hβ : 0 ≤ β) (hi : ∀ x ∈ Metric.closedBall xs ρ, Inverse solve (K x) β)
    (hc : β * (L * ρ + ε) ≤ 1 / 2) (hρ : ρ ≤ 10 ^ 20) (hx : ‖solve s.K0 s.F - xs‖ ≤ ρ) :
    ∃ res, program s solve = .ok res ∧ res.broke = true ∧ ‖res.x - xs‖ ≤ 2 * β * (2 * L * (1 / 10 ^ 6) + ε) * (1 / 10 ^ 6) := by
  change ∃ res, program s solve = .ok res ∧ res.broke = true ∧ ‖res.x - xs‖ ≤ 2 * β * (2 * L * tol + ε) * tol
  have r0 : 0 ≤ ρ := (norm_nonneg _).trans hx
  have hm : solve s.K0 s.F ∈ Metric.closedBall xs ρ := by rwa [Metric.mem_closedBall, dist_eq_norm]
  obtain ⟨res, h1, h2, h3⟩ := loop_converges ha h hL hε h0 hβ hi hc r0 99 0 (solve s.K0 s.F) false hx (by
    unfold tol
    have : 3 / 2 * ‖solve s.K0 s.F - xs‖ ≤ 3 / 2 * 10 ^ 20 := by linarith
    refine this.trans_lt ?_
    norm_num)
  refine ⟨res, ?_, h2, h3.trans (le_of_eq (by ring))⟩
  unfold program
  rw [ha.residual _ hm]
  exact h1

/-- The same spring under the load `1/10`: tangents at least `1`, linear solution `1/10` near the equilibrium. -/
example (x : ℝ) : Inverse divide (mat (1 + 3 * x ^ 2)) 1 := by
  intro r
  have hp : 0 < 1 + 3 * x ^ 2 := by positivity
  refine ⟨by rw [divide_mat, mat_apply]; field_simp, fun y => ?_⟩
  rw [mat_apply, norm_mul, one_mul]
  have : 1 ≤ ‖1 + 3 * x ^ 2‖ := by
    rw [Real.norm_eq_abs, abs_of_pos hp]; nlinarith [sq_nonneg x]
  nlinarith [norm_nonneg y]

/-! ## Violations -/

/-- **C139** (violated) The warning `Maximum iterations reached!` is never printed (its condition is
`it+1 == it`), and no error is raised either. -/
theorem C139_warning_violated (s : Sys V) (solve : (V →L[ℝ] V) → V → V) (res : Result V) (h : program s solve = .ok res) :
    res.warned = false := by
  unfold program at h
  cases hr : s.residual (solve s.K0 s.F) with
  | none => simp [hr, ensure, Outcome.bind] at h
  | some r =>
    simp only [hr, ensure, Outcome.bind] at h
    exact (loop_ok s solve _ _ _ _ _ _ hr h).2.1

theorem tol_le_one : ¬ (1 : ℝ) < tol := by unfold tol; norm_num

/-- The spring of the next theorem goes to and fro. -/
theorem cycle (n : ℕ) : ∀ it w, ∃ w', loop (spring 1 (fun x => 1 - x - 3 * x ^ 2 + 2 * x ^ 3) fun x => 1 + 6 * x - 6 * x ^ 2) divide
    (2 * n) it 1 (-1) w = .ok ⟨1, -1, false, it + 2 * n, w'⟩ := by
  induction n with
  | zero => exact fun it w => ⟨w, rfl⟩
  | succ n ih =>
    intro it w
    obtain ⟨w', h⟩ := ih (it + 1 + 1) ((w || decide (it + 1 = it)) || decide (it + 1 + 1 = it + 1))
    refine ⟨w', ?_⟩
    rw [show 2 * (n + 1) = 2 * n + 1 + 1 by ring, loop]
    have e1 : (1 : ℝ) + 6 * 1 - 6 * 1 ^ 2 = 1 := by norm_num
    have e2 : (1 : ℝ) + divide (mat 1) (-1) = 0 := by rw [divide_mat]; norm_num
    have e3 : (1 : ℝ) - 0 - 3 * 0 ^ 2 + 2 * 0 ^ 3 = 1 := by norm_num
    have e4 : ¬ ‖divide (mat 1) (-1)‖ < tol := by rw [divide_mat]; simpa using tol_le_one
    simp only [spring, ensure, Outcome.bind, e1, e2, e3, e4, if_false]
    rw [loop]
    have f1 : (1 : ℝ) + 6 * 0 - 6 * 0 ^ 2 = 1 := by norm_num
    have f2 : (0 : ℝ) + divide (mat 1) 1 = 1 := by rw [divide_mat]; norm_num
    have f3 : (1 : ℝ) - 1 - 3 * 1 ^ 2 + 2 * 1 ^ 3 = -1 := by norm_num
    have f4 : ¬ ‖divide (mat 1) 1‖ < tol := by rw [divide_mat]; simpa using tol_le_one
    simp only [ensure, Outcome.bind, f1, f2, f3, f4, if_false]
    rw [show it + (2 * n + 1 + 1) = it + 1 + 1 + 2 * n by ring]
    have e5 : (1 : ℝ) + 6 * 0 - 6 * 0 ^ 2 = 1 := by norm_num
    simpa only [spring, e5] using h

/-- **C139** (violated) So a solution that was not found is returned like one that was: a spring with residual
`1 - x - 3x² + 2x³` (an equilibrium at `1/2`, and positive stiffness at all iterates) ends after 100 iterations at
`x = 1`, out of balance by as much as the load. -/
theorem C139_diverges_violated :
    program (spring 1 (fun x => 1 - x - 3 * x ^ 2 + 2 * x ^ 3) fun x => 1 + 6 * x - 6 * x ^ 2) divide
      = .ok ⟨1, -1, false, 100, false⟩ := by
  obtain ⟨w, h⟩ := cycle 50 0 false
  have e : program (spring 1 (fun x => 1 - x - 3 * x ^ 2 + 2 * x ^ 3) fun x => 1 + 6 * x - 6 * x ^ 2) divide
      = .ok ⟨1, -1, false, 100, w⟩ := by
    unfold program
    have e1 : (1 : ℝ) + 6 * 0 - 6 * 0 ^ 2 = 1 := by norm_num
    have e2 : divide (mat 1) 1 = 1 := by rw [divide_mat]; norm_num
    have e3 : (1 : ℝ) - 1 - 3 * 1 ^ 2 + 2 * 1 ^ 3 = -1 := by norm_num
    have k1 : divide (spring 1 (fun x => 1 - x - 3 * x ^ 2 + 2 * x ^ 3) fun x => 1 + 6 * x - 6 * x ^ 2).K0
        (spring 1 (fun x => 1 - x - 3 * x ^ 2 + 2 * x ^ 3) fun x => 1 + 6 * x - 6 * x ^ 2).F = 1 := by
      simp only [spring, e1, e2]
    rw [k1]
    have k2 : (spring 1 (fun x => 1 - x - 3 * x ^ 2 + 2 * x ^ 3) fun x => 1 + 6 * x - 6 * x ^ 2).residual 1 = some (-1) := by
      simp only [spring, e3]
    rw [k2]
    exact h
  have := C139_warning_violated _ _ _ e
  simp only at this
  rw [e, this]

/-- The equilibrium. -/
example : (1 : ℝ) - 1 / 2 - 3 * (1 / 2) ^ 2 + 2 * (1 / 2) ^ 3 = 0 ∧ (0 : ℝ) < 1 + 6 * (1 / 2) - 6 * (1 / 2) ^ 2 := by
  constructor <;> norm_num

/-- **C139** (violated) The tolerance is absolute: a small structure (a stiffening spring with displacements
below the tolerance) is accepted after one iteration, out of balance by more than 200 times the load. -/
theorem C139_absolute_violated :
    ∃ res, program (spring (1 / 10 ^ 6) (fun x => 1 / 10 ^ 6 - x - 10 ^ 15 * x ^ 3) fun x => 1 + 3 * 10 ^ 15 * x ^ 2) divide = .ok res
      ∧ res.broke = true ∧ res.its = 1 ∧ 200 * (1 / 10 ^ 6) < ‖res.r‖ := by
  have k1 : divide (spring (1 / 10 ^ 6) (fun x => 1 / 10 ^ 6 - x - 10 ^ 15 * x ^ 3) fun x => 1 + 3 * 10 ^ 15 * x ^ 2).K0
      (spring (1 / 10 ^ 6) (fun x => 1 / 10 ^ 6 - x - 10 ^ 15 * x ^ 3) fun x => 1 + 3 * 10 ^ 15 * x ^ 2).F = 1 / 10 ^ 6 := by
    simp only [spring, divide_mat]; norm_num
  have k3 : divide (mat (1 + 3 * 10 ^ 15 * (1 / 10 ^ 6) ^ 2)) (1 / 10 ^ 6 - 1 / 10 ^ 6 - 10 ^ 15 * (1 / 10 ^ 6) ^ 3)
      = -(1000 / 3001) / 10 ^ 6 := by
    rw [divide_mat]; norm_num
  have k4 : ‖(-(1000 / 3001) / 10 ^ 6 : ℝ)‖ < tol := by
    unfold tol; rw [Real.norm_eq_abs, abs_lt]; constructor <;> norm_num
  unfold program
  rw [k1, show maxIt = 99 + 1 from rfl]
  have k5 : (1 / 10 ^ 6 + -(1000 / 3001) / 10 ^ 6 : ℝ) = 2001 / 3001 / 10 ^ 6 := by norm_num
  refine ⟨⟨2001 / 3001 / 10 ^ 6, 1 / 10 ^ 6 - 2001 / 3001 / 10 ^ 6 - 10 ^ 15 * (2001 / 3001 / 10 ^ 6) ^ 3, true, 1, false⟩,
    ?_, rfl, rfl, ?_⟩
  · simp only [spring, ensure, Outcome.bind]
    rw [loop]
    simp only [ensure, Outcome.bind, k3, k4, k5, if_true]
  · rw [Real.norm_eq_abs, lt_abs]
    right; norm_num

end Verif.Solve
