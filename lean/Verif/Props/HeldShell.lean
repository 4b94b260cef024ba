import Verif.Lemmas.HeldShell

/-!
# C158: the nonlinear system of a shell held by weak boundary conditions

Shells of linear material with weak Dirichlet and weakly clamped sides, as a whole.
-/

namespace Verif.HeldShell

open V3 Verif.Geometry Verif.Variation Verif.WeakForms Verif.Integrate Spec.HeldShell Spec.Solve
open Verif.ShellSystem (Problem Law deformed linear linear_plain' Constants)
open Verif.LoadedShell (ofEntries ofEntries_apply ofEntries_inj symmetric_of_conservative)
open Verif.JoinedShell (Edge disp surf_zero)
open Verif.Balance (vsum)
open Spec.ShellSystem (Solver)
open Filter Topology RealInnerProductSpace

variable {J κ ι : Type} [Fintype J] (P : Problem J κ) (H : Holds J ι) (r : Rule) (E ν t : κ → ℝ)

/-! ## Weak Dirichlet sides -/

variable {P H} in
theorem hold_none (hQ : H.Q1 = ∅) (x : EuclideanSpace ℝ J) (j : J) : hold H x j = push H x j := by
  rw [hold, hQ]
  simp [quad, push]

variable {H} in
theorem push_eq (x : EuclideanSpace ℝ J) (j : J) : push H x j = pull H x j := by
  refine Finset.sum_congr rfl fun q _ => ?_
  show _ = H.w0 q * (H.a0 q * (∑ i, (disp (H.u q) (H.u0 q) x i - H.g q i) * H.u q j i) * H.μ0 q)
  simp only [dirVec, dotd]
  rw [← Finset.sum_sub_distrib]
  congr 3
  exact Finset.sum_congr rfl fun i _ => by ring

/-- **C158** is violated: weak Dirichlet conditions act as springs that push away from the prescribed place.  The
assembled residual is minus the gradient of the potential with the opposite springs at all regular states; it is
minus the gradient of the potential with the springs exactly where they do no work. -/
theorem C158_sign_violated (hc : Constants P.Q E ν t) (hQ : H.Q1 = ∅) {x : EuclideanSpace ℝ J}
    (hx : x ∈ Spec.HeldShell.Admissible P H) :
    HasGradientAt (potential P (opposite H) E ν t) (-residual P H (linear P r E ν t) x) x ∧
    (HasGradientAt (potential P H E ν t) (-residual P H (linear P r E ν t) x) x ↔ ∀ j, pull H x j = 0) := by
  have h1 := (ShellSystem.C149_gradient P r E ν t hc hx.1).hasFDerivAt
  have key : ∀ H' : Holds J ι, H'.Q1 = ∅ → HasGradientAt (potential P H' E ν t)
      (-ShellSystem.residual P (linear P r E ν t) x + WithLp.toLp 2 (push H' x)) x := by
    intro H' hQ'
    have h2 := (springs_gradient H' x).hasFDerivAt
    have h := h1.add h2
    rw [← map_add] at h
    refine HasFDerivAt.congr_of_eventuallyEq h (Eventually.of_forall fun y => ?_)
    show _ + _ + (∑ q ∈ H'.Q1, _) = _
    rw [hQ', Finset.sum_empty, add_zero]; rfl
  have e : -residual P H (linear P r E ν t) x
      = -ShellSystem.residual P (linear P r E ν t) x + WithLp.toLp 2 (push (opposite H) x) := by
    rw [residual_split, neg_add]
    congr 1
    ext j
    show -hold H x j = push (opposite H) x j
    rw [hold_none hQ, push_opposite]
  refine ⟨?_, fun h j => ?_, fun h => ?_⟩
  · rw [e]; exact key (opposite H) hQ
  · have h3 := (key H hQ).unique h
    rw [e] at h3
    have h4 := congrArg (fun w : EuclideanSpace ℝ J => w j) (add_left_cancel h3)
    have h5 : push H x j = push (opposite H) x j := h4
    rw [push_opposite] at h5
    rw [← push_eq]; linarith
  · rw [e]
    have : (WithLp.toLp 2 (push (opposite H) x) : EuclideanSpace ℝ J) = WithLp.toLp 2 (push H x) := by
      ext j
      show push (opposite H) x j = push H x j
      rw [push_opposite, push_eq, h j, neg_zero]
    rw [this]; exact key H hQ

/-- **C158** (partial: no clamped sides, see `C158_clamp_violated`) The assembled tangent is minus the derivative of
the residual, and symmetric. -/
theorem C158_tangent_partial (hc : Constants P.Q E ν t) (hQ : H.Q1 = ∅) {x : EuclideanSpace ℝ J}
    (hx : x ∈ Spec.HeldShell.Admissible P H) :
    HasFDerivAt (residual P H (linear P r E ν t)) (-tangent P H (linear P r E ν t) x) x ∧
    ∀ j j', entry P H (linear P r E ν t) x j j' = entry P H (linear P r E ν t) x j' j := by
  classical
  have hd := residual_deriv r E ν t hx
  have e : slope P H (linear P r E ν t) x = entry P H (linear P r E ν t) x := by
    funext j j'
    rw [entry_split, slope, holdSlope, holdEntry, hQ]
    simp [quad]
  rw [e] at hd
  refine ⟨hd, fun j j' => symmetric_of_conservative hd ⟨potential P (opposite H) E ν t, ?_⟩ j j'⟩
  exact Filter.mem_of_superset (admissible_nhds hx) fun y hy => (C158_sign_violated P H r E ν t hc hQ hy).1

/-- **C158** (partial: no clamped sides) Around an equilibrium with a regular tangent there is a ball such that the
programs, started with a linear solution in this ball, stop by themselves with a solution that is right up to a
constant times the square of the tolerance. -/
theorem C158_newton_partial (hc : Constants P.Q E ν t) (hQ : H.Q1 = ∅) {xs : EuclideanSpace ℝ J}
    (hx : xs ∈ Spec.HeldShell.Admissible P H) (h0 : residual P H (linear P r E ν t) xs = 0)
    (hi : Function.Injective (tangent P H (linear P r E ν t) xs)) :
    ∃ ρ C : ℝ, 0 < ρ ∧ ∀ (s : Solve.Sys (EuclideanSpace ℝ J)) (solve : _ → EuclideanSpace ℝ J → EuclideanSpace ℝ J),
      Assembles s (residual P H (linear P r E ν t)) (tangent P H (linear P r E ν t)) (Spec.HeldShell.Admissible P H) →
      Solver solve → ‖solve s.K0 s.F - xs‖ ≤ ρ →
      ∃ res, Solve.program s solve = .ok res ∧ res.broke = true ∧ ‖res.x - xs‖ ≤ C * (1 / 10 ^ 6) ^ 2 :=
  Solve.local_newton (residual_smooth r E ν t hx)
    (Filter.mem_of_superset (admissible_nhds hx) fun _ hy => (C158_tangent_partial P H r E ν t hc hQ hy).1) hi h0
    (admissible_nhds hx)

/-- **C158** is violated: stiff springs make every state unstable.  In every state and for every displacement that
moves a weak Dirichlet point, the second derivative of the energy in this direction is negative for all large
values of the option. -/
theorem C158_unstable_violated (hp : ∀ q ∈ H.Q0, 0 < H.w0 q ∧ 0 < H.a0 q ∧ 0 < H.μ0 q) (x v : EuclideanSpace ℝ J)
    {q : ι} (hq : q ∈ H.Q0) {i : Fin 3} (hv : ∑ j, v j * H.u q j i ≠ 0) :
    ∃ τ₀ : ℝ, ∀ τ, τ₀ ≤ τ → ⟪tangent P (stiffer H τ) (linear P r E ν t) x v, v⟫ < 0 := by
  have hform : ∀ (e : J → J → ℝ) , ⟪ofEntries e v, v⟫ = ∑ j, ∑ j', e j j' * v j' * v j := by
    intro e
    rw [PiLp.inner_apply]
    refine Finset.sum_congr rfl fun j _ => ?_
    rw [ofEntries_apply, ← Finset.sum_mul]
    simp [mul_comm]
  let D : ℝ := ∑ q ∈ H.Q0, H.w0 q * (H.a0 q * (∑ i, (∑ j, v j * H.u q j i) ^ 2) * H.μ0 q)
  let A : ℝ := ∑ j, ∑ j', (ShellSystem.entry P (linear P r E ν t) x j j'
    + quad H.Q1 H.w1 (fun q => clampMat (H.a1 q) (H.μ1 q) (H.S.surf x q) (H.n0 q) (H.out q)
        (H.S.field q j) (H.S.field q j'))) * v j' * v j
  have hD : 0 < D := by
    refine Finset.sum_pos' (fun q hq => ?_) ⟨q, hq, ?_⟩
    · obtain ⟨h1, h2, h3⟩ := hp q hq
      exact mul_nonneg h1.le (mul_nonneg (mul_nonneg h2.le (Finset.sum_nonneg fun i _ => sq_nonneg _)) h3.le)
    · obtain ⟨h1, h2, h3⟩ := hp q hq
      refine mul_pos h1 (mul_pos (mul_pos h2 ?_) h3)
      exact Finset.sum_pos' (fun i _ => sq_nonneg _) ⟨i, Finset.mem_univ i, by positivity⟩
  have hK : ∀ τ, ⟪tangent P (stiffer H τ) (linear P r E ν t) x v, v⟫ = A - τ * D := by
    intro τ
    rw [tangent, hform]
    have e0 : ∀ j j', entry P (stiffer H τ) (linear P r E ν t) x j j' * v j' * v j
        = (ShellSystem.entry P (linear P r E ν t) x j j'
          + quad H.Q1 H.w1 (fun q => clampMat (H.a1 q) (H.μ1 q) (H.S.surf x q) (H.n0 q) (H.out q)
            (H.S.field q j) (H.S.field q j'))) * v j' * v j
          - τ * ∑ q ∈ H.Q0, H.w0 q * (H.a0 q * (∑ i, v j * H.u q j i * (v j' * H.u q j' i)) * H.μ0 q) := by
      intro j j'
      have e1 : quad H.Q0 H.w0 (fun q => dirMat (τ * H.a0 q) (H.μ0 q) (H.u q j) (H.u q j')) * v j' * v j
          = -(τ * ∑ q ∈ H.Q0, H.w0 q * (H.a0 q * (∑ i, v j * H.u q j i * (v j' * H.u q j' i)) * H.μ0 q)) := by
        unfold quad dirMat dotd
        rw [Finset.sum_mul, Finset.sum_mul, Finset.mul_sum, ← Finset.sum_neg_distrib]
        refine Finset.sum_congr rfl fun q _ => ?_
        have : ∑ i, v j * H.u q j i * (v j' * H.u q j' i) = v j * v j' * ∑ i, H.u q j i * H.u q j' i := by
          rw [Finset.mul_sum]; exact Finset.sum_congr rfl fun i _ => by ring
        rw [this]; ring
      show (_ + quad H.Q0 H.w0 (fun q => dirMat (τ * H.a0 q) (H.μ0 q) (H.u q j) (H.u q j')) + _) * _ * _ = _
      have e2 : ∀ a b c d e : ℝ, (a + b + c) * d * e = (a + c) * d * e - -(b * d * e) := fun a b c d e => by ring
      rw [e2, e1, neg_neg]; rfl
    simp only [e0, Finset.sum_sub_distrib]
    congr 1
    rw [show (∑ j, ∑ j', τ * ∑ q ∈ H.Q0, H.w0 q * (H.a0 q * (∑ i, v j * H.u q j i * (v j' * H.u q j' i)) * H.μ0 q))
      = τ * ∑ j, ∑ j', ∑ q ∈ H.Q0, H.w0 q * (H.a0 q * (∑ i, v j * H.u q j i * (v j' * H.u q j' i)) * H.μ0 q) by
        simp only [Finset.mul_sum]]
    congr 1
    rw [Finset.sum_congr rfl fun j _ => Finset.sum_comm, Finset.sum_comm]
    refine Finset.sum_congr rfl fun q _ => ?_
    simp only [← Finset.mul_sum, ← Finset.sum_mul]
    congr 3
    rw [Finset.sum_congr rfl fun j _ => Finset.sum_comm, Finset.sum_comm]
    refine Finset.sum_congr rfl fun i _ => ?_
    rw [sq, Finset.sum_mul_sum]
  refine ⟨(|A| + 1) / D, fun τ hτ => ?_⟩
  rw [hK]
  rw [div_le_iff₀ hD] at hτ
  linarith [le_abs_self A]

/-! ## Clamped sides -/

variable {P H} in
theorem rest_surf (h : AtRest P H) (q : ι) : H.S.surf 0 q = H.S.ori q := by rw [surf_zero, h.side]

variable {P H} in
/-- Minus the derivative of the residual at rest: nothing is left of the clamping. -/
theorem slope_rest (h : AtRest P H) (hx : (0 : EuclideanSpace ℝ J) ∈ Spec.HeldShell.Admissible P H) :
    slope P H (linear P r E ν t) 0 = linearEntry P (hinged H) (linear P r E ν t) := by
  funext j j'
  have e1 : quad H.Q1 H.w1 (clampSlope H 0 j j') = 0 := by
    refine Finset.sum_eq_zero fun q hq => ?_
    have hi := hx.2 q hq
    rw [rest_surf h] at hi
    have h0 : dot (var1 (H.S.ori q) (H.S.field q j)) (H.n0 q) = 0 := var1_dot_normal _ _ hi
    have h1 : normal (H.S.ori q) = H.n0 q := rfl
    rw [clampSlope, rest_surf h, h0, h1]; ring
  have e2 : quad H.Q1 H.w1 (fun q => clampMatLin ((hinged H).a1 q) (H.μ1 q) (H.S.ori q) (H.out q)
      (H.S.field q j) (H.S.field q j')) = 0 := by
    refine Finset.sum_eq_zero fun q _ => ?_
    simp [clampMatLin, hinged]
  show _ + (_ + _) = _ + _ + quad H.Q1 H.w1 (fun q => clampMatLin ((hinged H).a1 q) (H.μ1 q) (H.S.ori q) (H.out q)
      (H.S.field q j) (H.S.field q j'))
  rw [e1, e2, (ShellSystem.C149_linear P r E ν t h.shell j j').2, add_zero, add_zero]
  rfl

/-- **C158** At rest the residual is the right-hand side of the linear problem and the tangent its matrix. -/
theorem C158_linear (h : AtRest P H) (j j' : J) :
    residual P H (linear P r E ν t) 0 j = linearRhs P H j ∧
    entry P H (linear P r E ν t) 0 j j' = linearEntry P H (linear P r E ν t) j j' := by
  obtain ⟨h1, h2⟩ := ShellSystem.C149_linear P r E ν t h.shell j j'
  constructor
  · show _ + _ + _ = _
    rw [h1, linearRhs]
    have e1 : quad H.Q1 H.w1 (fun q => clampVec (H.a1 q) (H.μ1 q) (H.S.surf 0 q) (H.n0 q) (H.len q • H.out q)
        (H.S.field q j)) = 0 := by
      refine Finset.sum_eq_zero fun q _ => ?_
      have hn : normal (H.S.ori q) = H.n0 q := rfl
      beta_reduce
      rw [rest_surf h, clampVec, hn]; ring
    rw [e1, add_zero]
    congr 1
    refine Finset.sum_congr rfl fun q hq => ?_
    have : disp (H.u q) (H.u0 q) (0 : EuclideanSpace ℝ J) = 0 := by
      funext i; simp [disp, h.place q hq]
    beta_reduce
    rw [this]
    simp [dirVec, dirVecLin3, dotd]
  · rw [entry, linearEntry, h2]
    congr 1
    refine Finset.sum_congr rfl fun q _ => ?_
    have hn : normal (H.S.ori q) = H.n0 q := rfl
    beta_reduce
    rw [rest_surf h, clampMat, clampMatLin, hn]; ring

/-- **C158** is violated: at rest the derivative of the residual is that of a shell with hinges instead of clamped
sides, whatever the factors.  So the assembled tangent is minus the derivative of the residual only if the linear
problem does not notice the clamped sides at all. -/
theorem C158_clamp_violated (h : AtRest P H) (hx : (0 : EuclideanSpace ℝ J) ∈ Spec.HeldShell.Admissible P H) :
    HasFDerivAt (residual P H (linear P r E ν t)) (-ofEntries (linearEntry P (hinged H) (linear P r E ν t))) 0 ∧
    (HasFDerivAt (residual P H (linear P r E ν t)) (-tangent P H (linear P r E ν t) 0) 0 ↔
      linearEntry P H (linear P r E ν t) = linearEntry P (hinged H) (linear P r E ν t)) := by
  have hd := residual_deriv r E ν t hx
  rw [slope_rest r E ν t h hx] at hd
  have ht : tangent P H (linear P r E ν t) 0 = ofEntries (linearEntry P H (linear P r E ν t)) := by
    rw [tangent]
    congr 1
    funext j j'
    exact (C158_linear P H r E ν t h j j').2
  refine ⟨hd, fun h' => ?_, fun h' => ?_⟩
  · rw [ht] at h'
    exact ofEntries_inj (neg_injective (h'.unique hd))
  · rw [ht, h']; exact hd

omit [Fintype J] in
variable {P H} in
/-- The right-hand side of the linear problem is proportional to the load. -/
theorem scaled_rhs (l : ℝ) (j : J) : linearRhs (P.scale l) (H.scale l) j = l * linearRhs P H j := by
  show l * P.F j + quad H.Q0 H.w0 (fun q => dirVecLin3 (H.a0 q) (H.μ0 q) (fun i => l * H.g q i) (H.u q j)) = _
  rw [linearRhs, mul_add]
  congr 1
  unfold quad dirVecLin3 dotd
  rw [Finset.mul_sum]
  refine Finset.sum_congr rfl fun q _ => ?_
  have : ∑ i, H.u q j i * (l * H.g q i) = l * ∑ i, H.u q j i * H.g q i := by
    rw [Finset.mul_sum]; exact Finset.sum_congr rfl fun i _ => by ring
  beta_reduce
  rw [this]; ring

variable {P H} in
/-- The load enters the residual linearly. -/
theorem scaled_residual (l : ℝ) (x : EuclideanSpace ℝ J) : residual (P.scale l) (H.scale l) (linear P r E ν t) x
    = residual (P.scale 0) (H.scale 0) (linear P r E ν t) x + l • WithLp.toLp 2 (linearRhs P H) := by
  ext j
  have e : ∀ l : ℝ, quad H.Q0 H.w0 (fun q => dirVec (H.a0 q) (H.μ0 q) (disp (H.u q) (H.u0 q) x)
      (fun i => l * H.g q i) (H.u q j)) = quad H.Q0 H.w0 (fun q => dirVec (H.a0 q) (H.μ0 q)
      (disp (H.u q) (H.u0 q) x) 0 (H.u q j))
        + l * quad H.Q0 H.w0 (fun q => dirVecLin3 (H.a0 q) (H.μ0 q) (H.g q) (H.u q j)) := by
    intro l
    unfold quad dirVec dirVecLin3 dotd
    rw [Finset.mul_sum, ← Finset.sum_add_distrib]
    refine Finset.sum_congr rfl fun q _ => ?_
    have : ∑ i, H.u q j i * (l * H.g q i) = l * ∑ i, H.u q j i * H.g q i := by
      rw [Finset.mul_sum]; exact Finset.sum_congr rfl fun i _ => by ring
    have h0 : ∑ i, H.u q j i * (0 : Vd 3) i = 0 := Finset.sum_eq_zero fun i _ => mul_zero _
    beta_reduce
    rw [this, h0]
    ring
  show ((∑ q ∈ P.Q, _) + l * P.F j) + quad H.Q0 H.w0 (fun q => dirVec (H.a0 q) (H.μ0 q) (disp (H.u q) (H.u0 q) x)
      (fun i => l * H.g q i) (H.u q j)) + _ = (((∑ q ∈ P.Q, _) + 0 * P.F j) + quad H.Q0 H.w0 (fun q =>
      dirVec (H.a0 q) (H.μ0 q) (disp (H.u q) (H.u0 q) x) (fun i => 0 * H.g q i) (H.u q j)) + _)
      + l * (P.F j + quad H.Q0 H.w0 (fun q => dirVecLin3 (H.a0 q) (H.μ0 q) (H.g q) (H.u q j)))
  rw [e l, e 0]
  have : ∀ a b c d f : ℝ, a + l * b + (c + l * d) + f = a + 0 * b + (c + 0 * d) + f + l * (b + d) :=
    fun a b c d f => by ring
  exact this _ _ _ _ _

/-- **C158** is violated: the solution for small loads is that of the shell with hinges.  If the problem with hinges
is regular, small loads have exactly one equilibrium near the undeformed state; up to the square of the load it is
the linear solution with hinges, and it differs from the linear solution with clamped sides, which the programs
start with, by the difference of the two. -/
theorem C158_small_violated (h : AtRest P H) (hx : (0 : EuclideanSpace ℝ J) ∈ Spec.HeldShell.Admissible P H)
    (hi : ∀ v : EuclideanSpace ℝ J,
      (∀ j, ∑ j', linearEntry P (hinged H) (linear P r E ν t) j j' * v j' = 0) → v = 0)
    (xh xc : EuclideanSpace ℝ J)
    (hh : ∀ j, ∑ j', linearEntry P (hinged H) (linear P r E ν t) j j' * xh j' = linearRhs P H j)
    (hc : ∀ j, ∑ j', linearEntry P H (linear P r E ν t) j j' * xc j' = linearRhs P H j) :
    ∃ l₀ ρ C : ℝ, 0 < l₀ ∧ 0 < ρ ∧ ∀ l : ℝ, |l| ≤ l₀ →
      (∀ j, ∑ j', linearEntry P H (linear P r E ν t) j j' * (l • xc) j' = linearRhs (P.scale l) (H.scale l) j) ∧
      ∃ xs ∈ Spec.HeldShell.Admissible P H, residual (P.scale l) (H.scale l) (linear P r E ν t) xs = 0 ∧
      (∀ x, ‖x‖ ≤ ρ → residual (P.scale l) (H.scale l) (linear P r E ν t) x = 0 → x = xs) ∧
      ‖xs - l • xh‖ ≤ C * l ^ 2 ∧ |l| * ‖xh - xc‖ - C * l ^ 2 ≤ ‖xs - l • xc‖ := by
  classical
  let Fv : EuclideanSpace ℝ J := WithLp.toLp 2 (linearRhs P H)
  have hrhs := scaled_rhs (P := P) (H := H)
  have hres := scaled_residual (P := P) (H := H) r E ν t
  have h' : AtRest (P.scale 0) (H.scale 0) := ⟨h.shell, h.side, h.place⟩
  have hx' : (0 : EuclideanSpace ℝ J) ∈ Spec.HeldShell.Admissible (P.scale 0) (H.scale 0) := hx
  have h0 : residual (P.scale 0) (H.scale 0) (linear P r E ν t) 0 = 0 := by
    ext j
    have := (C158_linear (P.scale 0) (H.scale 0) r E ν t h' j j).1
    refine Eq.trans this ?_
    rw [hrhs, zero_mul]; rfl
  have hK0 : ∀ (v : EuclideanSpace ℝ J) j, ofEntries (slope (P.scale 0) (H.scale 0) (linear P r E ν t) 0) v j
      = ∑ j', linearEntry P (hinged H) (linear P r E ν t) j j' * v j' := by
    intro v j
    rw [ofEntries_apply]
    refine Finset.sum_congr rfl fun j' _ => ?_
    have := congrFun (congrFun (slope_rest (P := P.scale 0) (H := H.scale 0) r E ν t h' hx') j) j'
    exact congrArg (· * v j') this
  obtain ⟨l₀, ρ, C, hl0, hρ, hall⟩ := Solve.small_loads
    (R := residual (P.scale 0) (H.scale 0) (linear P r E ν t))
    (K := fun x => ofEntries (slope (P.scale 0) (H.scale 0) (linear P r E ν t) x))
    (residual_smooth (P := P.scale 0) (H := H.scale 0) r E ν t hx')
    (Filter.mem_of_superset (admissible_nhds hx') fun y hy => residual_deriv (P := P.scale 0) (H := H.scale 0) r E ν t hy)
    ((injective_iff_map_eq_zero _).2 fun v hv => hi v fun j => by rw [← hK0, hv]; rfl) h0
    (admissible_nhds hx') Fv xh (by ext j; rw [hK0]; exact hh j)
  refine ⟨l₀, ρ, C, hl0, hρ, fun l hl => ⟨fun j => ?_, ?_⟩⟩
  · rw [hrhs, ← hc j, Finset.mul_sum]
    refine Finset.sum_congr rfl fun j' _ => ?_
    rw [PiLp.smul_apply, smul_eq_mul]; ring
  · obtain ⟨xs, hxs, e1, e2, e3, -⟩ := hall l hl
    refine ⟨xs, hxs, (hres l xs).trans e1, fun x hx h => e3 x hx ((hres l x).symm.trans h), e2, ?_⟩
    have t1 : |l| * ‖xh - xc‖ = ‖l • xh - l • xc‖ := by rw [← smul_sub, norm_smul, Real.norm_eq_abs]
    have t2 : l • xh - l • xc = (xs - l • xc) - (xs - l • xh) := by abel
    have := norm_sub_le (xs - l • xc) (xs - l • xh)
    rw [t1, t2]; linarith

/-! ## A plate that tilts about a clamped side -/

/-- The field that tilts the plate about the second axis, and bends it by `b`. -/
def lift (b : ℝ) : Surf := ⟨fun i => if i = 0 then ⟨0, 0, 1⟩ else 0, ⟨0, 0, b⟩, 0, 0⟩

/-- A flat plate with one point of integration and this field as the only unknown. -/
def board (b F : ℝ) : Problem Unit Unit :=
  ⟨{()}, fun _ => 1, fun _ => Plate.flatS, fun _ => Plate.flatS, fun _ _ => lift b, fun _ => F⟩

/-- One clamped point with factor `a`. -/
def clamped (a : ℝ) : Holds Unit Unit :=
  ⟨∅, fun _ => 0, fun _ => 0, fun _ => 0, fun _ _ _ => 0, fun _ _ => 0, fun _ _ => 0, {()}, fun _ => 1, fun _ => a,
    fun _ => 1, ⟨fun _ => Plate.flatS, fun _ => Plate.flatS, fun _ _ => lift 0, fun _ => 1, fun _ => 1⟩, fun _ => 1⟩

/-- Its material: modulus one, Poisson's ratio zero, thickness one. -/
noncomputable abbrev boardLaw (b F : ℝ) : Law Unit :=
  linear (board b F) ⟨1, fun _ => 0, fun _ => 2⟩ (fun _ => 1) (fun _ => 0) fun _ => 1

theorem board_rest (b F a : ℝ) : AtRest (board b F) (clamped a) := ⟨rfl, rfl, fun _ _ => rfl⟩

theorem clamped_surf (a : ℝ) (x : EuclideanSpace ℝ Unit) :
    (clamped a).S.surf x () = ⟨fun i => if i = 0 then ⟨1, 0, x ()⟩ else ⟨0, 1, 0⟩, 0, 0, 0⟩ := by
  unfold Edge.surf deformed
  congr 1
  · funext i
    rcases fin2_cases i with rfl | rfl <;> ext <;> simp [clamped, lift, vsum, Plate.flatS]
  all_goals ext <;> simp [clamped, lift, vsum, Plate.flatS]

theorem board_deformed (F : ℝ) (x : EuclideanSpace ℝ Unit) :
    deformed (board 0 F) x () = ⟨fun i => if i = 0 then ⟨1, 0, x ()⟩ else ⟨0, 1, 0⟩, 0, 0, 0⟩ := by
  unfold deformed
  congr 1
  · funext i
    rcases fin2_cases i with rfl | rfl <;> ext <;> simp [board, lift, vsum, Plate.flatS]
  all_goals ext <;> simp [board, lift, vsum, Plate.flatS]

theorem tilted_cross (y : ℝ) : cross (⟨1, 0, y⟩ : V3) ⟨0, 1, 0⟩ = ⟨-y, 0, 1⟩ := by ext <;> simp [cross]

theorem board_admissible (b F a : ℝ) : (0 : EuclideanSpace ℝ Unit) ∈ Spec.HeldShell.Admissible (board b F) (clamped a) := by
  have hc : cross (Plate.flatS.a 0) (Plate.flatS.a 1) ≠ 0 := by rw [Plate.flat_cross]; simp [V3.ext_iff]
  constructor
  · intro q _
    rw [ShellSystem.deformed_zero]
    exact ShellSystem.indep_iff.2 hc
  · intro q _
    rw [surf_zero]
    exact ShellSystem.indep_iff.2 hc

theorem clamped_n0 (a : ℝ) : (clamped a).n0 () = ⟨0, 0, 1⟩ := Plate.flat_normal

theorem clamped_out (a : ℝ) : (clamped a).out () = ⟨1, 0, 0⟩ := by
  show cross (normalized ((1 : ℝ) • Plate.flatS.a 1)) (normal Plate.flatS) = _
  rw [Plate.flat_normal]
  have : normalized ((1 : ℝ) • Plate.flatS.a 1) = ⟨0, 1, 0⟩ := by
    ext <;> norm_num [normalized, V3.norm, dot, Plate.flatS]
  rw [this]
  ext <;> simp [cross]

/-- The clamping of the tilted plate does not see the sign of the tilt. -/
theorem flap_residual (F a : ℝ) (x : EuclideanSpace ℝ Unit) :
    residual (board 0 F) (clamped a) (boardLaw 0 F) x () = F - x () ^ 3 / 2 - a * (x () ^ 2 / (1 + x () ^ 2) ^ 2) := by
  have h := linear_plain' (board 0 F) ⟨1, fun _ => 0, fun _ => 2⟩ (fun _ => 1) (fun _ => 0) (fun _ => 1) ()
  have hd := board_deformed F x
  have hE : EmDer (deformed (board 0 F) x ()) (lift 0) = vec3 (x ()) 0 0 := by
    rw [hd]
    funext k
    rcases fin3_cases k with rfl | rfl | rfl <;> simp [EmDer, lift, dot]
  have hN : voigtMembrane Plate.flatS (deformed (board 0 F) x ()) = vec3 (x () ^ 2 / 2) 0 0 := by
    rw [hd]
    funext k
    rcases fin3_cases k with rfl | rfl | rfl <;> simp [voigtMembrane, Plate.flatS, dot]
    ring
  have hf := Plate.flat_linear (E := 1) (ν := 0) (by norm_num) (by norm_num) (by norm_num) (by norm_num)
  have e1 : ShellSystem.residual (board 0 F) (boardLaw 0 F) x () = F - x () ^ 3 / 2 := by
    show (∑ q ∈ {()}, internalForce (deformed (board 0 F) x q) (lift 0) _ _ * (1 : ℝ)) + F = _
    rw [Finset.sum_singleton, h.hN, h.hM, show (board 0 F).ori () = Plate.flatS from rfl, hN, internalForce, hE]
    have hM' : dotV (mulVec3 (fun i j => (1 : ℝ) ^ 3 / 12 * Linear.matrix 1 0 (Acon Plate.flatS) i j)
      (voigtBending Plate.flatS (deformed (board 0 F) x ()))) (EfDer (deformed (board 0 F) x ()) (lift 0)) = 0 := by
      have : voigtBending Plate.flatS (deformed (board 0 F) x ()) = fun _ => 0 := by
        rw [hd]
        funext k
        rcases fin3_cases k with rfl | rfl | rfl <;> simp [voigtBending, Plate.flatS, dot]
      rw [this]
      simp [dotV, mulVec3]
    rw [hM', hf]
    simp [dotV, mulVec3, Fin.sum_univ_three, Plate.iso]
    ring
  set m : ℝ := √(1 + x () ^ 2) with hm
  have hm0 : 0 < m := Real.sqrt_pos.2 (by positivity)
  have hm2 : m ^ 2 = 1 + x () ^ 2 := Real.sq_sqrt (by positivity)
  have hnorm : V3.norm (⟨-x (), 0, 1⟩ : V3) = m := by
    rw [hm, V3.norm]; congr 1; simp [dot]; ring
  have hn : normal ((clamped a).S.surf x ()) = ⟨-x () / m, 0, 1 / m⟩ := by
    rw [clamped_surf, normal]
    show normalized (cross ⟨1, 0, x ()⟩ ⟨0, 1, 0⟩) = _
    rw [tilted_cross, normalized, hnorm]
    ext <;> simp <;> ring
  have hv : dot (var1 ((clamped a).S.surf x ()) (lift 0)) ⟨0, 0, 1⟩ = -x () / m ^ 3 := by
    have hmu : Variation.measure ((clamped a).S.surf x ()) = m := by
      rw [clamped_surf, Variation.measure]
      show V3.norm (cross ⟨1, 0, x ()⟩ ⟨0, 1, 0⟩) = _
      rw [tilted_cross, hnorm]
    have hmv : mvec ((clamped a).S.surf x ()) (lift 0) = ⟨-1 / m, 0, 0⟩ := by
      rw [mvec, hmu, clamped_surf]
      ext <;> simp [cross, lift] <;> ring
    rw [var1, hmv, hn]
    simp [dot]
    field_simp
  have e2 : clampVec a 1 ((clamped a).S.surf x ()) ((clamped a).n0 ()) ((1 : ℝ) • (clamped a).out ()) (lift 0)
      = -(a * (x () ^ 2 / (1 + x () ^ 2) ^ 2)) := by
    rw [clamped_n0, clamped_out, clampVec, hv, hn, ← hm2]
    simp [dot]
    field_simp
  show ShellSystem.residual (board 0 F) (boardLaw 0 F) x () + (∑ q ∈ (∅ : Finset Unit), _)
    + (∑ q ∈ {()}, 1 * clampVec a 1 ((clamped a).S.surf x q) ((clamped a).n0 q) ((1 : ℝ) • (clamped a).out q) (lift 0)) = _
  rw [Finset.sum_singleton, e2, e1, Finset.sum_empty]
  ring

/-- The linear problem of the plate: bending and clamping. -/
theorem board_linear (b F a : ℝ) (j j' : Unit) :
    linearEntry (board b F) (clamped a) (boardLaw b F) j j' = b ^ 2 / 12 + a := by
  have h := linear_plain' (board b F) ⟨1, fun _ => 0, fun _ => 2⟩ (fun _ => 1) (fun _ => 0) (fun _ => 1) ()
  have hf := Plate.flat_linear (E := 1) (ν := 0) (by norm_num) (by norm_num) (by norm_num) (by norm_num)
  have hE : EmDer Plate.flatS (lift b) = fun _ => 0 := by
    funext k
    rcases fin3_cases k with rfl | rfl | rfl <;> simp [EmDer, lift, Plate.flatS, dot]
  have hK : EfDer Plate.flatS (lift b) = vec3 (-b) 0 0 := by
    funext k
    simp only [EfDer, Plate.flat_normal]
    rcases fin3_cases k with rfl | rfl | rfl <;>
      simp [deriv2dot, lift, Plate.flatS, dot, dbl3]
  have hv : dot (var1 Plate.flatS (lift 0)) ⟨1, 0, 0⟩ = -1 := by
    rw [var1, mvec, Plate.flat_measure, Plate.flat_normal]
    simp [cross, lift, Plate.flatS, dot]
  have e1 : ShellSystem.linearEntry (board b F) (boardLaw b F) () () = b ^ 2 / 12 := by
    show (∑ q ∈ {()}, linStiffness Plate.flatS (lift b) (lift b) (boardLaw b F q Plate.flatS).A
      (boardLaw b F q Plate.flatS).B (boardLaw b F q Plate.flatS).C (boardLaw b F q Plate.flatS).D * (1 : ℝ)) = _
    rw [Finset.sum_singleton, linStiffness, hE, hK, h.hD, show (board b F).ori () = Plate.flatS from rfl, hf]
    simp [dotV, rowMul, Fin.sum_univ_three, Plate.iso]
    ring
  show ShellSystem.linearEntry (board b F) (boardLaw b F) () () + (∑ q ∈ (∅ : Finset Unit), _)
    + (∑ q ∈ {()}, 1 * clampMatLin a 1 Plate.flatS ((clamped a).out q) (lift 0) (lift 0)) = _
  rw [Finset.sum_singleton, e1, Finset.sum_empty, clamped_out, clampMatLin, hv]
  ring

/-- **C158** is violated: a plate whose only stiffness against tilting is the clamped side.  The linear problem has
exactly one solution for every load; the nonlinear problem has no equilibrium at all near the undeformed state for
small loads of one sign, and one on either side of it for small loads of the other sign. -/
theorem C158_flap_violated :
    (∀ F, ∃! x : EuclideanSpace ℝ Unit, ∀ j, ∑ j', linearEntry (board 0 F) (clamped 1) (boardLaw 0 F) j j' * x j'
      = linearRhs (board 0 F) (clamped 1) j) ∧
    (∀ F < 0, ∀ x : EuclideanSpace ℝ Unit, |x ()| ≤ 1 / 2 →
      residual (board 0 F) (clamped 1) (boardLaw 0 F) x ≠ 0) ∧
    (∀ F, 0 < F → F < 9 / 100 → ∃ x x' : EuclideanSpace ℝ Unit, x () < 0 ∧ -(1 / 2) ≤ x () ∧ 0 < x' () ∧ x' () ≤ 1 / 2 ∧
      residual (board 0 F) (clamped 1) (boardLaw 0 F) x = 0 ∧ residual (board 0 F) (clamped 1) (boardLaw 0 F) x' = 0) := by
  have hr : ∀ F, linearRhs (board 0 F) (clamped 1) () = F := by
    intro F
    show F + (∑ q ∈ (∅ : Finset Unit), _) = F
    rw [Finset.sum_empty, add_zero]
  refine ⟨fun F => ⟨WithLp.toLp 2 fun _ => F, fun j => ?_, fun y hy => ?_⟩, fun F hF x hx h => ?_, fun F h0 h1 => ?_⟩
  · rw [Fintype.sum_unique, board_linear]
    refine Eq.trans ?_ (hr F).symm
    show ((0 : ℝ) ^ 2 / 12 + 1) * F = F
    ring
  · have := hy ()
    rw [Fintype.sum_unique, board_linear, hr] at this
    ext j
    show y () = F
    rw [← this]
    show y () = ((0 : ℝ) ^ 2 / 12 + 1) * y ()
    ring
  · have h' := congrArg (fun w : EuclideanSpace ℝ Unit => w ()) h
    have h2 : F - x () ^ 3 / 2 - 1 * (x () ^ 2 / (1 + x () ^ 2) ^ 2) = 0 := (flap_residual F 1 x).symm.trans h'
    generalize x () = y at *
    obtain ⟨g1, g2⟩ := abs_le.1 hx
    have h3 : y ^ 2 / 4 ≤ y ^ 2 / (1 + y ^ 2) ^ 2 := by
      refine div_le_div_of_nonneg_left (sq_nonneg y) (by positivity) ?_
      have h4 : y ^ 2 ≤ 1 := by nlinarith
      nlinarith [sq_nonneg y]
    nlinarith [sq_nonneg y, mul_nonneg (sq_nonneg y) (by linarith : 0 ≤ y + 1 / 2)]
  · let f : ℝ → ℝ := fun y => y ^ 3 / 2 + y ^ 2 / (1 + y ^ 2) ^ 2
    have hf : Continuous f := by
      refine ((continuous_pow 3).div_const 2).add ((continuous_pow 2).div (by fun_prop) fun y => by positivity)
    have key : ∀ y, f y = F → residual (board 0 F) (clamped 1) (boardLaw 0 F) (WithLp.toLp 2 fun _ => y) = 0 := by
      intro y hy
      ext j
      refine (flap_residual F 1 (WithLp.toLp 2 fun _ => y)).trans ?_
      show F - y ^ 3 / 2 - 1 * (y ^ 2 / (1 + y ^ 2) ^ 2) = 0
      rw [← hy]; show y ^ 3 / 2 + y ^ 2 / (1 + y ^ 2) ^ 2 - y ^ 3 / 2 - 1 * (y ^ 2 / (1 + y ^ 2) ^ 2) = 0; ring
    have f0 : f 0 = 0 := by norm_num [f]
    have f1 : F ≤ f (-(1 / 2)) := by norm_num [f]; linarith
    have f2 : F ≤ f (1 / 2) := by norm_num [f]; linarith
    obtain ⟨y, hy, ey⟩ := intermediate_value_Icc' (by norm_num : -(1 / 2) ≤ (0 : ℝ)) hf.continuousOn
      (⟨by rw [f0]; exact h0.le, f1⟩ : F ∈ Set.Icc (f 0) (f (-(1 / 2))))
    obtain ⟨z, hz, ez⟩ := intermediate_value_Icc (by norm_num : (0 : ℝ) ≤ 1 / 2) hf.continuousOn
      (⟨by rw [f0]; exact h0.le, f2⟩ : F ∈ Set.Icc (f 0) (f (1 / 2)))
    have ny : y ≠ 0 := fun h => by rw [h, f0] at ey; exact h0.ne ey
    have nz : z ≠ 0 := fun h => by rw [h, f0] at ez; exact h0.ne ez
    exact ⟨WithLp.toLp 2 fun _ => y, WithLp.toLp 2 fun _ => z, lt_of_le_of_ne hy.2 ny, hy.1,
      lt_of_le_of_ne hz.1 (Ne.symm nz), hz.2, key y ey, key z ez⟩

/-- A plate that bends and is clamped: the derivative of the residual does not see the clamping. -/
example : ¬ HasFDerivAt (residual (board 1 1) (clamped 1) (boardLaw 1 1))
    (-tangent (board 1 1) (clamped 1) (boardLaw 1 1) 0) 0 := by
  rw [(C158_clamp_violated (board 1 1) (clamped 1) _ _ _ _ (board_rest 1 1 1) (board_admissible 1 1 1)).2]
  intro h
  have h1 := congrFun (congrFun h ()) ()
  rw [board_linear, show hinged (clamped 1) = clamped 0 from rfl, board_linear] at h1
  norm_num at h1

/-- The same plate under small loads: the linear solutions are `12/13` and `12` times the load. -/
example : ∃ l₀ C : ℝ, 0 < l₀ ∧ ∀ l : ℝ, |l| ≤ l₀ → ∃ xs : EuclideanSpace ℝ Unit,
    residual ((board 1 1).scale l) ((clamped 1).scale l) (boardLaw 1 1) xs = 0 ∧
    |l| * (12 - 12 / 13) - C * l ^ 2 ≤ ‖xs - l • WithLp.toLp 2 fun _ => (12 / 13 : ℝ)‖ := by
  have hr : linearRhs (board 1 1) (clamped 1) () = 1 := by
    show 1 + (∑ q ∈ (∅ : Finset Unit), _) = (1 : ℝ)
    rw [Finset.sum_empty, add_zero]
  have e0 : ∀ j j', linearEntry (board 1 1) (hinged (clamped 1)) (boardLaw 1 1) j j' = 1 / 12 := by
    intro j j'
    refine (board_linear 1 1 0 j j').trans ?_
    norm_num
  obtain ⟨l₀, ρ, C, h0, -, h⟩ := C158_small_violated (board 1 1) (clamped 1) ⟨1, fun _ => 0, fun _ => 2⟩ (fun _ => 1)
    (fun _ => 0) (fun _ => 1) (board_rest 1 1 1) (board_admissible 1 1 1)
    (fun v hv => by
      have := hv ()
      rw [Fintype.sum_unique, e0] at this
      ext j
      show v () = 0
      have : 1 / 12 * v () = 0 := this
      linarith)
    (WithLp.toLp 2 fun _ => 12) (WithLp.toLp 2 fun _ => 12 / 13)
    (fun j => by rw [Fintype.sum_unique, e0]; exact Eq.trans (by norm_num) hr.symm)
    (fun j => by rw [Fintype.sum_unique, board_linear]; exact Eq.trans (by norm_num) hr.symm)
  refine ⟨l₀, C, h0, fun l hl => ?_⟩
  obtain ⟨-, xs, -, e1, -, -, e2⟩ := h l hl
  refine ⟨xs, e1, ?_⟩
  have en : ‖(WithLp.toLp 2 fun _ => 12 : EuclideanSpace ℝ Unit) - WithLp.toLp 2 fun _ => 12 / 13‖ = 12 - 12 / 13 := by
    rw [EuclideanSpace.norm_eq, Fintype.sum_unique, Real.sqrt_sq (norm_nonneg _)]
    norm_num
  rw [en] at e2
  exact e2

/-! ## A plate on a spring -/

/-- One spring at a point that the only unknown moves up, prescribed height `g`. -/
def spring (a g : ℝ) : Holds Unit Unit :=
  ⟨{()}, fun _ => 1, fun _ => a, fun _ => 1, fun _ _ => vec3 0 0 1, fun _ _ => 0, fun _ => vec3 0 0 g, ∅, fun _ => 1,
    fun _ => 0, fun _ => 1, ⟨fun _ => Plate.flatS, fun _ => Plate.flatS, fun _ _ => lift 0, fun _ => 1, fun _ => 1⟩,
    fun _ => 1⟩

theorem spring_admissible (b F a g : ℝ) : (0 : EuclideanSpace ℝ Unit) ∈ Spec.HeldShell.Admissible (board b F) (spring a g) :=
  ⟨(board_admissible b F 0).1, fun _ h => absurd h (Finset.notMem_empty _)⟩

theorem board_constants (b F : ℝ) : Constants (board b F).Q (fun _ => 1) (fun _ => 0) fun _ => 1 :=
  fun _ _ => by norm_num

/-- With a prescribed height the right potential fails at the undeformed state. -/
example : ¬ HasGradientAt (potential (board 1 1) (spring 1 1) (fun _ => 1) (fun _ => 0) fun _ => 1)
    (-residual (board 1 1) (spring 1 1) (boardLaw 1 1) 0) 0 := by
  rw [(C158_sign_violated (board 1 1) (spring 1 1) ⟨1, fun _ => 0, fun _ => 2⟩ (fun _ => 1) (fun _ => 0) (fun _ => 1)
    (board_constants 1 1) rfl (spring_admissible 1 1 1 1)).2]
  intro h
  have := h ()
  simp [pull, spring, Fin.sum_univ_three] at this

/-- A bending plate on a soft spring: the tangent is regular (`1/12 - 1/24`). -/
example : entry (board 1 1) (spring (1 / 24) 0) (boardLaw 1 1) 0 () () = 1 / 24 := by
  have h : AtRest (board 1 1) (spring (1 / 24) 0) := ⟨rfl, rfl, fun _ _ => rfl⟩
  rw [(C158_linear _ _ ⟨1, fun _ => 0, fun _ => 2⟩ (fun _ => 1) (fun _ => 0) (fun _ => 1) h () ()).2]
  have e1 := board_linear 1 1 0 () ()
  have e2 : linearEntry (board 1 1) (clamped 0) (boardLaw 1 1) () ()
      = ShellSystem.linearEntry (board 1 1) (boardLaw 1 1) () () := by
    simp [linearEntry, quad, clamped, clampMatLin]
  rw [linearEntry, ← e2, e1]
  simp [quad, spring, dirMat, dotd, Fin.sum_univ_three]
  norm_num

/-- … and every displacement is unstable on a stiff one. -/
example (x : EuclideanSpace ℝ Unit) : ∃ τ₀ : ℝ, ∀ τ, τ₀ ≤ τ →
    ⟪tangent (board 1 1) (stiffer (spring 1 0) τ) (boardLaw 1 1) x (WithLp.toLp 2 fun _ => 1), WithLp.toLp 2 fun _ => 1⟫ < 0 :=
  C158_unstable_violated (board 1 1) (spring 1 0) _ _ _ _ (fun _ _ => by norm_num [spring]) x _ (q := ()) (by simp [spring])
    (i := 2) (by simp [spring])

end Verif.HeldShell
