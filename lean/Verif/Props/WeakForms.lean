import Verif.Lemmas.WeakForms
import Mathlib.Tactic.NormNum
import Mathlib.Tactic.Positivity
import Mathlib.Tactic.LinearCombination

/-! # Properties C71, C72, C75: weak Dirichlet, weak C0, pressure and foundation -/

set_option linter.unusedSimpArgs false

namespace Verif.WeakForms

open V3 Verif.Geometry Verif.Variation

variable {ι : Type} {d : ℕ}

/-- One quadrature point with weight, measure and factor 1 is an admissible rule. -/
example : ∀ q ∈ ({0} : Finset ℕ), (0 : ℝ) < (fun _ => 1 : ℕ → ℝ) q := by simp

/-! ## C71 -/

/-- **C71** (partial: nonlinear assembly) The penalty vector vanishes for all test fields exactly if
the displacement equals the prescribed one at all quadrature points. -/
theorem C71_vanish_partial (Q : Finset ι) (wt α μ : ι → ℝ) (hw : ∀ q ∈ Q, 0 < wt q)
    (hα : ∀ q ∈ Q, 0 < α q) (hμ : ∀ q ∈ Q, 0 < μ q) (u g : ι → Vd d) :
    (∀ v : ι → Vd d, quad Q wt (fun q => dirVec (α q) (μ q) (u q) (g q) (v q)) = 0) ↔
      ∀ q ∈ Q, u q = g q := by
  have e : ∀ v : ι → Vd d, (fun q => dirVec (α q) (μ q) (u q) (g q) (v q))
      = fun q => (α q * μ q) * dotd (v q) (fun i => u q i - g q i) := by
    intro v; funext q
    rw [dotd_sub]; unfold dirVec; ring
  constructor
  · intro h q hq
    have := quad_test Q wt (fun q => α q * μ q) (fun q i => u q i - g q i) hw
      (fun q hq => mul_pos (hα q hq) (hμ q hq)) (fun v => by rw [← e]; exact h v) q hq
    funext i
    exact sub_eq_zero.1 (congrFun this i)
  · intro h v
    rw [e]
    refine Finset.sum_eq_zero (fun q hq => ?_)
    beta_reduce; rw [h q hq]; simp [dotd]

/-- **C71** (partial: nonlinear assembly) The matrix is minus the derivative of the vector, in 2D and
3D. -/
theorem C71_tangent_partial (Q : Finset ι) (wt α μ : ι → ℝ) (u g v w : ι → Vd d) :
    HasDerivAt (fun t : ℝ => quad Q wt (fun q =>
        dirVec (α q) (μ q) (fun i => u q i + t * w q i) (g q) (v q)))
      (-quad Q wt (fun q => dirMat (α q) (μ q) (v q) (w q))) 0 := by
  rw [← quad_neg]
  refine quad_hasDeriv Q wt _ _ 0 (fun q _ => ?_)
  have h := (((dotd_line (v q) (u q) (w q)).sub_const (dotd (v q) (g q))).const_mul (α q)).mul_const
    (μ q)
  refine h.congr_deriv ?_
  unfold dirMat; ring

/-- **C71** (partial: linear assembly in 3D) The penalty equations hold for all test fields exactly
at the prescribed displacement, and the right-hand side is the nonlinear one at zero
displacement. -/
theorem C71_linear_partial (Q : Finset ι) (wt α μ : ι → ℝ) (hw : ∀ q ∈ Q, 0 < wt q)
    (hα : ∀ q ∈ Q, 0 < α q) (hμ : ∀ q ∈ Q, 0 < μ q) (u g : ι → Vd d) :
    ((∀ v : ι → Vd d, quad Q wt (fun q => dirMat (α q) (μ q) (v q) (u q)) =
        quad Q wt (fun q => dirVecLin3 (α q) (μ q) (g q) (v q))) ↔ ∀ q ∈ Q, u q = g q) ∧
    ∀ q (v : Vd d), dirVecLin3 (α q) (μ q) (g q) v = dirVec (α q) (μ q) 0 (g q) v := by
  constructor
  · rw [← C71_vanish_partial Q wt α μ hw hα hμ u g]
    have e : ∀ v : ι → Vd d, quad Q wt (fun q => dirVec (α q) (μ q) (u q) (g q) (v q))
        = quad Q wt (fun q => dirVecLin3 (α q) (μ q) (g q) (v q))
          - quad Q wt (fun q => dirMat (α q) (μ q) (v q) (u q)) := by
      intro v
      unfold quad
      rw [← Finset.sum_sub_distrib]
      refine Finset.sum_congr rfl (fun q _ => ?_)
      unfold dirVec dirVecLin3 dirMat; ring
    constructor
    · intro h v; rw [e, h v]; ring
    · intro h v; have := h v; rw [e] at this; linarith
  · intro q v
    unfold dirVec dirVecLin3
    have : dotd v 0 = 0 := by simp [dotd]
    rw [this]; ring

/-- **C71** (partial: linear assembly in 2D when the scaled penalty factor equals the option) The
right-hand side is the same as in 3D. -/
theorem C71_planar_partial (α μ : ℝ) (x g v : Vd d) :
    dirVecLin2 α μ x g v = dirVecLin3 α μ g v := by
  have : dotd v (fun i => x i - x i) = 0 := by simp [dotd]
  unfold dirVecLin2 dirVecLin3
  rw [this]; ring

/-- **C71** is violated: in linear planar assembly the prescribed displacement does not solve the
penalty equations unless the scaled factor `α` happens to equal the option `c`; instead the
displacement `(c/α) g` does. -/
theorem C71_planar_violated (c α μ : ℝ) (hα : α ≠ 0) (hμ : μ ≠ 0) (hc : c ≠ α) (x g : Vd d)
    (hg : g ≠ 0) :
    (∃ v : Vd d, dirMat α μ v g ≠ dirVecLin2 c μ x g v) ∧
    ∀ v : Vd d, dirMat α μ v (fun i => c / α * g i) = dirVecLin2 c μ x g v := by
  have h0 : ∀ v : Vd d, dotd v (fun i => x i - x i) = 0 := fun v => by simp [dotd]
  constructor
  · refine ⟨g, fun h => ?_⟩
    have hgg : dotd g g ≠ 0 := fun h => hg (dotd_self_eq_zero g h)
    unfold dirMat dirVecLin2 at h
    rw [h0] at h
    have : (c - α) * (dotd g g * μ) = 0 := by linear_combination h
    rcases mul_eq_zero.1 this with h1 | h1
    · exact hc (sub_eq_zero.1 h1)
    · exact (mul_ne_zero hgg hμ) h1
  · intro v
    have : dotd v (fun i => c / α * g i) = c / α * dotd v g := by
      simp only [dotd, Finset.mul_sum]
      exact Finset.sum_congr rfl (fun i _ => by ring)
    unfold dirMat dirVecLin2
    rw [this, h0]
    field_simp
    ring

/-- Non-vacuity: option 1000, scaled factor 2, prescribed displacement (1, 0). -/
example : (1000 : ℝ) ≠ 2 ∧ (fun i : Fin 2 => if i = 0 then (1 : ℝ) else 0) ≠ 0 :=
  ⟨by norm_num, fun h => by have := congrFun h 0; simp at this⟩

/-- **C71** is violated: the contribution to the stiffness is negative for every non-zero field, for
all positive factors; it is minus the second derivative of the penalty energy. -/
theorem C71_definite_violated (α μ : ℝ) (hα : 0 < α) (hμ : 0 < μ) (v : Vd d) (hv : v ≠ 0) :
    dirMat α μ v v < 0 := by
  have h1 : 0 < dotd v v :=
    lt_of_le_of_ne (dotd_self_nonneg v) (fun h => hv (dotd_self_eq_zero v h.symm))
  unfold dirMat
  have : 0 < α * dotd v v * μ := by positivity
  linarith

/-- Non-vacuity. -/
example : (fun _ : Fin 3 => (1 : ℝ)) ≠ 0 := fun h => by
  have := congrFun h 0; simp at this

/-- **C71** is violated: the vector is plus, not minus, the derivative of the penalty energy. -/
theorem C71_energy_violated (α μ : ℝ) (u g w : Vd d) :
    HasDerivAt (fun t : ℝ => dirEnergy α μ (fun i => u i + t * w i) g) (dirVec α μ u g w) 0 := by
  have h : ∀ i, HasDerivAt (fun t : ℝ => (u i + t * w i - g i) ^ 2) (2 * (u i - g i) * w i) 0 := by
    intro i
    have := ((((hasDerivAt_id' (0 : ℝ)).mul_const (w i)).const_add (u i)).sub_const (g i)).pow 2
    refine this.congr_deriv ?_
    simp
  have hs := HasDerivAt.fun_sum (u := Finset.univ) (fun i (_ : i ∈ Finset.univ) => h i)
  have h2 := (hs.const_mul (α / 2)).mul_const μ
  refine h2.congr_deriv ?_
  unfold dirVec
  rw [← dotd_sub]
  unfold dotd
  rw [Finset.mul_sum, Finset.mul_sum]
  congr 1
  exact Finset.sum_congr rfl (fun i _ => by ring)

/-! ## C72 -/

/-- The blocks are the inner product of the jumps. -/
theorem c0Mat_eq (α μ : ℝ) (vL vR wL wR : Vd d) :
    c0Mat α μ vL vR wL wR = α * μ * dotd (fun i => vL i - vR i) (fun i => wL i - wR i) := by
  rw [dotd_sub, dotd_comm _ wL, dotd_comm _ wR, dotd_sub, dotd_sub]
  unfold c0Mat
  rw [dotd_comm wL vL, dotd_comm wL vR, dotd_comm wR vL, dotd_comm wR vR]
  ring

/-- **C72** (partial: nonlinear assembly in 3D) The coupling matrix is minus the derivative of the
coupling vector. -/
theorem C72_tangent_partial (Q : Finset ι) (wt α μ : ι → ℝ) (uL uR vL vR wL wR : ι → Vd d) :
    HasDerivAt (fun t : ℝ => quad Q wt (fun q => c0Vec3 (α q) (μ q)
        (fun i => uL q i + t * wL q i) (fun i => uR q i + t * wR q i) (vL q) (vR q)))
      (-quad Q wt (fun q => c0Mat (α q) (μ q) (vL q) (vR q) (wL q) (wR q))) 0 := by
  rw [← quad_neg]
  refine quad_hasDeriv Q wt _ _ 0 (fun q _ => ?_)
  have h1 := (dotd_line (vL q) (uL q) (wL q)).sub (dotd_line (vL q) (uR q) (wR q))
  have h2 := (dotd_line (vR q) (uL q) (wL q)).sub (dotd_line (vR q) (uR q) (wR q))
  have h := ((h1.const_mul (-α q)).mul_const (μ q)).add ((h2.const_mul (α q)).mul_const (μ q))
  refine (h.congr_deriv ?_).congr_of_eventuallyEq (Filter.Eventually.of_forall (fun t => ?_))
  · unfold c0Mat; ring
  · simp only [c0Vec3, dotd_sub, Pi.add_apply, Pi.sub_apply]

/-- **C72** (partial: nonlinear assembly in 3D) The coupling vector is minus the gradient of the
penalty energy of the jump. -/
theorem C72_energy_partial (α μ : ℝ) (uL uR wL wR : Vd d) :
    HasDerivAt (fun t : ℝ => jumpEnergy α μ (fun i => uL i + t * wL i) (fun i => uR i + t * wR i))
      (-c0Vec3 α μ uL uR wL wR) 0 := by
  have h : ∀ i, HasDerivAt (fun t : ℝ => (uL i + t * wL i - (uR i + t * wR i)) ^ 2)
      (2 * (uL i - uR i) * (wL i - wR i)) 0 := by
    intro i
    have := ((((hasDerivAt_id' (0 : ℝ)).mul_const (wL i)).const_add (uL i)).sub
      (((hasDerivAt_id' (0 : ℝ)).mul_const (wR i)).const_add (uR i))).pow 2
    refine this.congr_deriv ?_
    simp
  have hs := HasDerivAt.fun_sum (u := Finset.univ) (fun i (_ : i ∈ Finset.univ) => h i)
  have h2 := (hs.const_mul (α / 2)).mul_const μ
  refine h2.congr_deriv ?_
  unfold c0Vec3 dotd
  have e : ∑ i, 2 * (uL i - uR i) * (wL i - wR i)
      = 2 * (∑ i, wL i * (uL i - uR i) - ∑ i, wR i * (uL i - uR i)) := by
    rw [← Finset.sum_sub_distrib, Finset.mul_sum]
    exact Finset.sum_congr rfl (fun i _ => by ring)
  rw [e]; ring

/-- **C72** The coupling matrix is symmetric and positive semi-definite and vanishes for equal
displacements of both sides, in 2D and 3D, linear and nonlinear. -/
theorem C72_matrix (Q : Finset ι) (wt α μ : ι → ℝ) (hw : ∀ q ∈ Q, 0 ≤ wt q)
    (hα : ∀ q ∈ Q, 0 ≤ α q) (hμ : ∀ q ∈ Q, 0 ≤ μ q) (vL vR wL wR : ι → Vd d) :
    quad Q wt (fun q => c0Mat (α q) (μ q) (vL q) (vR q) (wL q) (wR q)) =
      quad Q wt (fun q => c0Mat (α q) (μ q) (wL q) (wR q) (vL q) (vR q)) ∧
    0 ≤ quad Q wt (fun q => c0Mat (α q) (μ q) (vL q) (vR q) (vL q) (vR q)) ∧
    ((∀ q ∈ Q, wL q = wR q) →
      quad Q wt (fun q => c0Mat (α q) (μ q) (vL q) (vR q) (wL q) (wR q)) = 0) ∧
    quad Q wt (fun q => c0MatLin2 (α q) (μ q) (vL q) (vR q) (wL q) (wR q)) =
      quad Q wt (fun q => c0MatLin2 (α q) (μ q) (wL q) (wR q) (vL q) (vR q)) ∧
    0 ≤ quad Q wt (fun q => c0MatLin2 (α q) (μ q) (vL q) (vR q) (vL q) (vR q)) ∧
    ((∀ q ∈ Q, wL q = wR q) →
      quad Q wt (fun q => c0MatLin2 (α q) (μ q) (vL q) (vR q) (wL q) (wR q)) = 0) := by
  have e2 : ∀ (α μ : ℝ) (vL vR wL wR : Vd d),
      c0MatLin2 α μ vL vR wL wR = μ * c0Mat α μ vL vR wL wR := by
    intro α μ vL vR wL wR; unfold c0MatLin2 c0Mat; ring
  simp only [e2, c0Mat_eq]
  refine ⟨?_, ?_, ?_, ?_, ?_, ?_⟩
  · unfold quad
    exact Finset.sum_congr rfl (fun q _ => by beta_reduce; rw [dotd_comm (fun i => vL q i - vR q i)])
  · exact Finset.sum_nonneg (fun q hq => mul_nonneg (hw q hq)
      (mul_nonneg (mul_nonneg (hα q hq) (hμ q hq)) (dotd_self_nonneg _)))
  · intro h
    refine Finset.sum_eq_zero (fun q hq => ?_)
    beta_reduce; rw [h q hq]; simp [dotd]
  · unfold quad
    exact Finset.sum_congr rfl (fun q _ => by beta_reduce; rw [dotd_comm (fun i => vL q i - vR q i)])
  · exact Finset.sum_nonneg (fun q hq => mul_nonneg (hw q hq) (mul_nonneg (hμ q hq)
      (mul_nonneg (mul_nonneg (hα q hq) (hμ q hq)) (dotd_self_nonneg _))))
  · intro h
    refine Finset.sum_eq_zero (fun q hq => ?_)
    beta_reduce; rw [h q hq]; simp [dotd]

/-- Non-vacuity: a jump has positive penalty. -/
example : c0Mat (d := 2) 3 2 (fun _ => 1) 0 (fun _ => 1) 0 = 12 := by
  simp [c0Mat, dotd]; norm_num

/-- **C72** is violated: in planar nonlinear assembly the matrix is plus the derivative of the
vector (for all data), hence not minus it whenever it is not zero. -/
theorem C72_planar_violated (α μ : ℝ) (uL uR vL vR wL wR : Vd d)
    (hne : c0Mat α μ vL vR wL wR ≠ 0) :
    HasDerivAt (fun t : ℝ => c0Vec2 α μ (fun i => uL i + t * wL i) (fun i => uR i + t * wR i) vL vR)
      (c0Mat α μ vL vR wL wR) 0 ∧
    ¬ HasDerivAt (fun t : ℝ => c0Vec2 α μ (fun i => uL i + t * wL i) (fun i => uR i + t * wR i) vL vR)
      (-c0Mat α μ vL vR wL wR) 0 := by
  have h1 := (dotd_line vL uL wL).sub (dotd_line vL uR wR)
  have h2 := (dotd_line vR uL wL).sub (dotd_line vR uR wR)
  have h := ((h1.const_mul α).mul_const μ).add ((h2.const_mul (-α)).mul_const μ)
  have h3 : HasDerivAt (fun t : ℝ => c0Vec2 α μ (fun i => uL i + t * wL i)
      (fun i => uR i + t * wR i) vL vR) (c0Mat α μ vL vR wL wR) 0 := by
    refine (h.congr_deriv ?_).congr_of_eventuallyEq (Filter.Eventually.of_forall (fun t => ?_))
    · unfold c0Mat; ring
    · simp only [c0Vec2, dotd_sub, Pi.add_apply, Pi.sub_apply]
  refine ⟨h3, fun h4 => hne ?_⟩
  have := h3.unique h4
  linarith

/-- **C72** is violated: the planar linear matrix weighs the jump with the square of the line
measure; it differs from the planar nonlinear matrix wherever the measure is not 1. -/
theorem C72_measure_violated (α μ : ℝ) (hμ : μ ≠ 1) (vL vR wL wR : Vd d)
    (hne : c0Mat α μ vL vR wL wR ≠ 0) :
    c0MatLin2 α μ vL vR wL wR = μ * c0Mat α μ vL vR wL wR ∧
    c0MatLin2 α μ vL vR wL wR ≠ c0Mat α μ vL vR wL wR := by
  have e2 : c0MatLin2 α μ vL vR wL wR = μ * c0Mat α μ vL vR wL wR := by
    unfold c0MatLin2 c0Mat; ring
  refine ⟨e2, fun h => hμ ?_⟩
  rw [e2] at h
  exact mul_right_cancel₀ hne (by linarith)

/-! ## C75 -/

/-- **C75** (partial: pressure) The matrix of the follower pressure is minus the derivative of its
vector, for every regular surface; `vv` is the value of the test function, whose row does not
depend on the displacement. -/
theorem C75_pressure_partial (Q : Finset ι) (wt p μ : ι → ℝ) (s w : ι → Surf)
    (hs : ∀ q ∈ Q, Indep ((s q).a 0) ((s q).a 1)) (vv : ι → V3) :
    HasDerivAt (fun t : ℝ => quad Q wt (fun q => pressVec (p q) (μ q) (shift (s q) (w q) t) (vv q)))
      (-quad Q wt (fun q => pressMat (p q) (μ q) (s q) (vv q) (w q))) 0 := by
  rw [← quad_neg]
  refine quad_hasDeriv Q wt _ _ 0 (fun q hq => ?_)
  have h := (((hasVDeriv_normal (s q) (w q) (hs q hq)).const_dot (vv q)).const_mul (p q)).mul_const
    (μ q)
  refine h.congr_deriv ?_
  unfold pressMat; ring

/-- **C75** (partial: pressure) The vector is the pressure times the unit normal, weighted with the
reference measure. -/
theorem C75_load_partial (p μ : ℝ) (s : Surf) (vv : V3) :
    pressVec p μ s vv = dot vv (p • unitNormal (s.a 0) (s.a 1)) * μ := by
  change p * dot vv (normal s) * μ = dot vv (p • normal s) * μ
  rw [dot_smul_right]

/-- Non-vacuity: a regular surface. -/
example : Indep (⟨1, 0, 0⟩ : V3) ⟨0, 1, 0⟩ := by
  intro c d h
  have hx := congrArg V3.x h
  have hy := congrArg V3.y h
  simp at hx hy
  exact ⟨hx, hy⟩

/-- **C75** (partial: linear assembly) The foundation matrix is the stiffness `k`, symmetric, and
non-negative for non-negative stiffnesses; the vectors of linear and nonlinear assembly agree at
zero displacement. -/
theorem C75_foundation_partial (μ : ℝ) (hμ : 0 ≤ μ) (k : V3) (hk : 0 ≤ k.x ∧ 0 ≤ k.y ∧ 0 ≤ k.z)
    (v w : V3) :
    foundMat μ k v w = foundMat μ k w v ∧ 0 ≤ foundMat μ k v v ∧
    foundVec μ k 0 v = foundVecLin μ := by
  refine ⟨by unfold foundMat diagDot; ring, ?_, by simp [foundVec, foundVecLin, diagDot]⟩
  unfold foundMat diagDot
  have h1 := mul_nonneg hk.1 (mul_self_nonneg v.x)
  have h2 := mul_nonneg hk.2.1 (mul_self_nonneg v.y)
  have h3 := mul_nonneg hk.2.2 (mul_self_nonneg v.z)
  have : 0 ≤ v.x * k.x * v.x + v.y * k.y * v.y + v.z * k.z * v.z := by nlinarith
  exact mul_nonneg this hμ

/-- **C75** is violated: the foundation vector is `+k u`, so the matrix is plus the derivative of
the vector for all data, and never minus it unless it is zero: the foundation pushes the shell
away. -/
theorem C75_foundation_violated (μ : ℝ) (k u v w : V3) (hne : foundMat μ k v w ≠ 0) :
    HasDerivAt (fun t : ℝ => foundVec μ k (u + t • w) v) (foundMat μ k v w) 0 ∧
    ¬ HasDerivAt (fun t : ℝ => foundVec μ k (u + t • w) v) (-foundMat μ k v w) 0 := by
  have h : HasDerivAt (fun t : ℝ => foundVec μ k (u + t • w) v) (foundMat μ k v w) 0 := by
    have h0 := ((hasDerivAt_id' (0 : ℝ)).mul_const (foundMat μ k v w)).const_add (foundVec μ k u v)
    refine (h0.congr_deriv (by ring)).congr_of_eventuallyEq
      (Filter.Eventually.of_forall (fun t => ?_))
    simp [foundVec, foundMat, diagDot]; ring
  refine ⟨h, fun h2 => hne ?_⟩
  have := h.unique h2
  linarith

/-- **C75** is violated: with stiffness 1 the residual of a displacement in its own direction is
positive instead of negative. -/
theorem C75_sign_violated (μ : ℝ) (hμ : 0 < μ) (k u : V3) (hk : 0 < k.x ∧ 0 < k.y ∧ 0 < k.z)
    (hu : u ≠ 0) : 0 < foundVec μ k u u := by
  have hp := dot_self_pos hu
  unfold foundVec diagDot
  refine mul_pos ?_ hμ
  have h1 := mul_nonneg hk.1.le (mul_self_nonneg u.x)
  have h2 := mul_nonneg hk.2.1.le (mul_self_nonneg u.y)
  have h3 := mul_nonneg hk.2.2.le (mul_self_nonneg u.z)
  by_contra hneg
  have hx : k.x * (u.x * u.x) = 0 := by nlinarith
  have hy : k.y * (u.y * u.y) = 0 := by nlinarith
  have hz : k.z * (u.z * u.z) = 0 := by nlinarith
  have hx' := (mul_eq_zero.1 hx).resolve_left hk.1.ne'
  have hy' := (mul_eq_zero.1 hy).resolve_left hk.2.1.ne'
  have hz' := (mul_eq_zero.1 hz).resolve_left hk.2.2.ne'
  simp [dot, hx', hy', hz'] at hp

/-- Non-vacuity. -/
example : foundMat 1 ⟨0, 0, 5⟩ ⟨0, 0, 1⟩ ⟨0, 0, 1⟩ ≠ 0 := by norm_num [foundMat, diagDot]

end Verif.WeakForms
