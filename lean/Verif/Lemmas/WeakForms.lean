import Verif.Spec.WeakForms
import Verif.Lemmas.Boundary
import Verif.Props.Boundary
import Mathlib.Analysis.Calculus.Deriv.Pow

/-! # Lemmas on boundary and interface terms -/

namespace Verif.WeakForms

open V3 Verif.Geometry Verif.Variation

variable {ι F : Type}

theorem quad_hasDeriv (Q : Finset ι) (wt : ι → ℝ) (f : ι → ℝ → ℝ) (f' : ι → ℝ) (t : ℝ)
    (h : ∀ q ∈ Q, HasDerivAt (f q) (f' q) t) :
    HasDerivAt (fun s => quad Q wt (fun q => f q s)) (quad Q wt f') t := by
  unfold quad
  exact HasDerivAt.fun_sum (u := Q) (fun q hq => (h q hq).const_mul (wt q))

theorem quad_neg (Q : Finset ι) (wt f : ι → ℝ) : quad Q wt (fun q => -f q) = -quad Q wt f := by
  simp [quad]

theorem dotd_add_smul {d : ℕ} (v u w : Vd d) (t : ℝ) :
    dotd v (fun i => u i + t * w i) = dotd v u + t * dotd v w := by
  simp only [dotd, Finset.mul_sum, ← Finset.sum_add_distrib]
  exact Finset.sum_congr rfl (fun i _ => by ring)

theorem dotd_sub {d : ℕ} (v u w : Vd d) :
    dotd v (fun i => u i - w i) = dotd v u - dotd v w := by
  simp only [dotd, ← Finset.sum_sub_distrib]
  exact Finset.sum_congr rfl (fun i _ => by ring)

theorem dotd_comm {d : ℕ} (v w : Vd d) : dotd v w = dotd w v := by
  simp only [dotd]
  exact Finset.sum_congr rfl (fun i _ => by ring)

theorem dotd_self_nonneg {d : ℕ} (v : Vd d) : 0 ≤ dotd v v :=
  Finset.sum_nonneg (fun _ _ => mul_self_nonneg _)

theorem dotd_self_eq_zero {d : ℕ} (v : Vd d) (h : dotd v v = 0) : v = 0 := by
  have h' := (Finset.sum_eq_zero_iff_of_nonneg (fun i _ => mul_self_nonneg (v i))).1 h
  funext i
  exact mul_self_eq_zero.1 (h' i (Finset.mem_univ i))

theorem dotd_line {d : ℕ} (v u w : Vd d) :
    HasDerivAt (fun t : ℝ => dotd v (fun i => u i + t * w i)) (dotd v w) 0 := by
  simp only [dotd_add_smul]
  simpa using ((hasDerivAt_id' (0 : ℝ)).mul_const (dotd v w)).const_add (dotd v u)

/-- A weighted sum of inner products that vanishes for all test fields. -/
theorem quad_test {d : ℕ} (Q : Finset ι) (wt c : ι → ℝ) (x : ι → Vd d)
    (hw : ∀ q ∈ Q, 0 < wt q) (hc : ∀ q ∈ Q, 0 < c q)
    (h : ∀ v : ι → Vd d, quad Q wt (fun q => c q * dotd (v q) (x q)) = 0) :
    ∀ q ∈ Q, x q = 0 := by
  have h0 := h x
  unfold quad at h0
  have h1 := (Finset.sum_eq_zero_iff_of_nonneg (fun q hq =>
    mul_nonneg (hw q hq).le (mul_nonneg (hc q hq).le (dotd_self_nonneg (x q))))).1 h0
  intro q hq
  have h2 := h1 q hq
  apply dotd_self_eq_zero
  rcases mul_eq_zero.1 h2 with h3 | h3
  · exact absurd h3 (hw q hq).ne'
  · rcases mul_eq_zero.1 h3 with h4 | h4
    · exact absurd h4 (hc q hq).ne'
    · exact h4

/-! ## Curves of sides -/

theorem sideCurve_nvar (s v w : Surf) (h : Indep (s.a 0) (s.a 1)) (c : Fin 2) (σ : ℝ) :
    NVar (sideCurve s w c σ) v w := by
  constructor
  · simpa only [sideCurve, sideOf, shift_zero] using hasVDeriv_normal s w h
  · simpa only [sideCurve, sideOf, shift_zero] using hasVDeriv_var1 s v w h

theorem sideOf_crosses (s : Surf) (h : Indep (s.a 0) (s.a 1)) (c : Fin 2) (σ : ℝ)
    (hσ : σ = 1 ∨ σ = -1) : Crosses s c (cross (normalized (σ • s.a c)) (normal s)) := by
  have hc := C65_side s h c σ hσ
  have hN := (norm_pos (smul_ne _ (Indep.ne s h c) σ hσ)).ne'
  have e : cross (normalized (σ • s.a c)) (normal s)
      = (1 / V3.norm (σ • s.a c)) • cross (σ • s.a c) (unitNormal (s.a 0) (s.a 1)) := by
    change cross (normalized (σ • s.a c)) (normal s)
      = (1 / V3.norm (σ • s.a c)) • cross (σ • s.a c) (normal s)
    generalize normal s = n
    unfold normalized
    ext <;> simp [cross] <;> ring
  rw [e]
  constructor
  · rw [dot_smul_right, hc.1, mul_zero]
  · rw [dot_smul_right]
    exact mul_ne_zero (one_div_ne_zero hN) hc.2

theorem sideOf_o1 (s : Surf) (h : Indep (s.a 0) (s.a 1)) (c : Fin 2) (σ : ℝ)
    (hσ : σ = 1 ∨ σ = -1) (v : Surf) : (sideOf s (σ • s.a c)).o1 v = ovarC s c σ v :=
  ovar1_eq s h c _ (sideOf_crosses s h c σ hσ) σ hσ v

theorem sideCurve_o (s w : Surf) (h : Indep (s.a 0) (s.a 1)) (c : Fin 2) (σ : ℝ)
    (hσ : σ = 1 ∨ σ = -1) :
    HasVDeriv (fun t => (sideCurve s w c σ t).o) ((sideCurve s w c σ 0).o1 w) 0 := by
  have h1 : (sideCurve s w c σ 0).o1 w = ovarC s c σ w := by
    simp only [sideCurve, shift_zero]
    exact sideOf_o1 s h c σ hσ w
  rw [h1]
  exact hasVDeriv_outer s w h c σ hσ

theorem sideCurve_ovar (s v w : Surf) (h : Indep (s.a 0) (s.a 1))
    (hu : ∀ i, V3.norm (s.a i) = 1) (c : Fin 2) (σ : ℝ) (hσ : σ = 1 ∨ σ = -1) :
    OVar (sideCurve s w c σ) v w := by
  refine ⟨sideCurve_o s w h c σ hσ, ?_⟩
  have h2 : (sideCurve s w c σ 0).o2 v w = ovar2C s c σ v w := by
    simp only [sideCurve, shift_zero]
    exact ovar2_eq s h hu c _ (sideOf_crosses s h c σ hσ) σ hσ v w
  rw [h2]
  refine (hasVDeriv_ovarC s v w h c σ hσ).congr_eventually ?_
  filter_upwards [eventually_indep s w h] with t ht
  exact sideOf_o1 _ (indep_of_cross ht) c σ hσ v

end Verif.WeakForms
