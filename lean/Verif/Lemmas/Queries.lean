import Verif.Spec.Queries
import Verif.Lemmas.Tensor
import Verif.Lemmas.Geometry
import Verif.Lemmas.Boundary
import Mathlib.Tactic.Ring
import Mathlib.Tactic.FieldSimp
import Mathlib.Tactic.LinearCombination
import Mathlib.Algebra.Order.BigOperators.Group.Finset

/-! # Lemmas on the queries -/

set_option linter.unusedSimpArgs false

namespace Verif.Queries

open V3 Verif.Geometry

variable {ι : Type}

theorem add_sub_add (a b c : V3) : (a + c) - (b + c) = a - b := by ext <;> simp

theorem add_sub_self (a c : V3) : (a + c) - a = c := by ext <;> simp

theorem dot_self_nonneg (a : V3) : 0 ≤ dot a a := by
  have h1 := mul_self_nonneg a.x
  have h2 := mul_self_nonneg a.y
  have h3 := mul_self_nonneg a.z
  unfold dot; linarith

theorem dot_self_zero {a : V3} (h : dot a a = 0) : a = 0 := by
  have h1 := mul_self_nonneg a.x
  have h2 := mul_self_nonneg a.y
  have h3 := mul_self_nonneg a.z
  unfold dot at h
  ext
  · exact mul_self_eq_zero.1 (by linarith)
  · exact mul_self_eq_zero.1 (by linarith)
  · exact mul_self_eq_zero.1 (by linarith)

theorem sub_zero_iff (a b : V3) : a - b = 0 ↔ a = b := by
  constructor
  · intro h
    have hx := congrArg V3.x h
    have hy := congrArg V3.y h
    have hz := congrArg V3.z h
    simp at hx hy hz
    ext <;> linarith
  · rintro rfl; ext <;> simp

/-- A weighted root mean square is zero exactly if all values are. -/
theorem rms_zero (Q : Finset ι) (wt : ι → ℝ) (hw : ∀ q ∈ Q, 0 < wt q) (f : ι → V3) :
    Real.sqrt (∑ q ∈ Q, wt q * dot (f q) (f q)) = 0 ↔ ∀ q ∈ Q, f q = 0 := by
  have hn : ∀ q ∈ Q, 0 ≤ wt q * dot (f q) (f q) := fun q hq =>
    mul_nonneg (hw q hq).le (dot_self_nonneg _)
  rw [Real.sqrt_eq_zero (Finset.sum_nonneg hn), Finset.sum_eq_zero_iff_of_nonneg hn]
  constructor
  · intro h q hq
    rcases mul_eq_zero.1 (h q hq) with h' | h'
    · exact absurd h' (hw q hq).ne'
    · exact dot_self_zero h'
  · intro h q hq
    rw [h q hq]; simp [dot]

theorem reparam_cross (s : Surf) (J : T2) (h1 h2 : Fin 3 → ℝ) :
    cross ((reparam s J h1 h2).a 0) ((reparam s J h1 h2).a 1) = det2 J • cross (s.a 0) (s.a 1) := by
  ext <;> simp [reparam, cross, det2] <;> ring

theorem normalized_smul (c : ℝ) (v : V3) (hc : c ≠ 0) :
    normalized (c • v) = (c / |c|) • normalized v := by
  have hd : V3.norm (c • v) = |c| * V3.norm v := by
    unfold V3.norm
    have : dot (c • v) (c • v) = c ^ 2 * dot v v := by simp [dot]; ring
    rw [this, Real.sqrt_mul (sq_nonneg c), Real.sqrt_sq_eq_abs]
  have ha : |c| ≠ 0 := abs_ne_zero.2 hc
  unfold normalized
  rw [hd]
  by_cases hv : V3.norm v = 0
  · rw [hv]; ext <;> simp
  · ext <;> simp <;> field_simp

theorem reparam_normal (s : Surf) (J : T2) (h1 h2 : Fin 3 → ℝ) (hJ : det2 J ≠ 0) :
    normal (reparam s J h1 h2) = (det2 J / |det2 J|) • normal s := by
  unfold normal
  rw [reparam_cross, normalized_smul _ _ hJ]

theorem reparam_Acov (s : Surf) (J : T2) (h1 h2 : Fin 3 → ℝ) (i j : Fin 2) :
    Acov (reparam s J h1 h2) i j = ∑ k, ∑ l, J k i * Acov s k l * J l j := by
  simp only [Acov, reparam, Fin.sum_univ_two, dot]
  simp; ring

theorem normal_tangent (s : Surf) (i : Fin 2) : dot (s.a i) (normal s) = 0 := by
  unfold normal normalized
  rcases fin2_cases i with rfl | rfl <;> simp [dot, cross] <;> ring

theorem reparam_Bcov (s : Surf) (J : T2) (h1 h2 : Fin 3 → ℝ) (hJ : det2 J ≠ 0) (i j : Fin 2) :
    Bcov (reparam s J h1 h2) i j
      = det2 J / |det2 J| * ∑ k, ∑ l, J k i * Bcov s k l * J l j := by
  have t0 := normal_tangent s 0
  have t1 := normal_tangent s 1
  unfold Bcov
  rw [reparam_normal s J h1 h2 hJ]
  generalize normal s = n at t0 t1 ⊢
  generalize det2 J / |det2 J| = σ
  simp only [dot] at t0 t1
  rcases fin2_cases i with rfl | rfl <;> rcases fin2_cases j with rfl | rfl <;>
    simp [reparam, dot, Fin.sum_univ_two]
  · linear_combination (σ * h1 0) * t0 + (σ * h2 0) * t1
  · linear_combination (σ * h1 2) * t0 + (σ * h2 2) * t1
  · linear_combination (σ * h1 2) * t0 + (σ * h2 2) * t1
  · linear_combination (σ * h1 1) * t0 + (σ * h2 1) * t1

theorem gauss_eq (s : Surf) : gauss s = det2 (Bcov s) / det2 (Acov s) := by
  have key : gauss s = det2 (Bcov s) * det2 (Acov s) / (det2 (Acov s) * det2 (Acov s)) := by
    unfold gauss shape inv2
    have hD : det2 (Acov s) = Acov s 0 0 * Acov s 1 1 - Acov s 0 1 * Acov s 1 0 := rfl
    generalize det2 (Acov s) = D at hD ⊢
    simp only [det2, Fin.sum_univ_two]
    simp only [Matrix.cons_val_zero, Matrix.cons_val_one]
    rw [show ∀ a b c d e f g h : ℝ, (a / D * b + -c / D * d) * (-e / D * f + g / D * h)
      - (a / D * f + -c / D * h) * (-e / D * b + g / D * d)
        = (b * h - f * d) * (g * a - c * e) / (D * D) from fun a b c d e f g h => by ring, ← hD]
  rw [key]
  by_cases h : det2 (Acov s) = 0
  · rw [h]; simp
  · rw [mul_div_mul_right _ _ h]

theorem mean_eq (s : Surf) : mean s = (Acov s 1 1 * Bcov s 0 0 - Acov s 0 1 * Bcov s 1 0
    - Acov s 1 0 * Bcov s 0 1 + Acov s 0 0 * Bcov s 1 1) / det2 (Acov s) := by
  unfold mean shape
  simp [inv2, Fin.sum_univ_two]
  ring

end Verif.Queries
