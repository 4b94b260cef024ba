import Verif.Model.Tensor

/-! # Helper lemmas on vectors and small tensors -/

namespace Verif

theorem fin3_cases (i : Fin 3) : i = 0 ∨ i = 1 ∨ i = 2 := by omega

theorem fin2_cases (i : Fin 2) : i = 0 ∨ i = 1 := by omega

namespace V3

theorem dot_comm (u v : V3) : dot u v = dot v u := by unfold dot; ring

theorem dot_add_left (u v w : V3) : dot (u + v) w = dot u w + dot v w := by
  simp [dot]; ring

theorem dot_add_right (u v w : V3) : dot u (v + w) = dot u v + dot u w := by
  simp [dot]; ring

theorem dot_sub_left (u v w : V3) : dot (u - v) w = dot u w - dot v w := by
  simp [dot]; ring

theorem dot_sub_right (u v w : V3) : dot u (v - w) = dot u v - dot u w := by
  simp [dot]; ring

theorem dot_neg_left (u v : V3) : dot (-u) v = -dot u v := by simp [dot]; ring

theorem dot_neg_right (u v : V3) : dot u (-v) = -dot u v := by simp [dot]; ring

theorem dot_smul_left (c : ℝ) (u v : V3) : dot (c • u) v = c * dot u v := by
  simp [dot]; ring

theorem dot_smul_right (c : ℝ) (u v : V3) : dot u (c • v) = c * dot u v := by
  simp [dot]; ring

theorem dot_self_nonneg (u : V3) : 0 ≤ dot u u := by
  unfold dot
  nlinarith [mul_self_nonneg u.x, mul_self_nonneg u.y, mul_self_nonneg u.z]

theorem dot_self_eq_zero (u : V3) : dot u u = 0 ↔ u = 0 := by
  constructor
  · intro h
    unfold dot at h
    have hx : u.x * u.x = 0 := by
      nlinarith [mul_self_nonneg u.x, mul_self_nonneg u.y, mul_self_nonneg u.z]
    have hy : u.y * u.y = 0 := by
      nlinarith [mul_self_nonneg u.x, mul_self_nonneg u.y, mul_self_nonneg u.z]
    have hz : u.z * u.z = 0 := by
      nlinarith [mul_self_nonneg u.x, mul_self_nonneg u.y, mul_self_nonneg u.z]
    ext
    · simpa using hx
    · simpa using hy
    · simpa using hz
  · rintro rfl; simp [dot]

theorem dot_self_pos {u : V3} (h : u ≠ 0) : 0 < dot u u :=
  lt_of_le_of_ne (dot_self_nonneg u) (fun e => h ((dot_self_eq_zero u).1 e.symm))

theorem norm_sq (u : V3) : norm u * norm u = dot u u := Real.mul_self_sqrt (dot_self_nonneg u)

theorem norm_pos {u : V3} (h : u ≠ 0) : 0 < norm u := Real.sqrt_pos.2 (dot_self_pos h)

theorem normalized_unit {u : V3} (h : u ≠ 0) : dot (normalized u) (normalized u) = 1 := by
  unfold normalized
  rw [dot_smul_left, dot_smul_right, ← norm_sq]
  have := (norm_pos h).ne'
  field_simp

theorem dot_cross_left (u v : V3) : dot u (cross u v) = 0 := by simp [dot, cross]; ring

theorem dot_cross_right (u v : V3) : dot v (cross u v) = 0 := by simp [dot, cross]; ring

/-- Lagrange identity. -/
theorem dot_cross_cross (u v : V3) :
    dot (cross u v) (cross u v) = dot u u * dot v v - dot u v * dot u v := by
  simp [dot, cross]; ring

end V3

theorem inv2_mul (A : T2) (h : det2 A ≠ 0) (i j : Fin 2) :
    inv2 A i 0 * A 0 j + inv2 A i 1 * A 1 j = if i = j then 1 else 0 := by
  fin_cases i <;> fin_cases j <;> simp [inv2] <;> field_simp <;> unfold det2 <;> ring

theorem mul_inv2 (A : T2) (h : det2 A ≠ 0) (i j : Fin 2) :
    A i 0 * inv2 A 0 j + A i 1 * inv2 A 1 j = if i = j then 1 else 0 := by
  fin_cases i <;> fin_cases j <;> simp [inv2] <;> field_simp <;> unfold det2 <;> ring

theorem inv3_mul (A : T3) (h : det3 A ≠ 0) (i j : Fin 3) :
    inv3 A i 0 * A 0 j + inv3 A i 1 * A 1 j + inv3 A i 2 * A 2 j = if i = j then 1 else 0 := by
  fin_cases i <;> fin_cases j <;> simp [inv3] <;> field_simp <;> unfold det3 <;> ring

theorem inv2_symm (A : T2) (h : A 0 1 = A 1 0) (i j : Fin 2) : inv2 A i j = inv2 A j i := by
  fin_cases i <;> fin_cases j <;> simp [inv2, h]

end Verif
