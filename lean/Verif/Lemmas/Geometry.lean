import Verif.Spec.Geometry
import Verif.Lemmas.Tensor

/-! # Helper lemmas on surface metrics -/

namespace Verif.Geometry

open V3

theorem det_Acov (s : Surf) : det2 (Acov s) = dot (cross (s.a 0) (s.a 1)) (cross (s.a 0) (s.a 1)) := by
  rw [dot_cross_cross]; simp only [det2, Acov, dot_comm (s.a 1) (s.a 0)]

theorem det_Acov_pos (s : Surf) (h : cross (s.a 0) (s.a 1) ≠ 0) : 0 < det2 (Acov s) := by
  rw [det_Acov]; exact dot_self_pos h

theorem Acov_symm (s : Surf) (i j : Fin 2) : Acov s i j = Acov s j i := dot_comm _ _

theorem Bcov_symm (s : Surf) (i j : Fin 2) : Bcov s i j = Bcov s j i := by
  fin_cases i <;> fin_cases j <;> simp [Bcov]

theorem dot_a_normal (s : Surf) (i : Fin 2) : dot (s.a i) (normal s) = 0 := by
  unfold normal normalized
  rw [dot_smul_right]
  fin_cases i
  · simp [dot_cross_left]
  · simp [dot_cross_right]

theorem normal_unit (s : Surf) (h : cross (s.a 0) (s.a 1) ≠ 0) :
    dot (normal s) (normal s) = 1 := normalized_unit h

theorem ncov_dot_a (s : Surf) (h : cross (s.a 0) (s.a 1) ≠ 0) (i j : Fin 2) :
    dot (ncov s i) (s.a j) = -Bcov s i j := by
  have hd := (det_Acov_pos s h).ne'
  have e : dot (ncov s i) (s.a j) =
      -((Acon s 0 0 * Acov s 0 j + Acon s 1 0 * Acov s 1 j) * Bcov s 0 i
        + (Acon s 0 1 * Acov s 0 j + Acon s 1 1 * Acov s 1 j) * Bcov s 1 i) := by
    simp only [ncov, dot_sub_left, dot_smul_left, mixedB, Acov]; ring
  have hs : ∀ k l, Acon s k l = Acon s l k := fun k l =>
    inv2_symm _ (Acov_symm s 0 1) k l
  have h0 := inv2_mul (Acov s) hd 0 j
  have h1 := inv2_mul (Acov s) hd 1 j
  rw [e, hs 1 0]
  have e1 : Acon s 0 0 * Acov s 0 j + Acon s 0 1 * Acov s 1 j = if (0 : Fin 2) = j then 1 else 0 := h0
  have e2 : Acon s 0 1 * Acov s 0 j + Acon s 1 1 * Acov s 1 j = if (1 : Fin 2) = j then 1 else 0 := by
    rw [hs 0 1]; exact h1
  rw [e1, e2]
  fin_cases j <;> simp [Bcov_symm s i]

theorem ncov_dot_normal (s : Surf) (i : Fin 2) : dot (ncov s i) (normal s) = 0 := by
  simp [ncov, dot_sub_left, dot_smul_left, dot_a_normal]

theorem det3_embed (G : T2) : det3 (embed G) = det2 G := by
  simp [embed, det3, det2]

theorem Indep.cross_ne {u v : V3} (h : Indep u v) : cross u v ≠ 0 := by
  intro e
  have ex : u.y * v.z - u.z * v.y = 0 := congrArg V3.x e
  have ey : u.z * v.x - u.x * v.z = 0 := congrArg V3.y e
  have ez : u.x * v.y - u.y * v.x = 0 := congrArg V3.z e
  have h1 := h (dot v v) (-(dot u v)) (by
    ext
    · simp [dot]; linear_combination v.y * ez - v.z * ey
    · simp [dot]; linear_combination (-v.x) * ez + v.z * ex
    · simp [dot]; linear_combination v.x * ey - v.y * ex)
  have hv : v = 0 := (dot_self_eq_zero v).1 h1.1
  have h2 := h 0 1 (by subst hv; ext <;> simp)
  exact one_ne_zero h2.2

theorem Rotation.dot_act (R : Rotation) (u v : V3) : dot (R.act u) (R.act v) = dot u v := by
  have h10 : dot R.c1 R.c0 = 0 := by rw [dot_comm]; exact R.h01
  have h20 : dot R.c2 R.c0 = 0 := by rw [dot_comm]; exact R.h02
  have h21 : dot R.c2 R.c1 = 0 := by rw [dot_comm]; exact R.h12
  simp only [Rotation.act, dot_add_left, dot_add_right, dot_smul_left, dot_smul_right, R.h00,
    R.h11, R.h22, R.h01, R.h02, R.h12, h10, h20, h21]
  simp only [dot]; ring

theorem eq_of_unit (u v : V3) (hu : dot u u = 1) (hv : dot v v = 1) (huv : dot u v = 1) : u = v := by
  have : u - v = 0 := by
    rw [← dot_self_eq_zero, dot_sub_left, dot_sub_right, dot_sub_right, hu, hv, huv, dot_comm v u, huv]
    ring
  ext
  · have := congrArg V3.x this; simp at this; linarith
  · have := congrArg V3.y this; simp at this; linarith
  · have := congrArg V3.z this; simp at this; linarith

theorem Rotation.cross01 (R : Rotation) : cross R.c0 R.c1 = R.c2 := by
  apply eq_of_unit
  · rw [dot_cross_cross, R.h00, R.h11, R.h01]; ring
  · exact R.h22
  · exact R.right_handed

theorem Rotation.cross12 (R : Rotation) : cross R.c1 R.c2 = R.c0 := by
  apply eq_of_unit
  · rw [dot_cross_cross, R.h11, R.h22, R.h12]; ring
  · exact R.h00
  · rw [← R.right_handed]; simp [dot, cross]; ring

theorem Rotation.cross20 (R : Rotation) : cross R.c2 R.c0 = R.c1 := by
  apply eq_of_unit
  · rw [dot_cross_cross, R.h22, R.h00, dot_comm, R.h02]; ring
  · exact R.h11
  · rw [← R.right_handed]; simp [dot, cross]; ring

theorem Rotation.cross_act (R : Rotation) (u v : V3) :
    cross (R.act u) (R.act v) = R.act (cross u v) := by
  have e : cross (R.act u) (R.act v) =
      (u.x * v.y - u.y * v.x) • cross R.c0 R.c1 + (u.y * v.z - u.z * v.y) • cross R.c1 R.c2
        + (u.z * v.x - u.x * v.z) • cross R.c2 R.c0 := by
    ext <;> simp [Rotation.act, cross] <;> ring
  rw [e, R.cross01, R.cross12, R.cross20]
  ext <;> simp [Rotation.act, cross] <;> ring

theorem Rotation.normal_move (R : Rotation) (s : Surf) : normal (R.move s) = R.act (normal s) := by
  have e : cross ((R.move s).a 0) ((R.move s).a 1) = R.act (cross (s.a 0) (s.a 1)) :=
    R.cross_act _ _
  unfold normal normalized V3.norm
  rw [e, R.dot_act]
  ext <;> simp [Rotation.act] <;> ring

theorem Rotation.Acov_move (R : Rotation) (s : Surf) : Acov (R.move s) = Acov s := by
  funext i j; exact R.dot_act _ _

theorem Rotation.Bcov_move (R : Rotation) (s : Surf) : Bcov (R.move s) = Bcov s := by
  unfold Bcov
  rw [R.normal_move]
  simp only [Rotation.move, R.dot_act]

theorem Rotation.ncov_move (R : Rotation) (s : Surf) (i : Fin 2) :
    ncov (R.move s) i = R.act (ncov s i) := by
  have hm : ∀ i j, mixedB (R.move s) i j = mixedB s i j := by
    intro i j
    simp only [mixedB, Acon, R.Acov_move, R.Bcov_move]
  simp only [ncov, hm]
  ext <;> simp [Rotation.act, Rotation.move] <;> ring

end Verif.Geometry
