import Verif.Model.Penalty
import Verif.Spec.Penalty
import Verif.Props.Transform
import Verif.Lemmas.Linear

/-! # Lemmas for the penalty factors -/

namespace Verif.Penalty

open V3 Verif.Geometry Verif.Transform Verif.Spec.Penalty

/-- Everything in terms of the coordinates of the tangents in the local frame:
`a1 = p e1`, `a2 = q e1 + r e2`. -/
theorem coords (s : Surf) (h : Indep (s.a 0) (s.a 1)) :
    ∃ p q r : ℝ, 0 < p ∧ 0 < r ∧ dot (e1 s) (s.a 0) = p ∧ dot (e2 s) (s.a 0) = 0 ∧
      dot (e1 s) (s.a 1) = q ∧ dot (e2 s) (s.a 1) = r ∧
      Acov s 0 0 = p ^ 2 ∧ Acov s 0 1 = p * q ∧ Acov s 1 0 = p * q ∧ Acov s 1 1 = q ^ 2 + r ^ 2 := by
  obtain ⟨u1, u2, u12⟩ := C36_frame_orthonormal s h
  have u21 : dot (e2 s) (e1 s) = 0 := by rw [dot_comm]; exact u12
  have n0 := norm_pos (a0_ne s h)
  have n1 := norm_pos (gs_ne s h)
  have ha0 : s.a 0 = V3.norm (s.a 0) • e1 s := by
    have := n0.ne'
    unfold e1 normalized; ext <;> simp <;> field_simp
  have ha1 : s.a 1 = dot (s.a 1) (e1 s) • e1 s
      + V3.norm (s.a 1 - dot (s.a 1) (e1 s) • e1 s) • e2 s := by
    have := n1.ne'
    conv_rhs => unfold e2 normalized
    ext <;> simp <;> field_simp <;> ring
  generalize V3.norm (s.a 0) = p at *
  generalize V3.norm (s.a 1 - dot (s.a 1) (e1 s) • e1 s) = r at *
  generalize dot (s.a 1) (e1 s) = q at *
  refine ⟨p, q, r, n0, n1, ?_, ?_, ?_, ?_, ?_, ?_, ?_, ?_⟩
  · rw [ha0, dot_smul_right, u1]; ring
  · rw [ha0, dot_smul_right, u21]; ring
  · rw [ha1]; simp only [dot_add_right, dot_smul_right, u1, u12]; ring
  · rw [ha1]; simp only [dot_add_right, dot_smul_right, u2, u21]; ring
  · unfold Acov; rw [ha0]; simp only [dot_smul_right, dot_smul_left, u1]; ring
  · unfold Acov; rw [ha0, ha1]
    simp only [dot_add_right, dot_smul_right, dot_smul_left, u1, u12]; ring
  · unfold Acov; rw [ha0, ha1]
    simp only [dot_add_left, dot_smul_right, dot_smul_left, u1, u21]; ring
  · unfold Acov; rw [ha1]
    simp only [dot_add_left, dot_add_right, dot_smul_right, dot_smul_left, u1, u2, u12, u21]; ring

/-- `cartcov` and the inverse of `cartcon` in these coordinates, and the inverse metric. -/
theorem matrices (s : Surf) (p q r : ℝ) (hp : 0 < p) (hr : 0 < r)
    (h1 : dot (e1 s) (s.a 0) = p) (h2 : dot (e2 s) (s.a 0) = 0)
    (h3 : dot (e1 s) (s.a 1) = q) (h4 : dot (e2 s) (s.a 1) = r)
    (g00 : Acov s 0 0 = p ^ 2) (g01 : Acov s 0 1 = p * q) (g10 : Acov s 1 0 = p * q)
    (g11 : Acov s 1 1 = q ^ 2 + r ^ 2) :
    cartcov s = mk3 (p ^ 2) (q ^ 2) (2 * p * q) 0 (r ^ 2) 0 0 (q * r) (p * r) ∧
    inv3 (cartcon s) = mk3 (p ^ 2) 0 0 (q ^ 2) (r ^ 2) (2 * q * r) (p * q) 0 (p * r) ∧
    Acon s 0 0 = (q ^ 2 + r ^ 2) / (p ^ 2 * r ^ 2) ∧ Acon s 0 1 = -q / (p * r ^ 2) ∧
    Acon s 1 0 = -q / (p * r ^ 2) ∧ Acon s 1 1 = 1 / r ^ 2 := by
  have hd : Acov s 0 0 * Acov s 1 1 - Acov s 0 1 * Acov s 1 0 = p ^ 2 * r ^ 2 := by
    rw [g00, g01, g10, g11]; ring
  have c00 : Acon s 0 0 = (q ^ 2 + r ^ 2) / (p ^ 2 * r ^ 2) := by
    have : Acon s 0 0 = Acov s 1 1 / (Acov s 0 0 * Acov s 1 1 - Acov s 0 1 * Acov s 1 0) := rfl
    rw [this, hd, g11]
  have c01 : Acon s 0 1 = -q / (p * r ^ 2) := by
    have : Acon s 0 1 = -Acov s 0 1 / (Acov s 0 0 * Acov s 1 1 - Acov s 0 1 * Acov s 1 0) := rfl
    rw [this, hd, g01]; field_simp
  have c10 : Acon s 1 0 = -q / (p * r ^ 2) := by
    have : Acon s 1 0 = -Acov s 1 0 / (Acov s 0 0 * Acov s 1 1 - Acov s 0 1 * Acov s 1 0) := rfl
    rw [this, hd, g10]; field_simp
  have c11 : Acon s 1 1 = 1 / r ^ 2 := by
    have : Acon s 1 1 = Acov s 0 0 / (Acov s 0 0 * Acov s 1 1 - Acov s 0 1 * Acov s 1 0) := rfl
    rw [this, hd, g00]; field_simp
  have e10 : dot (e1 s) (acon s 0) = 1 / p := by
    unfold acon; rw [dot_add_right, dot_smul_right, dot_smul_right, h1, h3, c00, c01]
    field_simp; ring
  have e20 : dot (e2 s) (acon s 0) = -q / (p * r) := by
    unfold acon; rw [dot_add_right, dot_smul_right, dot_smul_right, h2, h4, c00, c01]
    field_simp; ring
  have e11 : dot (e1 s) (acon s 1) = 0 := by
    unfold acon; rw [dot_add_right, dot_smul_right, dot_smul_right, h1, h3, c10, c11]
    field_simp; ring
  have e21 : dot (e2 s) (acon s 1) = 1 / r := by
    unfold acon; rw [dot_add_right, dot_smul_right, dot_smul_right, h2, h4, c10, c11]
    field_simp; ring
  have k1 := dot_comm (s.a 0) (e1 s); have k2 := dot_comm (s.a 0) (e2 s)
  have k3 := dot_comm (s.a 1) (e1 s); have k4 := dot_comm (s.a 1) (e2 s)
  have m1 := dot_comm (acon s 0) (e1 s); have m2 := dot_comm (acon s 0) (e2 s)
  have m3 := dot_comm (acon s 1) (e1 s); have m4 := dot_comm (acon s 1) (e2 s)
  refine ⟨?_, ?_, c00, c01, c10, c11⟩
  · funext i j
    rcases fin3_cases i with rfl | rfl | rfl <;> rcases fin3_cases j with rfl | rfl | rfl <;>
      simp [cartcov, cartMat, k1, k2, k3, k4, h1, h2, h3, h4] <;> ring
  · have hc : cartcon s = mk3 (1 / p ^ 2) 0 0 (q ^ 2 / (p ^ 2 * r ^ 2)) (1 / r ^ 2)
        (-(2 * q) / (p * r ^ 2)) (-q / (p ^ 2 * r)) 0 (1 / (p * r)) := by
      funext i j
      rcases fin3_cases i with rfl | rfl | rfl <;> rcases fin3_cases j with rfl | rfl | rfl <;>
        simp [cartcon, cartMat, m1, m2, m3, m4, e10, e20, e11, e21] <;> field_simp
    rw [hc]
    funext i j
    rcases fin3_cases i with rfl | rfl | rfl <;> rcases fin3_cases j with rfl | rfl | rfl <;>
      simp [inv3, det3] <;> field_simp <;> ring

/-- The first entry of the matrix the code takes the maximum of. -/
theorem mmCart_zero (s : Surf) (h : Indep (s.a 0) (s.a 1)) (A : T3) :
    mmCart s A 0 0 = Acov s 0 0 ^ 2 * A 0 0 := by
  obtain ⟨p, q, r, hp, hr, h1, h2, h3, h4, g00, g01, g10, g11⟩ := coords s h
  obtain ⟨hc, hi, -⟩ := matrices s p q r hp hr h1 h2 h3 h4 g00 g01 g10 g11
  unfold mmCart mul3
  rw [hc, hi, g00]
  simp [Fin.sum_univ_three]; ring

theorem le_maxEntry (M : T3) (i j : Fin 3) : M i j ≤ maxEntry M :=
  Finset.le_sup' (fun p : Fin 3 × Fin 3 => M p.1 p.2) (Finset.mem_univ (i, j))

theorem maxEntry_le (M : T3) (c : ℝ) (h : ∀ i j, M i j ≤ c) : maxEntry M ≤ c :=
  Finset.sup'_le _ _ fun p _ => h p.1 p.2

/-- The largest entry of a block matrix of isotropic form. -/
theorem maxEntry_iso (m n k : ℝ) (h0 : 0 ≤ m) (h1 : n ≤ m) (h2 : k ≤ m) :
    maxEntry (mk3 m n 0 n m 0 0 0 k) = m := by
  apply le_antisymm
  · apply maxEntry_le
    intro i j
    rcases fin3_cases i with rfl | rfl | rfl <;> rcases fin3_cases j with rfl | rfl | rfl
    · exact le_refl m
    · exact h1
    · exact h0
    · exact h1
    · exact le_refl m
    · exact h0
    · exact h0
    · exact h0
    · exact h2
  · exact le_maxEntry (mk3 m n 0 n m 0 0 0 k) 0 0

theorem Acov_pos (s : Surf) (h : Indep (s.a 0) (s.a 1)) : 0 < Acov s 0 0 := by
  obtain ⟨p, q, r, hp, hr, h1, h2, h3, h4, g00, g01, g10, g11⟩ := coords s h
  rw [g00]; positivity

/-- `Cconst + 2μ` is the plane stress modulus. -/
theorem modulus (E ν : ℝ) (h1 : -1 < ν) (h2 : ν < 1 / 2) :
    Linear.Cconst E ν + 2 * Linear.mu E ν = E / (1 - ν ^ 2) ∧
    Linear.Cconst E ν = E * ν / (1 - ν ^ 2) := by
  have a : 1 + ν ≠ 0 := by linarith
  have b : 1 - 2 * ν ≠ 0 := by linarith
  have b' : 1 - ν * 2 ≠ 0 := by linarith
  have c : 1 - ν ≠ 0 := by linarith
  have d : 1 - ν ^ 2 ≠ 0 := by
    have : 1 - ν ^ 2 = (1 + ν) * (1 - ν) := by ring
    rw [this]; exact mul_ne_zero a c
  have e : Linear.Cconst E ν = E * ν / (1 - ν ^ 2) := by
    by_cases hE : E = 0
    · simp [Linear.Cconst, Linear.lam, Linear.mu, hE]
    unfold Linear.Cconst
    have hs : Linear.lam E ν + 2 * Linear.mu E ν = E * (1 - ν) / ((1 + ν) * (1 - 2 * ν)) := by
      unfold Linear.lam Linear.mu; field_simp; ring
    rw [hs]
    unfold Linear.lam Linear.mu
    have f : 1 - ν ^ 2 = (1 + ν) * (1 - ν) := by ring
    rw [f]; field_simp
  refine ⟨?_, e⟩
  rw [e]; unfold Linear.mu
  have f : 1 - ν ^ 2 = (1 + ν) * (1 - ν) := by ring
  rw [f]; field_simp; ring

end Verif.Penalty
