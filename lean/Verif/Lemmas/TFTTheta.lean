import Mathlib.Tactic.Linarith
import Mathlib.Tactic.NormNum
import Mathlib.Tactic.FieldSimp
import Verif.Lemmas.TFT

/-! # Two concrete points for the angle search -/

namespace Verif.TFT

/-- A point in pure shear (material without lateral contraction, unit stiffness). -/
noncomputable def shearPt : Pt :=
  ⟨mk3 1 0 0 0 1 0 0 0 (1 / 2), vec3 0 0 (-1 / 2), vec3 0 0 (-1)⟩

/-- Its search interval starts at exactly zero. -/
theorem shear_interval :
    (thetaInterval shearPt.C shearPt.N shearPt.E).1 = 0 ∧
    (thetaInterval shearPt.C shearPt.N shearPt.E).2 = Real.pi / 2 := by
  have hpi := Real.pi_pos
  have hneg : atan2 (-1) 0 = -(Real.pi / 2) := by
    unfold atan2
    have : (⟨0, -1⟩ : ℂ) = -Complex.I := by
      apply Complex.ext <;> simp
    rw [this, Complex.arg_neg_I]
  have hpos : atan2 1 0 = Real.pi / 2 := by
    unfold atan2
    have : (⟨0, 1⟩ : ℂ) = Complex.I := rfl
    rw [this, Complex.arg_I]
  have hs : Real.sqrt (1 / 4) = 1 / 2 := by
    rw [show (1 / 4 : ℝ) = (1 / 2) ^ 2 by norm_num]
    exact Real.sqrt_sq (by norm_num)
  have m1 : modR (Real.pi / 2) (2 * Real.pi) = Real.pi / 2 := by
    unfold modR
    have : ⌊Real.pi / 2 / (2 * Real.pi)⌋ = 0 := by
      have : Real.pi / 2 / (2 * Real.pi) = 1 / 4 := by field_simp; norm_num
      rw [this]; norm_num
    rw [this]; simp
  have m2 : modR (-(Real.pi / 2)) (2 * Real.pi) = 3 * Real.pi / 2 := by
    unfold modR
    have : ⌊-(Real.pi / 2) / (2 * Real.pi)⌋ = -1 := by
      have : -(Real.pi / 2) / (2 * Real.pi) = -(1 / 4) := by field_simp; norm_num
      rw [this]; norm_num
    rw [this]; push_cast; ring
  have c1 : (1 / 2 : ℝ) / (1 / 2) = 1 := by norm_num
  have c2 : -(1 / 2 : ℝ) / (1 / 2) = -1 := by norm_num
  have c3 : Real.pi / 2 - Real.pi / 2 + -(Real.pi / 2) + Real.pi = Real.pi / 2 := by ring
  have c4 : -(Real.pi / 2) - Real.pi / 2 + -(Real.pi / 2) + Real.pi = -(Real.pi / 2) := by ring
  have c5 : Real.pi / 2 < 3 * Real.pi / 2 := by linarith
  have c6 : -(Real.pi / 2) - -(Real.pi / 2) = 0 := by ring
  have c7 : Real.pi / 2 - Real.pi - -(Real.pi / 2) = 0 := by ring
  have c8 : Real.pi / 2 - -(Real.pi / 2) = Real.pi := by ring
  have c9 : 3 * Real.pi / 2 - Real.pi - -(Real.pi / 2) = Real.pi := by ring
  unfold thetaInterval shearPt
  simp only [vec3_zero, vec3_one, vec3_two]
  norm_num only [hs]
  simp only [if_false, zero_div, c1, c2, hneg, hpos, c3, c4, m1, m2, if_pos c5, c6, c7, c8, c9,
    max_self, min_self]
  norm_num

/-- The acceptance test of the shear point passes for every angle in the first quadrant. -/
theorem shear_check (θ : ℝ) (h0 : 0 < θ) (h1 : θ < Real.pi / 2) :
    checkTheta θ shearPt.N shearPt.E := by
  have hs := Real.sin_pos_of_pos_of_lt_pi h0 (by linarith [Real.pi_pos])
  have hc := Real.cos_pos_of_mem_Ioo ⟨by linarith [Real.pi_pos], h1⟩
  have := mul_pos hs hc
  constructor
  · simp only [dotV, n1, shearPt, Fin.sum_univ_three, vec3_zero, vec3_one, vec3_two]
    nlinarith
  · simp only [dotV, n4, shearPt, Fin.sum_univ_three, vec3_zero, vec3_one, vec3_two]
    nlinarith

/-- A point whose interval is empty, so that its angle is found by scanning. -/
noncomputable def scanPt : Pt := ⟨mk3 1 0 0 0 1 0 0 0 (1 / 2), fun _ => 0, fun _ => 0⟩

theorem not_check_zero (θ : ℝ) : ¬ checkTheta θ scanPt.N scanPt.E := by
  intro h
  have := h.1
  simp [dotV, scanPt] at this

end Verif.TFT
