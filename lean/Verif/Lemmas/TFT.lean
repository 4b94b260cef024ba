import Mathlib.Tactic.Ring
import Verif.Lemmas.Tensor
import Verif.Spec.TFT
import Verif.Model.TFT

/-! # Helper lemmas for the tension-field material -/

namespace Verif.TFT

theorem comp_nn (θ : ℝ) (S : Voigt) :
    comp (stressTensor S) (dirN θ) (dirN θ) = dotV (n1 θ) S := by
  simp only [comp, stressTensor, dirN, dotV, n1, Fin.sum_univ_two, Fin.sum_univ_three,
    vec3_zero, vec3_one, vec3_two, Matrix.cons_val_zero, Matrix.cons_val_one]
  ring

theorem comp_mn (θ : ℝ) (S : Voigt) :
    comp (stressTensor S) (dirM θ) (dirN θ) = dotV (n2 θ) S := by
  simp only [comp, stressTensor, dirN, dirM, dotV, n2, Fin.sum_univ_two, Fin.sum_univ_three,
    vec3_zero, vec3_one, vec3_two, Matrix.cons_val_zero, Matrix.cons_val_one]
  ring

theorem comp_mm (θ : ℝ) (S : Voigt) :
    comp (stressTensor S) (dirM θ) (dirM θ) = dotV (n4 θ) S := by
  simp only [comp, stressTensor, dirM, dotV, n4, Fin.sum_univ_two, Fin.sum_univ_three,
    vec3_zero, vec3_one, vec3_two, Matrix.cons_val_zero, Matrix.cons_val_one]
  ring

theorem dotV_computeS (u : Voigt) (θ : ℝ) (C : T3) (S : Voigt) :
    dotV u (computeS θ C S) = dotV u S + gamma θ C S * quad u C (n1 θ) := by
  simp only [dotV, computeS, quad, mulVec3, Fin.sum_univ_three]
  ring

theorem quad_add_right (u : Voigt) (C : T3) (v w : Voigt) (k : ℝ) :
    quad u C (fun i => v i + k * w i) = quad u C v + k * quad u C w := by
  simp only [quad, dotV, mulVec3, Fin.sum_univ_three]
  ring

theorem quad_comm (C : T3) (h : Symm C) (u v : Voigt) : quad u C v = quad v C u := by
  simp only [quad, dotV, mulVec3, Fin.sum_univ_three]
  rw [h 1 0, h 2 0, h 2 1]
  ring

theorem quad_eq_sum (u : Voigt) (C : T3) (v : Voigt) :
    quad u C v = ∑ i, ∑ j, u i * C i j * v j := by
  simp only [quad, dotV, mulVec3, Fin.sum_univ_three]
  ring

end Verif.TFT
