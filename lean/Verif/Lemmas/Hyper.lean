import Verif.Model.Hyper
import Verif.Lemmas.Tensor
import Mathlib.Analysis.Calculus.Deriv.Inv
import Mathlib.Analysis.Calculus.Deriv.Mul
import Mathlib.Analysis.Calculus.Deriv.Add
import Mathlib.Analysis.SpecialFunctions.Pow.Deriv

/-! # Helper lemmas for the hyperelastic materials -/

namespace Verif.Hyper

open Verif.Geometry

theorem embed_up (G : T2) (i j : Fin 2) : embed G (up i) (up j) = G i j := by
  rcases fin2_cases i with rfl | rfl <;> rcases fin2_cases j with rfl | rfl <;> simp [embed]

@[simp] theorem embed_22 (G : T2) : embed G 2 2 = 1 := rfl
@[simp] theorem embed_00 (G : T2) : embed G 0 0 = G 0 0 := rfl
@[simp] theorem embed_01 (G : T2) : embed G 0 1 = G 0 1 := rfl
@[simp] theorem embed_10 (G : T2) : embed G 1 0 = G 1 0 := rfl
@[simp] theorem embed_11 (G : T2) : embed G 1 1 = G 1 1 := rfl

theorem embed_up_two (G : T2) (i : Fin 2) : embed G (up i) 2 = 0 := by
  rcases fin2_cases i with rfl | rfl <;> simp [embed]

theorem embed_two_up (G : T2) (i : Fin 2) : embed G 2 (up i) = 0 := by
  rcases fin2_cases i with rfl | rfl <;> simp [embed]

@[simp] theorem up_ne_two (i : Fin 2) : up i ≠ 2 := by
  rcases fin2_cases i with rfl | rfl <;> simp

theorem withT_up (M : T3) (x : ℝ) (i j : Fin 2) :
    withThickness M x (up i) (up j) = M (up i) (up j) := by
  rcases fin2_cases i with rfl | rfl <;> rcases fin2_cases j with rfl | rfl <;>
    simp [withThickness]

theorem withT_22 (M : T3) (x : ℝ) : withThickness M x 2 2 = x := rfl

theorem withT_up_two (M : T3) (x : ℝ) (i : Fin 2) : withThickness M x (up i) 2 = 0 := by
  rcases fin2_cases i with rfl | rfl <;> simp [withThickness]

theorem withT_two_up (M : T3) (x : ℝ) (i : Fin 2) : withThickness M x 2 (up i) = 0 := by
  rcases fin2_cases i with rfl | rfl <;> simp [withThickness]

@[simp] theorem delta_up (i : Fin 2) : delta (up i) 2 = 0 := by simp [delta]
@[simp] theorem idelta_up (i : Fin 2) : idelta (up i) 2 = 1 := by simp [idelta]
@[simp] theorem delta_two : delta 2 2 = 1 := by simp [delta]
@[simp] theorem idelta_two : idelta 2 2 = 0 := by simp [idelta]

/-! ## Differentiation of inverse and determinant along a curve -/

/-- Transport of a derivative to an equal function and an equal value. -/
theorem deriv_conv {f g : ℝ → ℝ} {f' g' t : ℝ} (h : HasDerivAt f f' t) (e : ∀ s, g s = f s)
    (e' : f' = g') : HasDerivAt g g' t :=
  (h.congr_of_eventuallyEq (Filter.Eventually.of_forall e)).congr_deriv e'

section curve

variable {C : ℝ → T2} {H : T2} {t : ℝ}

theorem hasDerivAt_det2 (hC : ∀ i j, HasDerivAt (fun s => C s i j) (H i j) t)
    (hdet : det2 (C t) ≠ 0) :
    HasDerivAt (fun s => det2 (C s))
      (det2 (C t) * (inv2 (C t) 0 0 * H 0 0 + inv2 (C t) 1 0 * H 0 1 + inv2 (C t) 0 1 * H 1 0
        + inv2 (C t) 1 1 * H 1 1)) t := by
  have h := ((hC 0 0).mul (hC 1 1)).sub ((hC 0 1).mul (hC 1 0))
  refine h.congr_deriv ?_
  simp only [inv2, Matrix.cons_val_zero, Matrix.cons_val_one]
  field_simp
  ring

theorem hasDerivAt_inv2 (hC : ∀ i j, HasDerivAt (fun s => C s i j) (H i j) t)
    (hdet : det2 (C t) ≠ 0) (i j : Fin 2) :
    HasDerivAt (fun s => inv2 (C s) i j)
      (-(inv2 (C t) i 0 * H 0 0 * inv2 (C t) 0 j + inv2 (C t) i 0 * H 0 1 * inv2 (C t) 1 j
        + inv2 (C t) i 1 * H 1 0 * inv2 (C t) 0 j
        + inv2 (C t) i 1 * H 1 1 * inv2 (C t) 1 j)) t := by
  have hd := hasDerivAt_det2 hC hdet
  rcases fin2_cases i with rfl | rfl <;> rcases fin2_cases j with rfl | rfl
  · refine ((hC 1 1).div hd hdet).congr_deriv ?_
    simp only [inv2, Matrix.cons_val_zero, Matrix.cons_val_one]
    field_simp
    simp only [det2]
    ring
  · refine ((hC 0 1).neg.div hd hdet).congr_deriv ?_
    simp only [inv2, Matrix.cons_val_zero, Matrix.cons_val_one, Pi.neg_apply]
    field_simp
    simp only [det2]
    ring
  · refine ((hC 1 0).neg.div hd hdet).congr_deriv ?_
    simp only [inv2, Matrix.cons_val_zero, Matrix.cons_val_one, Pi.neg_apply]
    field_simp
    simp only [det2]
    ring
  · refine ((hC 0 0).div hd hdet).congr_deriv ?_
    simp only [inv2, Matrix.cons_val_zero, Matrix.cons_val_one]
    field_simp
    simp only [det2]
    ring

end curve

/-- Derivative of a constant power of a positive function. -/
theorem hasDerivAt_rpow_const {f : ℝ → ℝ} {f' t : ℝ} (a : ℝ) (hf : HasDerivAt f f' t)
    (hp : 0 < f t) : HasDerivAt (fun s => f s ^ a) (a * f t ^ a * (f' / f t)) t := by
  refine (hf.rpow_const (p := a) (Or.inl hp.ne')).congr_deriv ?_
  rw [Real.rpow_sub_one hp.ne']
  ring

end Verif.Hyper
