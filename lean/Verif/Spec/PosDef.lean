import Verif.Model.Tensor

/-!
# Specification: positive definite tensors

Independent of the model: metrics, the quadratic form of a fourth-order in-plane tensor, and the
form of a three-dimensional tensor on strains without transverse shear.
-/

namespace Verif.Spec.PosDef

/-- Symmetric and positive definite. -/
def Metric (A : T2) : Prop := A 0 1 = A 1 0 ∧ 0 < A 0 0 ∧ 0 < A 0 0 * A 1 1 - A 0 1 * A 1 0

/-- Twice the energy of the strain `e`. -/
def form (T : Fin 2 → Fin 2 → Fin 2 → Fin 2 → ℝ) (e : T2) : ℝ :=
  ∑ i, ∑ j, ∑ k, ∑ l, T i j k l * e i j * e k l

/-- The form is positive on symmetric non-zero strains. -/
def Positive (T : Fin 2 → Fin 2 → Fin 2 → Fin 2 → ℝ) : Prop :=
  ∀ e : T2, e 0 1 = e 1 0 → e ≠ 0 → 0 < form T e

/-- Twice the energy of the in-plane strain `e` with the thickness strain `y`, for the in-plane part
`T`, the coupling `b` and the thickness stiffness `d`. -/
def form3 (T : Fin 2 → Fin 2 → Fin 2 → Fin 2 → ℝ) (b : T2) (d : ℝ) (e : T2) (y : ℝ) : ℝ :=
  form T e + 2 * (∑ i, ∑ j, b i j * e i j) * y + d * y ^ 2

/-- Positive definite 3×3 matrix. -/
def PosMat (M : T3) : Prop := ∀ v : Voigt, v ≠ 0 → 0 < ∑ i, ∑ j, v i * M i j * v j

/-- Squared length of the deviator of the left deformation tensor, by its invariants. -/
noncomputable def dev2 (tr J2 x : ℝ) : ℝ := tr ^ 2 - 2 * J2 + x ^ 2 - (tr + x) ^ 2 / 3

end Verif.Spec.PosDef
