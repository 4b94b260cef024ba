import Verif.Model.Tensor
import Mathlib.Analysis.Calculus.Deriv.Basic

/-!
# Specification vocabulary for hyperelastic materials

Independent of the model definitions: differentiable curves of deformation tensors,
contraction of a fourth-order tensor with a direction, and the plane-stress Hooke tensor.
-/

namespace Verif.Spec.Hyper

/-- `C` is a curve of 2×2 matrices with velocity `H` at time `t`, symmetric at `t` together
with its velocity. -/
structure Curve (C : ℝ → T2) (H : T2) (t : ℝ) : Prop where
  deriv : ∀ i j, HasDerivAt (fun s => C s i j) (H i j) t
  symm : C t 0 1 = C t 1 0
  symmH : H 0 1 = H 1 0

/-- Contraction of a fourth-order in-plane tensor with a second-order one over the last
index pair. -/
def contract (T : Fin 2 → Fin 2 → Fin 2 → Fin 2 → ℝ) (H : T2) (i j : Fin 2) : ℝ :=
  ∑ k, ∑ l, T i j k l * H k l

/-- Plane-stress Hooke tensor for Young's modulus `E`, Poisson's ratio `ν` and contravariant
metric `G`. -/
noncomputable def hooke (E ν : ℝ) (G : T2) (i j k l : Fin 2) : ℝ :=
  E * ν / (1 - ν ^ 2) * G i j * G k l + E / (2 * (1 + ν)) * (G i k * G j l + G i l * G j k)

/-- Minor and major symmetries. -/
def ElasticSymm {n : ℕ} (T : Fin n → Fin n → Fin n → Fin n → ℝ) : Prop :=
  ∀ i j k l, T i j k l = T j i k l ∧ T i j k l = T i j l k ∧ T i j k l = T k l i j

end Verif.Spec.Hyper
