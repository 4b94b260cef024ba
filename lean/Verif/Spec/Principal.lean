import Verif.Model.Tensor

/-! # Specification of principal values -/

namespace Verif.Spec.Principal

/-- Product of two 2×2 matrices. -/
def mul2 (A B : T2) : T2 := fun i j => A i 0 * B 0 j + A i 1 * B 1 j

/-- `x ≤ y` are the principal values of the tensor with contravariant components `S` in a basis
with metric `G` (or with covariant components `S` and inverse metric `G`): the roots of the
characteristic polynomial of the mixed components `S G`. -/
structure PrincipalValues (S G : T2) (x y : ℝ) : Prop where
  le : x ≤ y
  roots : ∀ t, (mul2 S G 0 0 - t) * (mul2 S G 1 1 - t) - mul2 S G 0 1 * mul2 S G 1 0
    = (t - x) * (t - y)

/-- Products of the first two of three vectors. -/
def gram (g : Fin 3 → Fin 3 → ℝ) : T2 :=
  fun i j => ∑ c : Fin 3, (if i = 0 then g 0 c else g 1 c) * (if j = 0 then g 0 c else g 1 c)

end Verif.Spec.Principal
