import Verif.Model.Tensor

/-!
# Specification of the thickness stretch

Independent of the model: volume ratio and transverse normal stress of a three-dimensional state
with in-plane metric `C` over the reference metric `A` and thickness entry `c33`.
-/

namespace Verif.Deform

/-- Determinant of a 2×2 matrix. -/
def d2 (M : T2) : ℝ := M 0 0 * M 1 1 - M 0 1 * M 1 0

/-- Squared volume ratio. -/
noncomputable def volumeSq (A C : T2) (c33 : ℝ) : ℝ := d2 C * c33 / d2 A

/-- In-plane trace of the Green-Lagrange strain `(C - A)/2` with the inverse of `A`. -/
noncomputable def planeTrace (A C : T2) : ℝ :=
  (A 1 1 * (C 0 0 - A 0 0) - A 0 1 * (C 1 0 - A 1 0) - A 1 0 * (C 0 1 - A 0 1)
    + A 0 0 * (C 1 1 - A 1 1)) / (2 * d2 A)

/-- Transverse normal stress of the three-dimensional Saint Venant-Kirchhoff law with Young's
modulus `E` and Poisson's ratio `ν`. -/
noncomputable def transverse (E ν : ℝ) (A C : T2) (c33 : ℝ) : ℝ :=
  E * ν / ((1 + ν) * (1 - 2 * ν)) * (planeTrace A C + (c33 - 1) / 2)
    + E / (1 + ν) * ((c33 - 1) / 2)

end Verif.Deform
