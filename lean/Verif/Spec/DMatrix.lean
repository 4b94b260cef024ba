import Verif.Model.Tensor
import Mathlib.Analysis.Calculus.FDeriv.Symmetric

/-! # Specification: derivatives with respect to Voigt strains -/

namespace Verif.Spec.DMatrix

/-- Rate of the deformation tensor for a unit rate of the Voigt strain `d` (components 11, 22
and twice 12), as `C = C₀ + 2 E`. -/
def strainRate : Fin 3 → T2 :=
  vec3 ![![2, 0], ![0, 0]] ![![0, 0], ![0, 2]] ![![0, 1], ![1, 0]]

/-- Deformation tensor with Voigt strain `e` over the origin. -/
def metricOfStrain (e : Voigt) : T2 := ![![2 * e 0, e 2], ![e 2, 2 * e 1]]

/-- Unit vector. -/
def unit (d : Fin 3) : Voigt := Pi.single d 1

/-- Derivative of a function of the Voigt strain in direction `d`. -/
noncomputable def partialD (f : Voigt → ℝ) (d : Fin 3) (e : Voigt) : ℝ := fderiv ℝ f e (unit d)

end Verif.Spec.DMatrix
