import Verif.Spec.TFT

/-! # Specification: the angles of wrinkles that are accepted -/

namespace Verif.TFT

/-- What the test of an angle asks: compression across the wrinkles of the stress `N` without wrinkles, and a positive
form of the strain `E` along them in which the shear counts twice (without shear it is the strain along them). -/
def Accepted (θ : ℝ) (N E : Voigt) : Prop := comp (stressTensor N) (dirN θ) (dirN θ) < 0 ∧
  0 < comp (strainTensor E) (dirM θ) (dirM θ) + dirM θ 0 * dirM θ 1 * E 2

end Verif.TFT
