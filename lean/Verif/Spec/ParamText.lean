import Verif.Spec.Examples

/-! # Specification: decimal numbers -/

namespace Verif.Spec.ParamText

/-- A number with at most six decimals. -/
def Micro (x : ℝ) : Prop := ∃ k : ℤ, 10 ^ 6 * x = k

/-- A number with at most seven significant digits. -/
def Seven (x : ℝ) : Prop := ∃ k p : ℤ, |k| < 10 ^ 7 ∧ x = k * (10 : ℝ) ^ p

end Verif.Spec.ParamText
