import Verif.Model.Examples

/-!
# Parameters passed as text

The example programs turn the material parameters into text and let `gsFunctionExpr` read them back.
Simplifications: the arithmetic is exact otherwise, and the reader returns the number written.
-/

namespace Verif.ParamText

/-- `y` is what is read from `std::to_string(x)`, which prints `%f`: a nearest number with six decimals
(`examples/example_shell3D_DWR.cpp` l.277-279, `examples/example_shell3D_DWR_modal.cpp` l.307-310,
`examples/example_shell3D_DWR_buckling.cpp` l.279-281, `examples/example_shell2D.cpp` l.271-274).
The choice between two nearest ones is left open. -/
def Fixed (x y : ℝ) : Prop :=
  ∃ k : ℤ, y = k / 10 ^ 6 ∧ ∀ l : ℤ, |x - y| ≤ |x - l / 10 ^ 6|

/-- `y` is what is read from `%e` for `x` (`examples/example_shell3D_DWR.cpp` l.179, 215): seven digits
`k` and an exponent, `y = k 10^(p-6)`, with no nearer number of that form; `0` is printed as `0`. -/
def Scientific (x y : ℝ) : Prop :=
  (x = 0 ∧ y = 0) ∨ x ≠ 0 ∧ ∃ k p : ℤ, 10 ^ 6 ≤ |k| ∧ |k| < 10 ^ 7 ∧ y = k * (10 : ℝ) ^ (p - 6) ∧
    ∀ l q : ℤ, 10 ^ 6 ≤ |l| → |l| < 10 ^ 7 → |x - y| ≤ |x - l * (10 : ℝ) ^ (q - 6)|

end Verif.ParamText
