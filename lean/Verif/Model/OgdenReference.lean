import Verif.Model.Spectral

/-! # The Ogden parameters of the example and the unit tests -/

namespace Verif.OgdenReference

/-- The pairs `(mu_i, alpha_i)` (`examples/example_shell2D.cpp` l.280-286,
`unittests/gsThinShellAssembler_test.cpp` l.214-222, 416-424, 482-490). -/
noncomputable def programTerms (mu : ℝ) : List (ℝ × ℝ) :=
  [(6.3e5 / 4.225e5 * mu, 1.3), (0.012e5 / 4.225e5 * mu, 5.0), (-0.1e5 / 4.225e5 * mu, -2.0)]

end Verif.OgdenReference
