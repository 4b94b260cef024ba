import Verif.Model.Hyper
import Mathlib.Analysis.Calculus.Deriv.Basic

/-!
# Storage of the derivative of the tangent

Models how `eval3D_dmatrix` stores the derivative of the 3×3 tangent in 27 numbers and how the
wrinkled tangent of the tension-field material reads them.  Matrices are stored column by
column (Eigen's default), so `reshape` keeps the sequence of numbers.
-/

namespace Verif.DMatrix

open Verif.Hyper

/-- First and second index of a Voigt index: 11, 22, 12. -/
def fst (a : ℕ) : Fin 2 := if a = 1 then 1 else 0
def snd (a : ℕ) : Fin 2 := if a = 0 then 0 else 1

/-- The 27 numbers of the closed form: row `m`, column `3 I + K` of `dCdC` is the derivative of
`C_{IK}` with respect to `C_m`; then `dCdC.reshape(27,1)`
(`src/gsMaterialMatrixNonlinear.hpp` l.395-433). -/
noncomputable def storeNH (p : Par) (D : Data) (n : ℕ) : ℝ :=
  dCNH p D (up (fst (n / 3 / 3))) (up (snd (n / 3 / 3))) (up (fst (n / 3 % 3)))
    (up (snd (n / 3 % 3))) (up (fst (n % 3))) (up (snd (n % 3)))

/-- The 27 numbers returned by `Cfunc.deriv_into` (`src/gsMaterialMatrixNonlinear.hpp`
l.376-392).  G+Smo stores the three derivatives of one component next to each other; component
`a` of `Cfun` is entry (`a % 3`, `a / 3`) of the tangent.  The finite difference of G+Smo is
replaced by the derivative. -/
noncomputable def storeFd (T : T2 → T3) (C : T2) (n : ℕ) : ℝ :=
  deriv (fun s : ℝ => cfun T (fun i => cVoigt C i + if (i : ℕ) = n % 3 then s else 0)
    (Fin.ofNat 3 (n / 3 % 3)) (Fin.ofNat 3 (n / 3 / 3))) 0

/-- The derivative of the tangent in strain direction `d` as read by `_compute_C`:
`dC *= 2`, `dC.reshape(9,3)`, `dC.reshapeCol(d,3,3)`
(`src/gsMaterialMatrixTFT.hpp` l.440-444, 907-911). -/
noncomputable def readTft (v : ℕ → ℝ) (d i j : Fin 3) : ℝ :=
  2 * v (9 * (d : ℕ) + (3 * (j : ℕ) + (i : ℕ)))

end Verif.DMatrix
