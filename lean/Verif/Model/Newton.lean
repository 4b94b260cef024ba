import Verif.Model.Hyper
import Verif.Outcome
import Mathlib.Analysis.SpecialFunctions.Sqrt

/-!
# Thickness stretch of compressible materials and its users

`_eval3D_Compressible_C33`, `_eval3D_Compressible_stress`, `_eval3D_Compressible_CauchyStress`,
`_eval3D_Compressible_detF` and the compressible `eval3D_pstretch`
(`src/gsMaterialMatrixNonlinear.hpp`).

Simplification: exact real arithmetic.  Divisions by zero, which give infinities or NaN in
the C++ program, are the outcome `ub`.
-/

namespace Verif.Newton

open Verif.Hyper

/-- `tol` (`src/gsMaterialMatrixNonlinear.hpp` l.1894). -/
noncomputable def tol : ℝ := 1 / 10 ^ 10

/-- `itmax` (`src/gsMaterialMatrixNonlinear.hpp` l.1893). -/
def itmax : ℕ := 100

/-- `dc33 = -2. * S33 / C3333` (`src/gsMaterialMatrixNonlinear.hpp` l.1911, 1924).  `S c` is
`_Sij(2,2,c,cinv)` and `T c` is `_Cijkl3D(2,2,2,2,c,cinv)` with `c(2,2) = c`. -/
noncomputable def step (S T : ℝ → ℝ) (c : ℝ) : ℝ := -2 * S c / T c

open Classical in
/-- The loop (`src/gsMaterialMatrixNonlinear.hpp` l.1912-1931) with `n` remaining
iterations, current stretch `c` and increment `dc`.  Zero remaining iterations are not
reached from `itmax ≥ 1`, since the last iteration returns or reports the error. -/
noncomputable def loop (S T : ℝ → ℝ) : ℕ → ℝ → ℝ → Outcome ℝ
  | 0, _, _ => .throws
  | n + 1, c, dc =>
    let c' := c + dc
    if c' = 0 ∨ T c' = 0 then .ub
    else if |step S T c'| < tol then .ok c'
    else if n = 0 then .throws
    else loop S T n c' (step S T c')

open Classical in
/-- `_eval3D_Compressible_C33` at one point and height (`src/gsMaterialMatrixNonlinear.hpp`
l.1886-1931): start value `pow(J0_sq,-1)`, first increment, loop. -/
noncomputable def c33 (S T : ℝ → ℝ) (J0 : ℝ) : Outcome ℝ :=
  if J0 = 0 ∨ T (1 / J0) = 0 then .ub
  else loop S T itmax (1 / J0) (step S T (1 / J0))

/-- The two functions used by the iteration for a stress `s` and tangent `t` at the metric
members `D`. -/
noncomputable def c33Of (s : CData → Fin 3 → Fin 3 → ℝ)
    (t : CData → Fin 3 → Fin 3 → Fin 3 → Fin 3 → ℝ) (D : Data) : Outcome ℝ :=
  c33 (fun c => s (cdata D c) 2 2) (fun c => t (cdata D c) 2 2 2 2) D.J0

/-- Row of thickness stretches as laid out by `_eval3D_Compressible_C33`
(`src/gsMaterialMatrixNonlinear.hpp` l.1884): column `j*n + k` holds point `k`, height
`j`. -/
def c33Row {α : Type} (n : ℕ) (value : ℕ → ℕ → α) (col : ℕ) : α := value (col % n) (col / n)

/-- Thickness stretch read by `_eval3D_Compressible_stress`, `_CauchyStress`, `_detF` and
`_matrix` at point `k`, height `j` (`src/gsMaterialMatrixNonlinear.hpp` l.807, 1064, 996,
2087). -/
def readStress {α : Type} (n : ℕ) (row : ℕ → α) (k j : ℕ) : α := row (j * n + k)

/-- Thickness stretch read by the compressible `eval3D_pstretch` at point `k`, height `j`
(`src/gsMaterialMatrixNonlinear.hpp` l.594: `C33s(0,k)`). -/
def readPstretch {α : Type} (row : ℕ → α) (k _j : ℕ) : α := row k

/-- Third principal stretch reported by the compressible `eval3D_pstretch`
(`src/gsMaterialMatrixNonlinear.hpp` l.594-604, `src/gsMaterialMatrixBaseDim.hpp`
l.1368-1371). -/
noncomputable def pstretch3 (n : ℕ) (value : ℕ → ℕ → Outcome ℝ) (k j : ℕ) : Outcome ℝ :=
  (readPstretch (c33Row n value) k j).map Real.sqrt

/-- `_eval3D_Compressible_detF` (`src/gsMaterialMatrixNonlinear.hpp` l.997). -/
noncomputable def detF (J0 c33 : ℝ) : ℝ := Real.sqrt (J0 * c33)

/-- `_eval3D_Compressible_CauchyStress` (`src/gsMaterialMatrixNonlinear.hpp` l.1046-1070) at
one point and height: the local `Smat` is divided by `detF`, the returned `result` stays as
initialised.  The pair is (local `Smat`, returned `result`). -/
noncomputable def cauchyLocals (S : Voigt) (J0 c33 : ℝ) : Voigt × Voigt :=
  (fun i => S i / detF J0 c33, fun _ => 0)

/-- The value returned by `_eval3D_Compressible_CauchyStress`. -/
noncomputable def cauchy (S : Voigt) (J0 c33 : ℝ) : Voigt := (cauchyLocals S J0 c33).2

/-- `_eval3D_Incompressible_CauchyStress` (`src/gsMaterialMatrixNonlinear.hpp`
l.1074-1078): the second Piola–Kirchhoff stress itself (`detF = 1`). -/
def cauchyInc (S : Voigt) : Voigt := S

end Verif.Newton
