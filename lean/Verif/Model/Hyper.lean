import Verif.Model.Linear
import Mathlib.Analysis.SpecialFunctions.Pow.Real

/-!
# Hyperelastic materials: stress and tangent formulas

Models the constitutive functions of `src/gsMaterialMatrixNonlinear.hpp`.  The class
members read by these functions are collected in `Data` (metric members at one point and
height) and `Par` (material parameters at the point).  `math::pow` is `Real.rpow`; theorems
state that its base is positive.
-/

namespace Verif.Hyper

open Verif.Geometry

/-- Material parameters `m_parvals.at(0..2)`: Young's modulus, Poisson's ratio, and the
ratio `c1/c2` of the Mooney–Rivlin material (`src/gsMaterialMatrixNonlinear.hpp`
l.1322-1337). -/
structure Par where
  E : ℝ
  ν : ℝ
  r : ℝ

namespace Par

/-- `mu` (`src/gsMaterialMatrixNonlinear.hpp` l.1315). -/
noncomputable def mu (p : Par) : ℝ := p.E / (2 * (1 + p.ν))

/-- `K` (`src/gsMaterialMatrixNonlinear.hpp` l.1490). -/
noncomputable def K (p : Par) : ℝ := p.E / (3 - 6 * p.ν)

/-- `lambda` (`src/gsMaterialMatrixNonlinear.hpp` l.1546). -/
noncomputable def lam (p : Par) : ℝ := p.E * p.ν / ((1 + p.ν) * (1 - 2 * p.ν))

/-- `c2` (`src/gsMaterialMatrixNonlinear.hpp` l.1336). -/
noncomputable def c2 (p : Par) : ℝ := p.mu / (p.r + 1)

/-- `c1` (`src/gsMaterialMatrixNonlinear.hpp` l.1337). -/
noncomputable def c1 (p : Par) : ℝ := p.r * p.c2

end Par

/-- The metric members read by the constitutive functions: `Gori` is `m_Gcon_ori`, `gcov` is
`m_Gcov_def`, `gcon` is `m_Gcon_def`, `J0` is `m_J0_sq`
(`src/gsMaterialMatrixNonlinear.hpp` l.1309-1343). -/
structure Data where
  Gori : T3
  gcov : T3
  gcon : T3
  J0 : ℝ

/-- In-plane index as an index of a 3×3 matrix (both are `index_t` in the code). -/
def up (i : Fin 2) : Fin 3 := if i = 0 then 0 else 1

@[simp] theorem up_zero : up 0 = 0 := rfl
@[simp] theorem up_one : up 1 = 1 := rfl

/-- The members left by `_getMetric` for the reference metric `A` (block of `Gcov_ori`) and
the deformed metric `C` (block of `Gcov_def`): inverses of the embedded blocks and the ratio
of the determinants (`src/gsMaterialMatrixBaseDim.hpp` l.1020-1062, 1098-1101, 1229-1232).
The checks on the ratio are in `Geometry.areaRatioSq`; theorems state `det2 A ≠ 0`. -/
noncomputable def data (A C : T2) : Data where
  Gori := embed (inv2 A)
  gcov := embed C
  gcon := embed (inv2 C)
  J0 := det2 C / det2 A

/-- `traceCt` (`src/gsMaterialMatrixNonlinear.hpp` l.1330-1333). -/
def traceCt (D : Data) : ℝ :=
  D.gcov 0 0 * D.Gori 0 0 + D.gcov 0 1 * D.Gori 0 1 + D.gcov 1 0 * D.Gori 1 0
    + D.gcov 1 1 * D.Gori 1 1

/-! ## Incompressible materials -/

/-- Incompressible neo-Hookean stress (`src/gsMaterialMatrixNonlinear.hpp` l.1685-1692). -/
noncomputable def sNH (p : Par) (D : Data) (i j : Fin 3) : ℝ :=
  p.mu * (D.Gori i j - 1 / D.J0 * D.gcon i j)

/-- Incompressible neo-Hookean tangent (`src/gsMaterialMatrixNonlinear.hpp`
l.1309-1317). -/
noncomputable def cNH (p : Par) (D : Data) (i j k l : Fin 3) : ℝ :=
  p.mu * 1 / D.J0 * (2 * D.gcon i j * D.gcon k l + D.gcon i k * D.gcon j l
    + D.gcon i l * D.gcon j k)

/-- Incompressible Mooney–Rivlin stress (`src/gsMaterialMatrixNonlinear.hpp`
l.1697-1715). -/
noncomputable def sMR (p : Par) (D : Data) (i j : Fin 3) : ℝ :=
  p.c1 * (D.Gori i j - 1 / D.J0 * D.gcon i j)
    + p.c2 / D.J0 * (D.Gori i j - traceCt D * D.gcon i j) + p.c2 * D.J0 * D.gcon i j

/-- Incompressible Mooney–Rivlin tangent (`src/gsMaterialMatrixNonlinear.hpp`
l.1322-1343). -/
noncomputable def cMR (p : Par) (D : Data) (i j k l : Fin 3) : ℝ :=
  let Gabcd := -1 / 2 * (D.gcon i k * D.gcon j l + D.gcon i l * D.gcon j k)
  (p.c1 + p.c2 * traceCt D) * 1 / D.J0 * (2 * D.gcon i j * D.gcon k l + D.gcon i k * D.gcon j l
      + D.gcon i l * D.gcon j k)
    - 2 * p.c2 / D.J0 * (D.Gori i j * D.gcon k l + D.gcon i j * D.Gori k l)
    + 2 * p.c2 * D.J0 * (Gabcd + D.gcon i j * D.gcon k l)

/-- `_dPsi_impl`, incompressible neo-Hookean (`src/gsMaterialMatrixNonlinear.hpp`
l.2117-2122). -/
noncomputable def dPsiNH (p : Par) (D : Data) (i j : Fin 3) : ℝ := 1 / 2 * p.mu * D.Gori i j

/-- `_dPsi_impl`, incompressible Mooney–Rivlin (`src/gsMaterialMatrixNonlinear.hpp`
l.2127-2148). -/
noncomputable def dPsiMR (p : Par) (D : Data) (i j : Fin 3) : ℝ :=
  if i = 2 ∧ j = 2 then p.c1 / 2 + p.c2 / 2 * traceCt D
  else p.c1 / 2 * D.Gori i j + p.c2 / 2 * (1 / D.J0 * D.Gori i j + D.J0 * D.gcon i j)

/-- `_d2Psi_impl`, incompressible neo-Hookean (`src/gsMaterialMatrixNonlinear.hpp`
l.2163-2168). -/
def d2PsiNH (_p : Par) (_D : Data) (_i _j _k _l : Fin 3) : ℝ := 0

/-- `_d2Psi_impl`, incompressible Mooney–Rivlin (`src/gsMaterialMatrixNonlinear.hpp`
l.2173-2196; the conditions on `k, l` use "or" as in the code). -/
noncomputable def d2PsiMR (p : Par) (D : Data) (i j k l : Fin 3) : ℝ :=
  if (i = 2 ∧ j = 2) ∧ ¬(k = 2 ∨ l = 2) then p.c2 / 2 * D.Gori k l
  else if ¬(i = 2 ∧ j = 2) ∧ (k = 2 ∨ l = 2) then p.c2 / 2 * D.Gori i j
  else if (i = 2 ∧ j = 2) ∧ (k = 2 ∨ l = 2) then 0
  else p.c2 / 2 * D.J0 * (-1 / 2 * (D.gcon i k * D.gcon j l + D.gcon i l * D.gcon j k)
    + D.gcon i j * D.gcon k l)

/-- Generalized incompressible stress from the energy derivatives
(`src/gsMaterialMatrixNonlinear.hpp` l.1742-1748; `pow(J0_sq,-1.0)` is `1/J0`). -/
noncomputable def sGen (dPsi : Fin 3 → Fin 3 → ℝ) (D : Data) (i j : Fin 3) : ℝ :=
  2 * dPsi i j - 2 * dPsi 2 2 * (1 / D.J0) * D.gcon i j

/-- Generalized incompressible tangent from the energy derivatives
(`src/gsMaterialMatrixNonlinear.hpp` l.1405-1413; `pow(J0_sq,-2.0)` is `1/J0^2`). -/
noncomputable def cGen (dPsi : Fin 3 → Fin 3 → ℝ) (d2Psi : Fin 3 → Fin 3 → Fin 3 → Fin 3 → ℝ)
    (D : Data) (i j k l : Fin 3) : ℝ :=
  4 * d2Psi i j k l + 4 * d2Psi 2 2 2 2 * (1 / D.J0 ^ 2) * D.gcon i j * D.gcon k l
    - 4 / D.J0 * (d2Psi 2 2 i j * D.gcon k l + d2Psi 2 2 k l * D.gcon i j)
    + 2 * dPsi 2 2 / D.J0 * (2 * D.gcon i j * D.gcon k l + D.gcon i k * D.gcon j l
      + D.gcon i l * D.gcon j k)

/-- Incompressible Saint Venant–Kirchhoff tangent of the nonlinear class
(`src/gsMaterialMatrixNonlinear.hpp` l.1287-1304); `A` is `m_Acon_ori`. -/
noncomputable def cSvK (p : Par) (A : T2) (i j k l : Fin 2) : ℝ :=
  2 * p.lam * p.mu / (p.lam + 2 * p.mu) * A i j * A k l
    + p.mu * (A i k * A j l + A i l * A j k)

/-! ## Compressible materials -/

/-- `delta` (`src/gsMaterialMatrixNonlinear.h` l.1228). -/
def delta (a b : Fin 3) : ℝ := if a = b then 1 else 0

/-- `idelta` (`src/gsMaterialMatrixNonlinear.h` l.1233). -/
def idelta (a b : Fin 3) : ℝ := if a = b then 0 else 1

/-- Arguments of the compressible functions: the metric members, the matrices `c` and
`cinv`, and `m_J_sq` (`src/gsMaterialMatrixNonlinear.hpp` l.1892-1903). -/
structure CData where
  D : Data
  c : T3
  cinv : T3
  J : ℝ

/-- A 3×3 matrix with the in-plane block of `M` and the entry `x` at (2,2)
(`c.setZero(); c.block(0,0,2,2) = …; c(2,2) = …`, `src/gsMaterialMatrixNonlinear.hpp`
l.1892-1900). -/
def withThickness (M : T3) (x : ℝ) : T3 :=
  mk3 (M 0 0) (M 0 1) 0 (M 1 0) (M 1 1) 0 0 0 x

/-- `c`, `cinv` and `m_J_sq` for the metric members `D` and the thickness stretch `C33`
(`src/gsMaterialMatrixNonlinear.hpp` l.1892-1903, 812-819).  The division `1.0/C33` is by
zero for `C33 = 0`; theorems state `C33 ≠ 0`. -/
noncomputable def cdata (D : Data) (C33 : ℝ) : CData where
  D := D
  c := withThickness D.gcov C33
  cinv := withThickness D.gcon (1 / C33)
  J := D.J0 * C33

/-- `I_1` (`src/gsMaterialMatrixNonlinear.hpp` l.1496). -/
def I1 (d : CData) : ℝ := traceCt d.D + d.c 2 2

/-- `I_2` (`src/gsMaterialMatrixNonlinear.hpp` l.1522). -/
def I2 (d : CData) : ℝ := d.c 2 2 * traceCt d.D + d.D.J0

/-- `_dI_1` (`src/gsMaterialMatrixNonlinear.hpp` l.2203-2206). -/
def dI1 (d : CData) (i j : Fin 3) : ℝ := d.D.Gori i j

/-- `_dI_2` (`src/gsMaterialMatrixNonlinear.hpp` l.2211-2220). -/
noncomputable def dI2 (d : CData) (i j : Fin 3) : ℝ :=
  idelta i 2 * idelta j 2 * (d.c 2 2 * dI1 d i j + d.D.J0 * d.cinv i j)
    + delta i 2 * delta j 2 * traceCt d.D

/-- `dCinv` (`src/gsMaterialMatrixNonlinear.hpp` l.1491). -/
noncomputable def dCinv (d : CData) (i j k l : Fin 3) : ℝ :=
  -1 / 2 * (d.cinv i k * d.cinv j l + d.cinv i l * d.cinv j k)

/-- `d2I_2` (`src/gsMaterialMatrixNonlinear.hpp` l.1523-1525, 2329-2331). -/
noncomputable def d2I2 (d : CData) (i j k l : Fin 3) : ℝ :=
  idelta i 2 * idelta j 2 * idelta k 2 * idelta l 2
      * (d.D.J0 * (d.cinv i j * d.cinv k l + dCinv d i j k l))
    + delta i 2 * delta j 2 * idelta k 2 * idelta l 2 * dI1 d k l
    + idelta i 2 * idelta j 2 * delta k 2 * delta l 2 * dI1 d i j

/-- Compressible neo-Hookean stress (`src/gsMaterialMatrixNonlinear.hpp` l.1761-1777). -/
noncomputable def sNHc (p : Par) (d : CData) (i j : Fin 3) : ℝ :=
  p.mu * d.J ^ (-1 / 3 : ℝ) * (d.D.Gori i j - 1 / 3 * I1 d * d.cinv i j)
    + p.K * (1 / 2) * (d.J - 1) * d.cinv i j

/-- Compressible Mooney–Rivlin stress (`src/gsMaterialMatrixNonlinear.hpp`
l.1782-1804). -/
noncomputable def sMRc (p : Par) (d : CData) (i j : Fin 3) : ℝ :=
  p.c1 * d.J ^ (-1 / 3 : ℝ) * (d.D.Gori i j - 1 / 3 * I1 d * d.cinv i j)
    + p.c2 * d.J ^ (-2 / 3 : ℝ) * (dI2 d i j - 2 / 3 * I2 d * d.cinv i j)
    + p.K * (1 / 2) * (d.J - 1) * d.cinv i j

/-- Extended compressible neo-Hookean stress (`src/gsMaterialMatrixNonlinear.hpp`
l.1809-1817). -/
noncomputable def sNHe (p : Par) (d : CData) (i j : Fin 3) : ℝ :=
  p.mu * d.D.Gori i j - p.mu * d.cinv i j + p.lam / 2 * (d.J - 1) * d.cinv i j

/-- Compressible neo-Hookean three-dimensional tangent
(`src/gsMaterialMatrixNonlinear.hpp` l.1481-1501). -/
noncomputable def cNHc (p : Par) (d : CData) (i j k l : Fin 3) : ℝ :=
  1 / 9 * p.mu * d.J ^ (-1 / 3 : ℝ)
      * (2 * I1 d * (d.cinv i j * d.cinv k l - 3 * dCinv d i j k l)
        - 6 * (d.D.Gori i j * d.cinv k l + d.cinv i j * d.D.Gori k l))
    + p.K * (d.J * d.cinv i j * d.cinv k l + (d.J - 1) * dCinv d i j k l)

/-- Compressible Mooney–Rivlin three-dimensional tangent
(`src/gsMaterialMatrixNonlinear.hpp` l.1506-1535). -/
noncomputable def cMRc (p : Par) (d : CData) (i j k l : Fin 3) : ℝ :=
  1 / 9 * p.c1 * d.J ^ (-1 / 3 : ℝ)
      * (2 * I1 d * d.cinv i j * d.cinv k l - 6 * I1 d * dCinv d i j k l
        - 6 * dI1 d i j * d.cinv k l - 6 * d.cinv i j * dI1 d k l)
    + 1 / 9 * p.c2 * d.J ^ (-2 / 3 : ℝ)
      * (8 * I2 d * d.cinv i j * d.cinv k l - 12 * I2 d * dCinv d i j k l
        - 12 * dI2 d i j * d.cinv k l - 12 * d.cinv i j * dI2 d k l + 18 * d2I2 d i j k l)
    + p.K * (d.J * d.cinv i j * d.cinv k l + (d.J - 1) * dCinv d i j k l)

/-- Extended compressible neo-Hookean three-dimensional tangent
(`src/gsMaterialMatrixNonlinear.hpp` l.1540-1551). -/
noncomputable def cNHe (p : Par) (d : CData) (i j k l : Fin 3) : ℝ :=
  -2 * p.mu * dCinv d i j k l
    + p.lam * (d.J * d.cinv i j * d.cinv k l + (d.J - 1) * dCinv d i j k l)

/-- `_dPsi_vol` (`src/gsMaterialMatrixNonlinear.hpp` l.2279-2284). -/
noncomputable def dPsiVol (p : Par) (d : CData) (i j : Fin 3) : ℝ :=
  p.K * (1 / 4) * (d.J - 1) * d.cinv i j

/-- `_dPsi_impl`, compressible neo-Hookean (`src/gsMaterialMatrixNonlinear.hpp`
l.2235-2246). -/
noncomputable def dPsiNHc (p : Par) (d : CData) (i j : Fin 3) : ℝ :=
  p.mu / 2 * d.J ^ (-1 / 3 : ℝ) * (-1 / 3 * I1 d * d.cinv i j + dI1 d i j) + dPsiVol p d i j

/-- `_dPsi_impl`, compressible Mooney–Rivlin (`src/gsMaterialMatrixNonlinear.hpp`
l.2249-2264). -/
noncomputable def dPsiMRc (p : Par) (d : CData) (i j : Fin 3) : ℝ :=
  p.c1 / 2 * d.J ^ (-1 / 3 : ℝ) * (-1 / 3 * I1 d * d.cinv i j + dI1 d i j)
    + p.c2 / 2 * d.J ^ (-2 / 3 : ℝ) * (-2 / 3 * I2 d * d.cinv i j + dI2 d i j)
    + dPsiVol p d i j

/-- `_dPsi_impl`, extended neo-Hookean (`src/gsMaterialMatrixNonlinear.hpp`
l.2267-2275). -/
noncomputable def dPsiNHe (p : Par) (d : CData) (i j : Fin 3) : ℝ :=
  p.mu / 2 * dI1 d i j - p.mu / 2 * d.cinv i j + p.lam / 4 * (d.J - 1) * d.cinv i j

/-- `_d2Psi_vol` (`src/gsMaterialMatrixNonlinear.hpp` l.2356-2362). -/
noncomputable def d2PsiVol (p : Par) (d : CData) (i j k l : Fin 3) : ℝ :=
  p.K * (1 / 4) * (d.J * d.cinv i j * d.cinv k l + (d.J - 1) * dCinv d i j k l)

/-- `_d2Psi_impl`, compressible neo-Hookean (`src/gsMaterialMatrixNonlinear.hpp`
l.2298-2315). -/
noncomputable def d2PsiNHc (p : Par) (d : CData) (i j k l : Fin 3) : ℝ :=
  1 / 9 * p.mu / 2 * d.J ^ (-1 / 3 : ℝ)
      * (I1 d * d.cinv i j * d.cinv k l - 3 * dI1 d i j * d.cinv k l
        - 3 * d.cinv i j * dI1 d k l - 3 * I1 d * dCinv d i j k l)
    + d2PsiVol p d i j k l

/-- `_d2Psi_impl`, compressible Mooney–Rivlin (`src/gsMaterialMatrixNonlinear.hpp`
l.2318-2343). -/
noncomputable def d2PsiMRc (p : Par) (d : CData) (i j k l : Fin 3) : ℝ :=
  1 / 9 * p.c1 / 2 * d.J ^ (-1 / 3 : ℝ)
      * (I1 d * d.cinv i j * d.cinv k l - 3 * dI1 d i j * d.cinv k l
        - 3 * d.cinv i j * dI1 d k l - 3 * I1 d * dCinv d i j k l)
    + 1 / 9 * p.c2 / 2 * d.J ^ (-2 / 3 : ℝ)
      * (4 * I2 d * d.cinv i j * d.cinv k l - 6 * I2 d * dCinv d i j k l
        - 6 * dI2 d i j * d.cinv k l - 6 * d.cinv i j * dI2 d k l + 9 * d2I2 d i j k l)
    + d2PsiVol p d i j k l

/-- `_d2Psi_impl`, extended neo-Hookean (`src/gsMaterialMatrixNonlinear.hpp`
l.2346-2353). -/
noncomputable def d2PsiNHe (p : Par) (d : CData) (i j k l : Fin 3) : ℝ :=
  -(p.mu / 2) * dCinv d i j k l
    + p.lam / 4 * (d.J * d.cinv i j * d.cinv k l + (d.J - 1) * dCinv d i j k l)

/-- Generalized compressible stress (`src/gsMaterialMatrixNonlinear.hpp` l.1836-1843). -/
def sGenc (dPsi : Fin 3 → Fin 3 → ℝ) (i j : Fin 3) : ℝ := 2 * dPsi i j

/-- Generalized compressible tangent (`src/gsMaterialMatrixNonlinear.hpp` l.1626-1633). -/
def cGenc (d2Psi : Fin 3 → Fin 3 → Fin 3 → Fin 3 → ℝ) (i j k l : Fin 3) : ℝ :=
  4 * d2Psi i j k l

/-- Static condensation (`src/gsMaterialMatrixNonlinear.hpp` l.1454-1458).  Theorems state
`C3 2 2 2 2 ≠ 0`. -/
noncomputable def condense (C3 : Fin 3 → Fin 3 → Fin 3 → Fin 3 → ℝ) (i j k l : Fin 3) : ℝ :=
  C3 i j k l - C3 i j 2 2 * C3 2 2 k l / C3 2 2 2 2

/-- The 3×3 matrix filled from six entries of a tensor
(`src/gsMaterialMatrixNonlinear.hpp` l.1267-1273, 2085-2090). -/
def fillMatrix (C : Fin 3 → Fin 3 → Fin 3 → Fin 3 → ℝ) : T3 :=
  mk3 (C 0 0 0 0) (C 0 0 1 1) (C 0 0 0 1)
    (C 0 0 1 1) (C 1 1 1 1) (C 1 1 0 1)
    (C 0 0 0 1) (C 1 1 0 1) (C 0 1 0 1)

/-- Closed-form derivative of the contravariant metric
(`src/gsMaterialMatrixNonlinear.hpp` l.447-450). -/
noncomputable def dgcon (g : T3) (i j k l : Fin 3) : ℝ :=
  -1 / 2 * (g i k * g j l + g i l * g j k)

/-- Closed-form derivative of the incompressible neo-Hookean tangent
(`src/gsMaterialMatrixNonlinear.hpp` l.453-472). -/
noncomputable def dCNH (p : Par) (D : Data) (i j k l m n : Fin 3) : ℝ :=
  let g := D.gcon
  let X := 2 * g i j * g k l + g i k * g j l + g i l * g j k
  let dX := 2 * (dgcon g i j m n * g k l + g i j * dgcon g k l m n)
    + dgcon g i k m n * g j l + g i k * dgcon g j l m n
    + dgcon g i l m n * g j k + g i l * dgcon g j k m n
  p.mu * (-1 / D.J0 * g m n * X + 1 / D.J0 * dX)

/-- Matrix–vector argument order of `Cfun::eval_into`: the third Voigt entry is halved
before the tangent is evaluated (`src/gsMaterialMatrixNonlinear.hpp` l.54-65). -/
noncomputable def cfunArg (v : Voigt) : Voigt := vec3 (v 0) (v 1) (v 2 * (1 / 2))

/-- The point at which the finite difference is taken
(`src/gsMaterialMatrixNonlinear.hpp` l.386-388). -/
def cVoigt (C : T2) : Voigt := vec3 (C 0 0) (C 1 1) (C 0 1)

/-- Deformation tensor set by `_getMetricDeformed(C)` from a Voigt vector
(`src/gsMaterialMatrixBaseDim.hpp` l.1044-1055). -/
def metricOfVoigt (v : Voigt) : T2 := ![![v 0, v 2], ![v 2, v 1]]

/-- The function differentiated by `dCijkl_impl` (`src/gsMaterialMatrixNonlinear.hpp`
l.380-392), for an arbitrary tangent `tangent` as function of the deformation tensor. -/
noncomputable def cfun {α : Type} (tangent : T2 → α) (v : Voigt) : α :=
  tangent (metricOfVoigt (cfunArg v))

end Verif.Hyper
