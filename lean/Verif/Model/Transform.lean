import Verif.Model.Geometry

/-!
# Changes of basis for Voigt vectors

Models `_transformation`, `eval3D_spec2cov`, `eval3D_spec2con` of
`src/gsMaterialMatrixBaseDim.hpp` and the expressions `cartcov`, `cartcon` of
`src/gsThinShellUtils.h`, at one point.
-/

namespace Verif.Transform

open V3 Verif.Geometry

/-- `_transformation(basis1, basis2)` (`src/gsMaterialMatrixBaseDim.hpp` l.1501-1520); only
the first two vectors of each basis are used. -/
noncomputable def transformation (b1 b2 : Fin 2 → V3) : T3 :=
  mk3 (dot (b2 0) (b1 0) ^ 2) (dot (b2 0) (b1 1) ^ 2) (2 * dot (b2 0) (b1 1) * dot (b2 0) (b1 0))
    (dot (b2 1) (b1 0) ^ 2) (dot (b2 1) (b1 1) ^ 2) (2 * dot (b2 1) (b1 0) * dot (b2 1) (b1 1))
    (dot (b2 1) (b1 0) * dot (b2 0) (b1 0)) (dot (b2 0) (b1 1) * dot (b2 1) (b1 1))
    (dot (b2 0) (b1 1) * dot (b2 1) (b1 0) + dot (b2 0) (b1 0) * dot (b2 1) (b1 1))

/-- In-plane vectors of the covariant basis at height `z` (`m_gcov_ori`). -/
noncomputable def covBasis (s : Surf) (z : ℝ) : Fin 2 → V3 := fun i => gcov s z i.castSucc

/-- In-plane vectors of the contravariant basis at height `z` (`m_gcon_ori`). -/
noncomputable def conBasis (s : Surf) (z : ℝ) : Fin 2 → V3 := fun i => gcon s z i.castSucc

/-- `eval3D_spec2cov` for spectral directions `sp` (`src/gsMaterialMatrixBaseDim.hpp`
l.79-83). -/
noncomputable def spec2cov (s : Surf) (z : ℝ) (sp : Fin 2 → V3) : T3 :=
  transformation (covBasis s z) sp

/-- `eval3D_spec2con`: the variable `conbasis` is assigned `m_gcov_ori`
(`src/gsMaterialMatrixBaseDim.hpp` l.101-105). -/
noncomputable def spec2con (s : Surf) (z : ℝ) (sp : Fin 2 → V3) : T3 :=
  transformation (covBasis s z) sp

/-- Local Cartesian frame of `cartcov`/`cartcon`: first vector
(`src/gsThinShellUtils.h` l.1797, 1938). -/
noncomputable def e1 (s : Surf) : V3 := normalized (s.a 0)

/-- Second vector (`src/gsThinShellUtils.h` l.1798, 1939). -/
noncomputable def e2 (s : Surf) : V3 := normalized (s.a 1 - dot (s.a 1) (e1 s) • e1 s)

/-- Matrix built from two vectors and the local frame, common to both expressions
(`src/gsThinShellUtils.h` l.1800-1811, 1944-1955). -/
noncomputable def cartMat (f1 f2 v1 v2 : V3) : T3 :=
  mk3 (dot f1 v1 * dot v1 f1) (dot f1 v2 * dot v2 f1) (2 * dot f1 v1 * dot v2 f1)
    (dot f2 v1 * dot v1 f2) (dot f2 v2 * dot v2 f2) (2 * dot f2 v1 * dot v2 f2)
    (dot f1 v1 * dot v1 f2) (dot f1 v2 * dot v2 f2) (dot f1 v1 * dot v2 f2 + dot f1 v2 * dot v1 f2)

/-- `cartcov` (`src/gsThinShellUtils.h` l.1771-1813). -/
noncomputable def cartcov (s : Surf) : T3 := cartMat (e1 s) (e2 s) (s.a 0) (s.a 1)

/-- `cartcon` (`src/gsThinShellUtils.h` l.1897-1957).  The code inverts the 3×3 metric of
`a1, a2, n`; since `n ⊥ a_i` its upper block is the inverse of the 2×2 metric, which is what
`acon` uses (theorem `C36_metric_3x3`). -/
noncomputable def cartcon (s : Surf) : T3 := cartMat (e1 s) (e2 s) (acon s 0) (acon s 1)

/-- The 3×3 metric inverted by `cartcon` (`src/gsThinShellUtils.h` l.1909). -/
noncomputable def covMetric (s : Surf) : T3 :=
  mk3 (dot (s.a 0) (s.a 0)) (dot (s.a 0) (s.a 1)) (dot (s.a 0) (normal s))
    (dot (s.a 1) (s.a 0)) (dot (s.a 1) (s.a 1)) (dot (s.a 1) (normal s))
    (dot (normal s) (s.a 0)) (dot (normal s) (s.a 1)) (dot (normal s) (normal s))

/-- Contravariant basis of `cartcon` (`src/gsThinShellUtils.h` l.1911-1914). -/
noncomputable def conBasisExpr (s : Surf) (i : Fin 2) : V3 :=
  inv3 (covMetric s) i.castSucc 0 • s.a 0 + inv3 (covMetric s) i.castSucc 1 • s.a 1
    + inv3 (covMetric s) i.castSucc 2 • normal s

end Verif.Transform
