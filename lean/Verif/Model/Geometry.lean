import Verif.Model.Tensor
import Verif.Outcome

/-!
# Metrics and bases of a surface at one point

Models `_computeMetricDeformed/Undeformed`, `_getMetricDeformed/Undeformed` and
`_getMetric` of `src/gsMaterialMatrixBaseDim.hpp`.  The deformed and undeformed versions
are the same code with the suffix `_def`/`_ori`; they are modelled once and applied to two
surfaces.
-/

namespace Verif.Geometry

open V3

/-- First and second parametric derivatives of a surface at one point: the data the code
obtains from `map.jacobian(k)` and `map.deriv2(k)`
(`src/gsMaterialMatrixBaseDim.hpp` l.449, l.455).  `d11 d22 d12` are the rows of the
reshaped `deriv2`. -/
structure Surf where
  a : Fin 2 → V3
  d11 : V3
  d22 : V3
  d12 : V3

/-- Normalised normal: `map.normals` is the cross product of the tangents (G+Smo
`gsFunction::computeMap`), then `colwise().normalize()`
(`src/gsMaterialMatrixBaseDim.hpp` l.434-436). -/
noncomputable def normal (s : Surf) : V3 := normalized (cross (s.a 0) (s.a 1))

/-- `Acov = acov.transpose()*acov` (`src/gsMaterialMatrixBaseDim.hpp` l.451). -/
def Acov (s : Surf) : T2 := fun i j => dot (s.a i) (s.a j)

/-- `Acon = Acov.inverse()` (`src/gsMaterialMatrixBaseDim.hpp` l.452). -/
noncomputable def Acon (s : Surf) : T2 := inv2 (Acov s)

/-- Second fundamental form (`src/gsMaterialMatrixBaseDim.hpp` l.458-460). -/
noncomputable def Bcov (s : Surf) : T2 :=
  ![![dot s.d11 (normal s), dot s.d12 (normal s)], ![dot s.d12 (normal s), dot s.d22 (normal s)]]

/-- Contravariant basis `acon.col(i) = Acon(i,0)*acov.col(0)+Acon(i,1)*acov.col(1)`
(`src/gsMaterialMatrixBaseDim.hpp` l.463-464). -/
noncomputable def acon (s : Surf) (i : Fin 2) : V3 := Acon s i 0 • s.a 0 + Acon s i 1 • s.a 1

/-- Mixed curvature (`src/gsMaterialMatrixBaseDim.hpp` l.467-469). -/
noncomputable def mixedB (s : Surf) (i j : Fin 2) : ℝ :=
  Acon s i 0 * Bcov s 0 j + Acon s i 1 * Bcov s 1 j

/-- Normal derivatives `ncov.col(i) = -mixedB(0,i)*acov.col(0)-mixedB(1,i)*acov.col(1)`
(`src/gsMaterialMatrixBaseDim.hpp` l.471-472). -/
noncomputable def ncov (s : Surf) (i : Fin 2) : V3 :=
  (-mixedB s 0 i) • s.a 0 - (mixedB s 1 i) • s.a 1

/-- In-plane block of the covariant metric at height `z`
(`src/gsMaterialMatrixBaseDim.hpp` l.1099, 1230). -/
noncomputable def Gblock (s : Surf) (z : ℝ) : T2 := fun i j =>
  Acov s i j - 2 * z * Bcov s i j + z * z * dot (ncov s i) (ncov s j)

/-- 3×3 matrix with the given 2×2 block, unit (2,2) entry and zeros elsewhere
(`setZero`, `block(0,0,2,2) = …`, `(2,2) = 1.0`; `src/gsMaterialMatrixBaseDim.hpp`
l.1098-1100, 1229-1231). -/
def embed (G : T2) : T3 :=
  mk3 (G 0 0) (G 0 1) 0 (G 1 0) (G 1 1) 0 0 0 1

/-- `Gcov` (`src/gsMaterialMatrixBaseDim.hpp` l.1098-1100). -/
noncomputable def Gcov (s : Surf) (z : ℝ) : T3 := embed (Gblock s z)

/-- `Gcon = Gcov.inverse()` (`src/gsMaterialMatrixBaseDim.hpp` l.1101, 1232). -/
noncomputable def Gcon (s : Surf) (z : ℝ) : T3 := inv3 (Gcov s z)

/-- Covariant basis at height `z` (`src/gsMaterialMatrixBaseDim.hpp` l.1117-1119). -/
noncomputable def gcov (s : Surf) (z : ℝ) : Fin 3 → V3 :=
  vec3 (s.a 0 + z • ncov s 0) (s.a 1 + z • ncov s 1) (normal s)

/-- Contravariant basis at height `z` (`src/gsMaterialMatrixBaseDim.hpp` l.1122-1123). -/
noncomputable def gcon (s : Surf) (z : ℝ) (c : Fin 3) : V3 :=
  Gcon s z c 0 • gcov s z 0 + Gcon s z c 1 • gcov s z 1 + Gcon s z c 2 • gcov s z 2

/-- Contravariant mid-surface basis left in `m_acon_def`/`m_acon_ori` by
`_getMetricDeformed/Undeformed` in the three-dimensional case: the code assigns `acov`
(`src/gsMaterialMatrixBaseDim.hpp` l.1128, 1259). -/
def storedAcon (s : Surf) (i : Fin 2) : V3 := s.a i

/-! ## Planar case -/

/-- Covariant metric of a planar geometry from its 2×2 Jacobian
(`src/gsMaterialMatrixBaseDim.hpp` l.513-515). `J i` is column `i`. -/
def AcovPlanar (J : Fin 2 → Fin 2 → ℝ) : T2 := fun i j => J i 0 * J j 0 + J i 1 * J j 1

/-- The metric stored in `m_Acon_ori`/`m_Acon_def` in the planar case: the code reads
`m_Acov_ori_mat`/`m_Acov_def_mat` (`src/gsMaterialMatrixBaseDim.hpp` l.1286, 1157). -/
def storedAconPlanar (J : Fin 2 → Fin 2 → ℝ) : T2 := AcovPlanar J

/-- `Gcon = Gcov.inverse()` in the planar case (`src/gsMaterialMatrixBaseDim.hpp`
l.1160-1163, 1289-1292). -/
noncomputable def GconPlanar (J : Fin 2 → Fin 2 → ℝ) : T3 := inv3 (embed (AcovPlanar J))

/-! ## Strains and area ratio -/

/-- Membrane strain `0.5*(Acov_def - Acov_ori)` (`src/gsMaterialMatrixLinear.hpp` l.606). -/
noncomputable def membraneStrain (ori defo : Surf) : T2 := fun i j =>
  0.5 * (Acov defo i j - Acov ori i j)

/-- Bending strain `Bcov_ori - Bcov_def` (`src/gsMaterialMatrixLinear.hpp` l.616). -/
noncomputable def bendingStrain (ori defo : Surf) : T2 := fun i j => Bcov ori i j - Bcov defo i j

/-- Green–Lagrange strain at height `z`: `0.5*(Gcov_def - Gcov_ori)`
(`src/gsMaterialMatrixLinear.hpp` l.621). -/
noncomputable def strainAt (ori defo : Surf) (z : ℝ) : T2 := fun i j =>
  0.5 * (Gblock defo z i j - Gblock ori z i j)

/-- Voigt strain of `eval3D_strain`: `(E00, E11, E01+E10)` with
`E = 0.5*(Gcov_def-Gcov_ori)` (`src/gsMaterialMatrixBaseDim.hpp` l.284-288). -/
noncomputable def strainVoigt (ori defo : Surf) (z : ℝ) : Voigt :=
  ![strainAt ori defo z 0 0, strainAt ori defo z 1 1,
    strainAt ori defo z 0 1 + strainAt ori defo z 1 0]

/-- `J0_sq` from the two determinants (`src/gsMaterialMatrixBaseDim.hpp` l.1026-1037):
1 if both vanish, otherwise the ratio; a negative ratio is an error.  A zero reference
determinant with non-zero deformed one is a division by zero in the code (result ±∞, which
passes or fails the check depending on the sign); it is kept apart as `ub` here because the
real model has no infinities.  The NaN branch is not modelled. -/
noncomputable def areaRatioSq (detOri detDef : ℝ) : Outcome ℝ :=
  if detOri = 0 ∧ detDef = 0 then .ok 1
  else if detOri = 0 then .ub
  else if detDef / detOri ≥ 0 then .ok (detDef / detOri) else .throws

end Verif.Geometry
