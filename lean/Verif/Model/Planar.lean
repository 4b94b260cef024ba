import Verif.Model.Hyper
import Verif.Model.Linear
import Verif.Model.Integrate
import Verif.Model.Variation
import Verif.Model.WeakForms
import Verif.Model.ShellTangent

/-!
# Planar problems

Models the two-dimensional versions (`dim == 2`) of the metric computations
(`src/gsMaterialMatrixBaseDim.hpp` l.486-534, 595-645, 1135-1188, 1264-1317), of the integrands of
residual and tangent (`src/gsThinShellAssembler.hpp` l.1655-1657, 1791-1836, 2066-2110) and of the
pressure and foundation loads (`src/gsThinShellAssembler.hpp` l.405-410, 461-466, 505-510, 556-561).

A planar geometry enters through its 2×2 Jacobian; `J i` is column `i`.  Simplifications: exact
arithmetic; the checks `GISMO_ENSURE(… .cols()!=0)` are left out (the metric has been computed).
-/

namespace Verif.Planar

open Verif.Geometry Verif.Hyper Verif.Variation

/-- Columns of a 2×2 Jacobian. -/
abbrev Jac := Fin 2 → Fin 2 → ℝ

/-- `gcov`: the Jacobian in the upper left block, third column `(0,0,1)`
(`src/gsMaterialMatrixBaseDim.hpp` l.1168-1175, 1297-1304). -/
def gcov (J : Jac) : Fin 3 → V3 := vec3 ⟨J 0 0, J 0 1, 0⟩ ⟨J 1 0, J 1 1, 0⟩ ⟨0, 0, 1⟩

/-- `gcon.col(c)` (`src/gsMaterialMatrixBaseDim.hpp` l.1178-1179, 1307-1308). -/
noncomputable def gcon (J : Jac) (c : Fin 3) : V3 :=
  GconPlanar J c 0 • gcov J 0 + GconPlanar J c 1 • gcov J 1 + GconPlanar J c 2 • gcov J 2

/-- What `_getMetric` leaves for the nonlinear materials: the height is ignored
(`src/gsMaterialMatrixBaseDim.hpp` l.1020-1039, 1137, 1156-1171, 1266, 1285-1300). -/
noncomputable def data (J K : Jac) : Data where
  Gori := GconPlanar J
  gcov := embed (AcovPlanar K)
  gcon := GconPlanar K
  J0 := det3 (embed (AcovPlanar K)) / det3 (embed (AcovPlanar J))

/-- Membrane strain of the linear material, `0.5*(m_Acov_def - m_Acov_ori)`
(`src/gsMaterialMatrixLinear.hpp` l.606). -/
noncomputable def strain (J K : Jac) : T2 := fun i j => 0.5 * (AcovPlanar K i j - AcovPlanar J i j)

/-- Bending strain of the linear material: both curvatures are stored as zero
(`src/gsMaterialMatrixBaseDim.hpp` l.530, 641; `src/gsMaterialMatrixLinear.hpp` l.616). -/
def bending (_J _K : Jac) : T2 := fun _ _ => 0 - 0

/-- Stress of the linear material: `m_Acon_ori` is the matrix stored in the planar case
(`src/gsMaterialMatrixLinear.hpp` l.483-486, 554; `src/gsMaterialMatrixBaseDim.hpp` l.1286). -/
noncomputable def linStress (E ν : ℝ) (J K : Jac) : Voigt :=
  Linear.stress E ν (storedAconPlanar J) (strain J K)

/-- Tangent of the linear material (`src/gsMaterialMatrixLinear.hpp` l.206-211). -/
noncomputable def linMatrix (E ν : ℝ) (J : Jac) : T3 := Linear.matrix E ν (storedAconPlanar J)

/-- Inner product of two plane vectors. -/
def dot2 (a b : Fin 2 → ℝ) : ℝ := a 0 * b 0 + a 1 * b 1

/-- `flat(jac(m_def).tr()*jac(m_space))` with 2×2 Jacobians (`src/gsThinShellAssembler.hpp` l.1656,
1818, 2093). -/
def EmDer (K U : Jac) : Voigt :=
  vec3 (dot2 (K 0) (U 0)) (dot2 (K 1) (U 1)) (dot2 (K 0) (U 1) + dot2 (K 1) (U 0))

/-- `flatdot(jac(m_space),jac(m_space).tr(),m_N)` with 2×2 Jacobians
(`src/gsThinShellAssembler.hpp` l.1819, `src/gsThinShellUtils.h` l.1655-1667). -/
def EmDer2 (U V : Jac) (N : Voigt) : ℝ :=
  dot2 (U 0) (V 0) * N 0 + dot2 (U 0) (V 1) * N 2 + dot2 (U 1) (V 0) * N 2 + dot2 (U 1) (V 1) * N 1

/-- Integrand of the residual (`src/gsThinShellAssembler.hpp` l.2106-2110). -/
def internalForce (K U : Jac) (N : Voigt) : ℝ := -(dotV N (EmDer K U))

/-- Integrand of the tangent (`src/gsThinShellAssembler.hpp` l.1821, 1829-1835). -/
def stiffness (K U V : Jac) (A : T3) (N : Voigt) : ℝ :=
  dotV (rowMul (EmDer K U) A) (EmDer K V) + EmDer2 U V N

/-- Pressure on a planar geometry: the implementations are empty
(`src/gsThinShellAssembler.hpp` l.405-410, 461-466). -/
def pressVec (_p _μ : ℝ) (_v : Fin 2 → ℝ) : ℝ := 0

/-- Elastic foundation of a planar geometry: the implementations are empty
(`src/gsThinShellAssembler.hpp` l.505-510, 556-561). -/
def foundVec (_μ : ℝ) (_k : V3) (_u _v : Fin 2 → ℝ) : ℝ := 0

/-- Matrix of the elastic foundation of a planar geometry: empty as well
(`src/gsThinShellAssembler.hpp` l.505-510, 556-561). -/
def foundMat (_μ : ℝ) (_k : V3) (_v _w : Fin 2 → ℝ) : ℝ := 0

/-- Stress and tangent of a hyperelastic material as functions of the members left by
`_getMetric`; covers every material and implementation of `src/gsMaterialMatrixNonlinear.hpp` that
does not use `m_Acon_ori`. -/
structure Material where
  stress : Data → Fin 3 → Fin 3 → ℝ
  tangent : Data → Fin 3 → Fin 3 → Fin 3 → Fin 3 → ℝ

/-- Resultant of the planar code (`src/gsMaterialMatrixIntegrate.hpp` l.311-323). -/
noncomputable def resultant (M : Material) (r : Integrate.Rule) (t : ℝ) (m : Nat) (J K : Jac) :
    Voigt := fun k =>
  Integrate.integrateZ r t m fun _ => ShellTangent.stressV (M.stress (data J K)) k

/-- Modulus of the planar code (`src/gsMaterialMatrixIntegrate.hpp` l.311-323). -/
noncomputable def modulus (M : Material) (r : Integrate.Rule) (t : ℝ) (m : Nat) (J K : Jac) : T3 :=
  fun i j => Integrate.integrateZ r t m fun _ => fillMatrix (M.tangent (data J K)) i j

/-- The same material used by the three-dimensional code on the undeformed shell `ori`. -/
noncomputable def Material.law (M : Material) (ori : Surf) : ShellTangent.Law where
  stress z G := M.stress (Hyper.data (Gblock ori z) G)
  tangent z G := M.tangent (Hyper.data (Gblock ori z) G)

end Verif.Planar
