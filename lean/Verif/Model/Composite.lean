import Mathlib.Analysis.SpecialFunctions.Trigonometric.Basic
import Verif.Model.Geometry

/-!
# The laminate material

Models `src/gsMaterialMatrixComposite.hpp` and the ply constructors of
`src/getMaterialMatrix.h` at one point.
-/

namespace Verif.Composite

open V3

/-- Values of the layer functions at a point: thickness, stiffness in ply axes, angle and
density (`Tcontainer`, `Gcontainer`, `angles`, `Rcontainer`;
`src/gsMaterialMatrixComposite.hpp` l.216-226, 154-161). -/
structure Layer where
  t : ℝ
  G : T3
  φ : ℝ
  ρ : ℝ

/-- `_transformationMatrix` (`src/gsMaterialMatrixComposite.hpp` l.331-352). -/
noncomputable def rot (φ : ℝ) : T3 :=
  mk3 (Real.cos φ ^ 2) (Real.sin φ ^ 2) (Real.sin φ * Real.cos φ)
    (Real.sin φ ^ 2) (Real.cos φ ^ 2) (-(Real.sin φ * Real.cos φ))
    (-2 * (Real.sin φ * Real.cos φ)) (2 * (Real.sin φ * Real.cos φ))
    (Real.cos φ ^ 2 - Real.sin φ ^ 2)

/-- `Dmat = T^T G T` (`src/gsMaterialMatrixComposite.hpp` l.252). -/
noncomputable def plyD (l : Layer) : T3 := mul3 (mul3 (transpose3 (rot l.φ)) l.G) (rot l.φ)

/-- Which of the laminate matrices is asked for. -/
inductive Which where
  | A | B | C | D
deriving Repr, DecidableEq

/-- Factor of `Dmat` (`src/gsMaterialMatrixComposite.hpp` l.258-263). -/
noncomputable def factor : Which → ℝ → ℝ → ℝ
  | .A, t, _ => t
  | .B, t, dz => t * dz
  | .C, t, dz => t * dz
  | .D, t, dz => t * dz ^ 2 + t ^ 3 / 12

/-- Total thickness (`src/gsMaterialMatrixComposite.hpp` l.235-237). -/
noncomputable def total (ls : List Layer) : ℝ := ls.foldl (fun acc l => acc + l.t) 0

/-- One pass of the layer loop: state is `(Cmat, t_temp)`
(`src/gsMaterialMatrixComposite.hpp` l.246-267). -/
noncomputable def step (w : Which) (zmid : ℝ) (st : T3 × ℝ) (l : Layer) : T3 × ℝ :=
  (fun i j => st.1 i j + plyD l i j * factor w l.t (zmid - (l.t / 2 + st.2)), st.2 + l.t)

/-- `eval3D_matrix` before the change of basis (`src/gsMaterialMatrixComposite.hpp`
l.230-268).  The debug assertion of l.269 compares two sums of the same numbers and is left
out. -/
noncomputable def abd (w : Which) (ls : List Layer) : T3 :=
  (ls.foldl (step w (total ls / 2)) (fun _ _ => 0, 0)).1

/-- Mass per area `density_into` (`src/gsMaterialMatrixComposite.hpp` l.165-167). -/
noncomputable def mass (ls : List Layer) : ℝ := ls.foldl (fun acc l => acc + l.t * l.ρ) 0

/-- `eval3D_vector` before the change of basis: `VectorN` uses `A` only, `VectorM` uses `D`
only (`src/gsMaterialMatrixComposite.hpp` l.297-324). -/
noncomputable def vectorN (ls : List Layer) (ε : Voigt) : Voigt := mulVec3 (abd .A ls) ε

/-- See `vectorN`. -/
noncomputable def vectorM (ls : List Layer) (κ : Voigt) : Voigt := mulVec3 (abd .D ls) κ

/-- Matrix of `_cart2cov` before the inversion (`src/gsMaterialMatrixComposite.hpp`
l.356-370). -/
noncomputable def cart2covRaw (a1 a2 e1 e2 : V3) : T3 :=
  mk3 (dot e1 a1 * dot a1 e1) (dot e1 a2 * dot a2 e2) (2 * dot e1 a1 * dot a2 e1)
    (dot e2 a1 * dot a1 e2) (dot e2 a2 * dot a2 e2) (2 * dot e2 a1 * dot a2 e2)
    (dot e1 a1 * dot a1 e2) (dot e1 a2 * dot a2 e2) (dot e1 a1 * dot a2 e2 + dot e1 a2 * dot a1 e2)

/-- `_cart2cov` (`src/gsMaterialMatrixComposite.hpp` l.372). -/
noncomputable def cart2cov (a1 a2 e1 e2 : V3) : T3 := inv3 (cart2covRaw a1 a2 e1 e2)

/-- `_con2cart` (`src/gsMaterialMatrixComposite.hpp` l.377-394). -/
noncomputable def con2cart (ac1 ac2 e1 e2 : V3) : T3 :=
  mk3 (dot e1 ac1 * dot ac1 e1) (dot e1 ac2 * dot ac2 e2) (2 * dot e1 ac1 * dot ac2 e1)
    (dot e2 ac1 * dot ac1 e2) (dot e2 ac2 * dot ac2 e2) (2 * dot e2 ac1 * dot ac2 e2)
    (dot e1 ac1 * dot ac1 e2) (dot e1 ac2 * dot ac2 e2)
    (dot e1 ac1 * dot ac2 e2 + dot e1 ac2 * dot ac1 e2)

/-- Final change of basis with `e1 = gcov.col(0).normalized()`,
`e2 = gcon.col(1).normalized()` (`src/gsMaterialMatrixComposite.hpp` l.271-277). -/
noncomputable def toSurface (a1 a2 ac1 ac2 : V3) (C : T3) : T3 :=
  mul3 (mul3 (cart2cov a1 a2 (normalized a1) (normalized ac2)) C)
    (con2cart ac1 ac2 (normalized a1) (normalized ac2))

/-- `gsCompositeMatrix` (`src/getMaterialMatrix.h` l.29-51): reciprocity is asserted; a zero
divisor `1 - nuxy*nuyx` is recorded as `ub`. -/
noncomputable def orthotropic (Exx Eyy Gxy nuxy nuyx : ℝ) : Outcome T3 :=
  open Classical in
  if nuyx * Exx = nuxy * Eyy then
    if 1 - nuxy * nuyx = 0 then .ub
    else .ok (mk3 (Exx / (1 - nuxy * nuyx)) (nuyx * Exx / (1 - nuxy * nuyx)) 0
      (nuxy * Eyy / (1 - nuxy * nuyx)) (Eyy / (1 - nuxy * nuyx)) 0 0 0 Gxy)
  else .throws

/-- `gsCompositeMatrixRaw` with nine entries (`src/getMaterialMatrix.h` l.54-77). -/
def raw9 (G11 G22 G33 G12 G13 G23 G21 G31 G32 : ℝ) : T3 :=
  mk3 G11 G21 G13 G12 G22 G23 G31 G32 G33

/-- `gsCompositeMatrixRaw` with six entries (`src/getMaterialMatrix.h` l.78-96). -/
def raw6 (G11 G22 G33 G12 G13 G23 : ℝ) : T3 :=
  mk3 G11 G12 G13 G12 G22 G23 G13 G23 G33

end Verif.Composite
