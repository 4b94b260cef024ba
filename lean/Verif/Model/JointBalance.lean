import Verif.Model.Balance
import Verif.Model.WeakForms

/-!
# Rows of the assembled vector and matrix at an interface

Models the rows that the `assembleIfc` calls of `_assembleWeakIfc_impl(deformed)`
(`src/gsThinShellAssembler.hpp` l.1160-1230; matrices l.1022-1158, linear l.869-960) add for one scalar basis
function of the left or of the right patch in its three components, both weak C0 and weak C1 coupling active.

Simplifications: one set of quadrature points `Q` on the common edge, at which the basis functions of both
patches are given; `μ` is weight and measure in one factor; the penalty factors `a0` (`alpha_d`) and `a1`
(`alpha_r`) are numbers at the points.  Eliminated degrees of freedom are not dropped.
-/

namespace Verif.JointBalance

open V3 Verif.Geometry Verif.Variation Verif.WeakForms Verif.Balance

/-- A vector as an array of three numbers. -/
def arr (v : V3) : Vd 3 := fun i => vec3 v.x v.y v.z i

/-- Derivatives of the geometry with control points `P` (`m_def` or `m_ori` at one point of the edge). -/
def geo {ι : Type} (I : Finset ι) (P : ι → V3) (φ : ι → Shape) : Surf :=
  ⟨fun k => vsum I fun i => (φ i).grad k • P i, vsum I fun i => (φ i).hess 0 • P i,
    vsum I fun i => (φ i).hess 1 • P i, vsum I fun i => (φ i).hess 2 • P i⟩

/-- One patch at the interface: control points of the undeformed and of the deformed geometry, basis functions
at the quadrature points, Jacobian column along the edge and orientation of the tangent. -/
structure Patch (ι κ : Type) where
  I : Finset ι
  P0 : ι → V3
  P : ι → V3
  φ : κ → ι → Shape
  c : κ → Fin 2
  σ : κ → ℝ

variable {ι ι' κ : Type}

/-- Undeformed surface at a point. -/
def Patch.ori (A : Patch ι κ) (q : κ) : Surf := geo A.I A.P0 (A.φ q)

/-- Deformed surface at a point. -/
def Patch.def (A : Patch ι κ) (q : κ) : Surf := geo A.I A.P (A.φ q)

/-- Normals and variations of the deformed side (`m_def.left()`). -/
noncomputable def Patch.side (A : Patch ι κ) (q : κ) : Side Surf :=
  sideOf (A.def q) (A.σ q • (A.def q).a (A.c q))

/-- Normals of the undeformed side (`m_ori.left()`). -/
noncomputable def Patch.rest (A : Patch ι κ) (q : κ) : Side Surf :=
  sideOf (A.ori q) (A.σ q • (A.ori q).a (A.c q))

/-- Displacement of a side: `m_def.left() - m_ori.left()` (l.1183-1184). -/
def Patch.disp (A : Patch ι κ) (q : κ) : V3 :=
  (vsum A.I fun i => (A.φ q i).val • A.P i) - (vsum A.I fun i => (A.φ q i).val • A.P0 i)

/-- The coupling: penalty factors and measures. -/
structure Penalty (κ : Type) where
  Q : Finset κ
  μ : κ → ℝ
  a0 : κ → ℝ
  a1 : κ → ℝ

/-- No test function on this side: the entry belongs to the other block. -/
def absent : Surf := ⟨fun _ => 0, 0, 0, 0⟩

/-- All entries of the vector at one point, for test fields with values `xL`, `xR` and derivatives `vL`,
`vR` on the two sides (l.1199-1228). -/
noncomputable def work (D : Penalty κ) (A : Patch ι κ) (B : Patch ι' κ) (q : κ) (xL xR : V3) (vL vR : Surf) : ℝ :=
  c0Vec3 (D.a0 q) (D.μ q) (arr (A.disp q)) (arr (B.disp q)) (arr xL) (arr xR)
    + c1VecOut (D.a1 q) (D.μ q) (A.side q) (B.side q) (dot (A.rest q).n (B.rest q).n) vL vR
    + c1VecIn (D.a1 q) (D.μ q) (A.side q) (B.side q) (dot (A.rest q).o (B.rest q).n)
        (dot (B.rest q).o (A.rest q).n) vL vR

/-- Rows of one basis function of the left patch. -/
noncomputable def rowsL (D : Penalty κ) (A : Patch ι κ) (B : Patch ι' κ) (i : ι) : V3 :=
  vsum D.Q fun q =>
    ⟨work D A B q (vecFun 0 (A.φ q i).val) 0 (basisField 0 (A.φ q i).grad (A.φ q i).hess) absent,
      work D A B q (vecFun 1 (A.φ q i).val) 0 (basisField 1 (A.φ q i).grad (A.φ q i).hess) absent,
      work D A B q (vecFun 2 (A.φ q i).val) 0 (basisField 2 (A.φ q i).grad (A.φ q i).hess) absent⟩

/-- Rows of one basis function of the right patch. -/
noncomputable def rowsR (D : Penalty κ) (A : Patch ι κ) (B : Patch ι' κ) (j : ι') : V3 :=
  vsum D.Q fun q =>
    ⟨work D A B q 0 (vecFun 0 (B.φ q j).val) absent (basisField 0 (B.φ q j).grad (B.φ q j).hess),
      work D A B q 0 (vecFun 1 (B.φ q j).val) absent (basisField 1 (B.φ q j).grad (B.φ q j).hess),
      work D A B q 0 (vecFun 2 (B.φ q j).val) absent (basisField 2 (B.φ q j).grad (B.φ q j).hess)⟩

/-- All entries of the nonlinear matrix at one point (l.1065-1156). -/
noncomputable def slope (D : Penalty κ) (A : Patch ι κ) (B : Patch ι' κ) (q : κ) (xL xR : V3) (vL vR : Surf)
    (yL yR : V3) (wL wR : Surf) : ℝ :=
  c0Mat (D.a0 q) (D.μ q) (arr xL) (arr xR) (arr yL) (arr yR)
    + c1MatOut1 (D.a1 q) (D.μ q) (A.side q) (B.side q) (dot (A.rest q).n (B.rest q).n) vL vR wL wR
    + c1MatOut2 (D.a1 q) (D.μ q) (A.side q) (B.side q) vL vR wL wR
    + c1MatIn1 (D.a1 q) (D.μ q) (A.side q) (B.side q) (dot (A.rest q).o (B.rest q).n)
        (dot (B.rest q).o (A.rest q).n) vL vR wL wR
    + c1MatIn2 (D.a1 q) (D.μ q) (A.side q) (B.side q) vL vR wL wR

/-- All entries of the linear matrix at one point (l.907-958). -/
noncomputable def slopeLin (D : Penalty κ) (A : Patch ι κ) (B : Patch ι' κ) (q : κ) (xL xR : V3) (vL vR : Surf)
    (yL yR : V3) (wL wR : Surf) : ℝ :=
  c0Mat (D.a0 q) (D.μ q) (arr xL) (arr xR) (arr yL) (arr yR)
    + c1MatOut2 (D.a1 q) (D.μ q) (A.rest q) (B.rest q) vL vR wL wR
    + c1MatIn2 (D.a1 q) (D.μ q) (A.rest q) (B.rest q) vL vR wL wR

end Verif.JointBalance
