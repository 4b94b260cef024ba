import Verif.Model.LoadedShell
import Verif.Model.WeakForms

/-!
# The nonlinear system of patches joined by penalties

Models what `assembleMatrix` and `assembleVector` give for a shell of several patches with weak C0 and
weak C1 interfaces: `_assembleWeakIfc` is called for the linear system (`src/gsThinShellAssembler.hpp`
l.869-960), `_assembleWeakIfc(deformed)` for the tangent (l.1022-1158) and for the residual
(l.1160-1230).

Simplifications: the penalty factors (`alpha_d`, `alpha_r`, l.901-902, 1047-1048) are numbers at the
points of the interfaces.  They are read off the moduli at the deformed geometry (l.1034-1037), so they
are constant for the linear material, to which this model is restricted.  The points of all interfaces
with weak C0 coupling are one finite set, those with weak C1 coupling another; `μ` is `meas(m_ori)`.
Weak boundary conditions are left out (`Model/WeakForms`).
-/

namespace Verif.JoinedShell

open V3 Verif.Geometry Verif.Variation Verif.ShellSystem Verif.WeakForms

/-- One side of the interfaces with weak C1 coupling: undeformed surface, surface when all unknowns
vanish, fields of the unknowns, and which column of the Jacobian is tangent to the interface, with its
sign (the tangent is that of `tangent_expr`). -/
structure Edge (J ι : Type) where
  ori : ι → Surf
  pre : ι → Surf
  field : ι → J → Surf
  c : ι → Fin 2
  σ : ι → ℝ

/-- Interfaces: points, weights, penalty factors and measures of the C0 coupling (index 0) with the values
of the fields of the unknowns and the prescribed displacements on both sides; the same for the C1 coupling
(index 1) with the two edges. -/
structure Joins (J ι : Type) where
  Q0 : Finset ι
  w0 : ι → ℝ
  a0 : ι → ℝ
  μ0 : ι → ℝ
  uL : ι → J → Vd 3
  uR : ι → J → Vd 3
  gL : ι → Vd 3
  gR : ι → Vd 3
  Q1 : Finset ι
  w1 : ι → ℝ
  a1 : ι → ℝ
  μ1 : ι → ℝ
  L : Edge J ι
  R : Edge J ι

variable {J κ ι : Type} [Fintype J]

/-- The surfaces at the points of an edge, moved by the unknowns as in `ShellSystem.deformed`. -/
noncomputable def Edge.surf (S : Edge J ι) (x : EuclideanSpace ℝ J) (q : ι) : Surf :=
  deformed ⟨∅, fun _ => 0, S.ori, S.pre, S.field, fun _ => 0⟩ x q

/-- The side given by a surface at a point of the edge: `usn`, `unv` and their variations. -/
noncomputable def Edge.sideAt {J ι : Type} (S : Edge J ι) (q : ι) (s : Surf) : Side Surf :=
  sideOf s (S.σ q • s.a (S.c q))

/-- The deformed side (`m_def.left()` or `m_def.right()`). -/
noncomputable def Edge.side (S : Edge J ι) (x : EuclideanSpace ℝ J) (q : ι) : Side Surf :=
  S.sideAt q (S.surf x q)

/-- The undeformed side (`m_ori.left()` or `m_ori.right()`). -/
noncomputable def Edge.rest {J ι : Type} (S : Edge J ι) (q : ι) : Side Surf := S.sideAt q (S.ori q)

/-- The displacement of a side: prescribed part and unknowns. -/
def disp (u : J → Vd 3) (g : Vd 3) (x : EuclideanSpace ℝ J) : Vd 3 := fun i => g i + ∑ j, x j * u j i

/-- The coupling vector at one C1 point (l.1206-1228). -/
noncomputable def c1Vec (G : Joins J ι) (x : EuclideanSpace ℝ J) (j : J) (q : ι) : ℝ :=
  c1VecOut (G.a1 q) (G.μ1 q) (G.L.side x q) (G.R.side x q) (dot (G.L.rest q).n (G.R.rest q).n)
      (G.L.field q j) (G.R.field q j)
    + c1VecIn (G.a1 q) (G.μ1 q) (G.L.side x q) (G.R.side x q) (dot (G.L.rest q).o (G.R.rest q).n)
      (dot (G.R.rest q).o (G.L.rest q).n) (G.L.field q j) (G.R.field q j)

/-- The coupling matrix at one C1 point (l.1079-1156). -/
noncomputable def c1Mat (G : Joins J ι) (x : EuclideanSpace ℝ J) (j j' : J) (q : ι) : ℝ :=
  c1MatOut1 (G.a1 q) (G.μ1 q) (G.L.side x q) (G.R.side x q) (dot (G.L.rest q).n (G.R.rest q).n)
      (G.L.field q j) (G.R.field q j) (G.L.field q j') (G.R.field q j')
    + c1MatOut2 (G.a1 q) (G.μ1 q) (G.L.side x q) (G.R.side x q)
      (G.L.field q j) (G.R.field q j) (G.L.field q j') (G.R.field q j')
    + c1MatIn1 (G.a1 q) (G.μ1 q) (G.L.side x q) (G.R.side x q) (dot (G.L.rest q).o (G.R.rest q).n)
      (dot (G.R.rest q).o (G.L.rest q).n) (G.L.field q j) (G.R.field q j) (G.L.field q j') (G.R.field q j')
    + c1MatIn2 (G.a1 q) (G.μ1 q) (G.L.side x q) (G.R.side x q)
      (G.L.field q j) (G.R.field q j) (G.L.field q j') (G.R.field q j')

/-- The coupling matrix of the linear problem at one C1 point (l.920-958). -/
noncomputable def c1MatLin {J ι : Type} (G : Joins J ι) (j j' : J) (q : ι) : ℝ :=
  c1MatOut2 (G.a1 q) (G.μ1 q) (G.L.rest q) (G.R.rest q)
      (G.L.field q j) (G.R.field q j) (G.L.field q j') (G.R.field q j')
    + c1MatIn2 (G.a1 q) (G.μ1 q) (G.L.rest q) (G.R.rest q)
      (G.L.field q j) (G.R.field q j) (G.L.field q j') (G.R.field q j')

/-- The residual of the joined shell. -/
noncomputable def residual (P : Problem J κ) (G : Joins J ι) (law : Law κ) (x : EuclideanSpace ℝ J) :
    EuclideanSpace ℝ J :=
  WithLp.toLp 2 fun j => ShellSystem.residual P law x j
    + quad G.Q0 G.w0 (fun q => c0Vec3 (G.a0 q) (G.μ0 q) (disp (G.uL q) (G.gL q) x) (disp (G.uR q) (G.gR q) x)
        (G.uL q j) (G.uR q j))
    + quad G.Q1 G.w1 (c1Vec G x j)

/-- Entries of the tangent of the joined shell. -/
noncomputable def entry (P : Problem J κ) (G : Joins J ι) (law : Law κ) (x : EuclideanSpace ℝ J) (j j' : J) : ℝ :=
  ShellSystem.entry P law x j j'
    + quad G.Q0 G.w0 (fun q => c0Mat (G.a0 q) (G.μ0 q) (G.uL q j) (G.uR q j) (G.uL q j') (G.uR q j'))
    + quad G.Q1 G.w1 (c1Mat G x j j')

/-- Entries of the matrix of the linear problem. -/
noncomputable def linearEntry (P : Problem J κ) (G : Joins J ι) (law : Law κ) (j j' : J) : ℝ :=
  ShellSystem.linearEntry P law j j'
    + quad G.Q0 G.w0 (fun q => c0Mat (G.a0 q) (G.μ0 q) (G.uL q j) (G.uR q j) (G.uL q j') (G.uR q j'))
    + quad G.Q1 G.w1 (c1MatLin G j j')

/-- The tangent as a linear map. -/
noncomputable def tangent (P : Problem J κ) (G : Joins J ι) (law : Law κ) (x : EuclideanSpace ℝ J) :
    EuclideanSpace ℝ J →L[ℝ] EuclideanSpace ℝ J :=
  LoadedShell.ofEntries (entry P G law x)

end Verif.JoinedShell
