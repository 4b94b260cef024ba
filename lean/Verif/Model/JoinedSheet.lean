import Verif.Model.PlanarSystem
import Verif.Model.LoadedShell
import Verif.Model.WeakForms

/-!
# The system of planar patches with weak interfaces and weak Dirichlet sides

Models what the two-dimensional `assemble`, `assembleMatrix` and `assembleVector` give for a sheet of the linear
material with `Weak Dirichlet` sides and weak C0 interfaces: `_assembleWeakBCs_impl` for the linear system
(`src/gsThinShellAssembler.hpp` l.655-700), for the tangent (l.811-835) and for the residual (l.838-866);
`_assembleWeakIfc_impl` for the linear matrix (l.971-1002), for the tangent (l.1233-1267) and for the residual
(l.1270-1302).

Simplifications: as in `Model/PlanarSystem`.  The penalty factors are numbers at the points of sides and interfaces;
they are read off the moduli (l.672-673, 828-829, 987-988, 1250-1251), which are constant for the linear material.
`μ` is `meas(m_ori)`.
-/

namespace Verif.JoinedSheet

open Verif.Geometry Verif.Planar Verif.PlanarSystem Verif.WeakForms

/-- In-plane index of an index of a 3×3 matrix. -/
def down (i : Fin 3) : Fin 2 := if i = 0 then 0 else 1

/-- Undeformed metric belonging to the members left by `_getMetric`. -/
noncomputable def metric (D : Hyper.Data) : T2 := inv2 fun i j => D.Gori (Hyper.up i) (Hyper.up j)

/-- The linear material (`src/gsMaterialMatrixLinear.hpp` l.206-211, 483-486, 539-563, 606) as a function of the
metrics.  The place of `m_Acon_ori` is taken by the covariant metric, which the planar code stores there
(`src/gsMaterialMatrixBaseDim.hpp` l.1286). -/
noncomputable def plain (E ν : ℝ) : Material where
  stress D i j := Linear.Sij E ν (metric D) (fun a b => 0.5 * (D.gcov (Hyper.up a) (Hyper.up b) - metric D a b))
    (down i) (down j)
  tangent D i j k l := Linear.Cval E ν (metric D) (down i) (down j) (down k) (down l)

/-- Interfaces (index 0): points, weights, factors, measures, values of the fields of the unknowns and
displacements when all unknowns vanish on both sides.  Weak Dirichlet sides (index d): the option `WeakDirichlet`,
points, weights, largest moduli over areas, measures, values of the fields, displacement when all unknowns vanish,
prescribed displacement. -/
structure Joins (J ι : Type) where
  Q0 : Finset ι
  w0 : ι → ℝ
  a0 : ι → ℝ
  μ0 : ι → ℝ
  uL : ι → J → Vd 2
  uR : ι → J → Vd 2
  gL : ι → Vd 2
  gR : ι → Vd 2
  opt : ℝ
  Qd : Finset ι
  wd : ι → ℝ
  m : ι → ℝ
  μd : ι → ℝ
  u : ι → J → Vd 2
  u0 : ι → Vd 2
  g : ι → Vd 2

variable {J κ ι : Type} [Fintype J]

/-- Displacement of a point: prescribed part and unknowns. -/
def disp (u : J → Vd 2) (g : Vd 2) (x : EuclideanSpace ℝ J) : Vd 2 := fun i => g i + ∑ j, x j * u j i

/-- The residual (l.838-866, 1270-1302). -/
noncomputable def residual (P : Problem J κ) (G : Joins J ι) (M : κ → Material) (r : Integrate.Rule)
    (x : EuclideanSpace ℝ J) : EuclideanSpace ℝ J :=
  WithLp.toLp 2 fun j => PlanarSystem.residual P M r x j
    + quad G.Qd G.wd (fun q => dirVec (G.opt * G.m q) (G.μd q) (disp (G.u q) (G.u0 q) x) (G.g q) (G.u q j))
    + quad G.Q0 G.w0 (fun q => c0Vec2 (G.a0 q) (G.μ0 q) (disp (G.uL q) (G.gL q) x) (disp (G.uR q) (G.gR q) x)
        (G.uL q j) (G.uR q j))

/-- Entries of the tangent (l.811-835, 1233-1267). -/
noncomputable def entry (P : Problem J κ) (G : Joins J ι) (M : κ → Material) (r : Integrate.Rule)
    (x : EuclideanSpace ℝ J) (j j' : J) : ℝ :=
  PlanarSystem.entry P M r x j j'
    + quad G.Qd G.wd (fun q => dirMat (G.opt * G.m q) (G.μd q) (G.u q j) (G.u q j'))
    + quad G.Q0 G.w0 (fun q => c0Mat (G.a0 q) (G.μ0 q) (G.uL q j) (G.uR q j) (G.uL q j') (G.uR q j'))

/-- Entries of the matrix of the linear problem (l.655-683, 971-1002). -/
noncomputable def linearEntry {J κ ι : Type} (P : Problem J κ) (G : Joins J ι) (M : κ → Material) (r : Integrate.Rule)
    (j j' : J) : ℝ :=
  PlanarSystem.linearEntry P M r j j'
    + quad G.Qd G.wd (fun q => dirMat (G.opt * G.m q) (G.μd q) (G.u q j) (G.u q j'))
    + quad G.Q0 G.w0 (fun q => c0MatLin2 (G.a0 q) (G.μ0 q) (G.uL q j) (G.uR q j) (G.uL q j') (G.uR q j'))

/-- Right-hand side of the linear problem (l.686-700); `X` are the points of the sides. -/
noncomputable def linearRhs {J κ ι : Type} (P : Problem J κ) (G : Joins J ι) (X : ι → Vd 2) (j : J) : ℝ :=
  P.F j + quad G.Qd G.wd (fun q => dirVecLin2 G.opt (G.μd q) (X q) (G.g q) (G.u q j))

/-- The tangent as a linear map. -/
noncomputable def tangent (P : Problem J κ) (G : Joins J ι) (M : κ → Material) (r : Integrate.Rule)
    (x : EuclideanSpace ℝ J) : EuclideanSpace ℝ J →L[ℝ] EuclideanSpace ℝ J :=
  LoadedShell.ofEntries (entry P G M r x)

end Verif.JoinedSheet
