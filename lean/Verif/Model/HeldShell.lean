import Verif.Model.JoinedShell

/-!
# The nonlinear system of a shell held by weak boundary conditions

Models what `assembleMatrix`, `assembleVector` and `assemble` give for a shell with sides of the kinds
`Weak Dirichlet` and `Weak Clamped`: `_assembleWeakBCs` for the linear system
(`src/gsThinShellAssembler.hpp` l.576-651), `_assembleWeakBCs(deformed)` for the tangent (l.711-758) and for
the residual (l.761-808).

Simplifications: as in `Model/JoinedShell`; the penalty factors are numbers at the points of the sides, which is
exact for the linear material.  `nv(m_ori)` is a multiple (`len`) of the unit outer normal `unv(m_ori)`.
-/

namespace Verif.HeldShell

open V3 Verif.Geometry Verif.Variation Verif.ShellSystem Verif.WeakForms
open Verif.JoinedShell (Edge disp)

/-- Weakly held sides.  Index 0, weak Dirichlet: points, weights, factors, measures, values of the fields of the
unknowns, displacement when all unknowns vanish, prescribed displacement.  Index 1, weakly clamped: points,
weights, factors, measures, edge, length of the outer normal. -/
structure Holds (J ι : Type) where
  Q0 : Finset ι
  w0 : ι → ℝ
  a0 : ι → ℝ
  μ0 : ι → ℝ
  u : ι → J → Vd 3
  u0 : ι → Vd 3
  g : ι → Vd 3
  Q1 : Finset ι
  w1 : ι → ℝ
  a1 : ι → ℝ
  μ1 : ι → ℝ
  S : Edge J ι
  len : ι → ℝ

/-- Normal of the undeformed surface at a point of a clamped side (`usn(m_ori)`). -/
noncomputable def Holds.n0 {J ι : Type} (H : Holds J ι) (q : ι) : V3 := (H.S.rest q).n

/-- Outer normal of the undeformed surface at a point of a clamped side (`unv(m_ori)`). -/
noncomputable def Holds.out {J ι : Type} (H : Holds J ι) (q : ι) : V3 := (H.S.rest q).o

/-- All prescribed displacements times a number. -/
def Holds.scale {J ι : Type} (H : Holds J ι) (l : ℝ) : Holds J ι := { H with g := fun q i => l * H.g q i }

variable {J κ ι : Type} [Fintype J]

/-- The residual of the held shell (l.790-807). -/
noncomputable def residual (P : Problem J κ) (H : Holds J ι) (law : Law κ) (x : EuclideanSpace ℝ J) :
    EuclideanSpace ℝ J :=
  WithLp.toLp 2 fun j => ShellSystem.residual P law x j
    + quad H.Q0 H.w0 (fun q => dirVec (H.a0 q) (H.μ0 q) (disp (H.u q) (H.u0 q) x) (H.g q) (H.u q j))
    + quad H.Q1 H.w1 (fun q => clampVec (H.a1 q) (H.μ1 q) (H.S.surf x q) (H.n0 q) (H.len q • H.out q)
        (H.S.field q j))

/-- Entries of the tangent of the held shell (l.740-757). -/
noncomputable def entry (P : Problem J κ) (H : Holds J ι) (law : Law κ) (x : EuclideanSpace ℝ J) (j j' : J) : ℝ :=
  ShellSystem.entry P law x j j'
    + quad H.Q0 H.w0 (fun q => dirMat (H.a0 q) (H.μ0 q) (H.u q j) (H.u q j'))
    + quad H.Q1 H.w1 (fun q => clampMat (H.a1 q) (H.μ1 q) (H.S.surf x q) (H.n0 q) (H.out q)
        (H.S.field q j) (H.S.field q j'))

/-- Entries of the matrix of the linear problem (l.598-615). -/
noncomputable def linearEntry (P : Problem J κ) (H : Holds J ι) (law : Law κ) (j j' : J) : ℝ :=
  ShellSystem.linearEntry P law j j'
    + quad H.Q0 H.w0 (fun q => dirMat (H.a0 q) (H.μ0 q) (H.u q j) (H.u q j'))
    + quad H.Q1 H.w1 (fun q => clampMatLin (H.a1 q) (H.μ1 q) (H.S.ori q) (H.out q)
        (H.S.field q j) (H.S.field q j'))

/-- Right-hand side of the linear problem (l.640-650). -/
noncomputable def linearRhs {J κ ι : Type} (P : Problem J κ) (H : Holds J ι) (j : J) : ℝ :=
  P.F j + quad H.Q0 H.w0 (fun q => dirVecLin3 (H.a0 q) (H.μ0 q) (H.g q) (H.u q j))

/-- The tangent as a linear map. -/
noncomputable def tangent (P : Problem J κ) (H : Holds J ι) (law : Law κ) (x : EuclideanSpace ℝ J) :
    EuclideanSpace ℝ J →L[ℝ] EuclideanSpace ℝ J :=
  LoadedShell.ofEntries (entry P H law x)

end Verif.HeldShell
