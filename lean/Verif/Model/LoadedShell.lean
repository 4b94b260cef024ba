import Verif.Model.ShellSystem
import Verif.Model.WeakForms

/-!
# The nonlinear system of a shell with pressure and foundation

Adds the terms of the pressure and of the elastic foundation to the system of `Model/ShellSystem`
(`src/gsThinShellAssembler.hpp` l.1577-1600, 1757-1776, 2024-2042).

Simplifications: those of `Model/ShellSystem`; pressure and foundation are given by their values at the
quadrature points (both are functions of the undeformed geometry, l.390, 430, 450, 545).
-/

namespace Verif.LoadedShell

open V3 Verif.Geometry Verif.Variation Verif.Balance Verif.ShellSystem

/-- Pressure and foundation: values of the fields of the unknowns, the displacement when all unknowns
vanish, the pressure, the foundation stiffness (one number for each direction). -/
structure Loads (J κ : Type) where
  val : κ → J → V3
  pre : κ → V3
  p : κ → ℝ
  k : κ → V3

variable {J κ : Type} [Fintype J]

/-- The displacement `m_def - m_ori`. -/
noncomputable def disp (B : Loads J κ) (x : EuclideanSpace ℝ J) (q : κ) : V3 :=
  B.pre q + vsum Finset.univ fun j => x j • B.val q j

/-- The residual (`src/gsThinShellAssembler.hpp` l.2027-2042): foundation, pressure, then loads and internal
forces. -/
noncomputable def residual (P : Problem J κ) (B : Loads J κ) (law : Law κ) (x : EuclideanSpace ℝ J) :
    EuclideanSpace ℝ J :=
  WithLp.toLp 2 fun j =>
    (∑ q ∈ P.Q, WeakForms.foundVec (P.μ q) (B.k q) (disp B x q) (B.val q j))
    + (∑ q ∈ P.Q, WeakForms.pressVec (B.p q) (P.μ q) (deformed P x q) (B.val q j))
    + ShellSystem.residual P law x j

/-- Entries of the tangent (`src/gsThinShellAssembler.hpp` l.1762-1776). -/
noncomputable def entry (P : Problem J κ) (B : Loads J κ) (law : Law κ) (x : EuclideanSpace ℝ J) (j j' : J) : ℝ :=
  (∑ q ∈ P.Q, WeakForms.foundMat (P.μ q) (B.k q) (B.val q j) (B.val q j'))
  + (∑ q ∈ P.Q, WeakForms.pressMat (B.p q) (P.μ q) (deformed P x q) (B.val q j) (P.field q j'))
  + ShellSystem.entry P law x j j'

/-- A matrix as a linear map. -/
noncomputable def ofEntries (e : J → J → ℝ) : EuclideanSpace ℝ J →L[ℝ] EuclideanSpace ℝ J :=
  LinearMap.toContinuousLinearMap
    { toFun := fun v => WithLp.toLp 2 fun j => ∑ j', e j j' * v j'
      map_add' := fun u v => by
        ext j; simp [mul_add, Finset.sum_add_distrib]
      map_smul' := fun c v => by
        ext j; simp [Finset.mul_sum, mul_left_comm] }

/-- The tangent as a linear map. -/
noncomputable def tangent (P : Problem J κ) (B : Loads J κ) (law : Law κ) (x : EuclideanSpace ℝ J) :
    EuclideanSpace ℝ J →L[ℝ] EuclideanSpace ℝ J := ofEntries (entry P B law x)

/-- The matrix of the linear problem (`src/gsThinShellAssembler.hpp` l.1582-1600): the foundation adds to it,
the pressure does not. -/
noncomputable def linearEntry (P : Problem J κ) (B : Loads J κ) (law : Law κ) (j j' : J) : ℝ :=
  (∑ q ∈ P.Q, WeakForms.foundMat (P.μ q) (B.k q) (B.val q j) (B.val q j'))
  + (∑ q ∈ P.Q, WeakForms.pressMatLin (B.p q) (P.μ q))
  + ShellSystem.linearEntry P law j j'

/-- The right-hand side of the linear problem (`src/gsThinShellAssembler.hpp` l.1582-1612): the pressure adds
to it, the foundation does not. -/
noncomputable def linearRhs (P : Problem J κ) (B : Loads J κ) (j : J) : ℝ :=
  (∑ q ∈ P.Q, WeakForms.foundVecLin (P.μ q))
  + (∑ q ∈ P.Q, WeakForms.pressVec (B.p q) (P.μ q) (P.ori q) (B.val q j)) + P.F j

end Verif.LoadedShell
