import Verif.Model.Planar
import Mathlib.Analysis.InnerProductSpace.PiL2

/-!
# The nonlinear system of a planar sheet

Models the residual assembled by the two-dimensional `assembleVector`
(`src/gsThinShellAssembler.hpp` l.2066-2131) and the tangent assembled by `assembleMatrix`
(l.1791-1850) as functions of the vector of unknowns, for a nonlinear material given by its stress and
tangent (`Model/Planar`).

Simplifications: as in `Model/ShellSystem`; a planar geometry enters through its Jacobians.  The
shortcut that sets the stress to zero very close to the undeformed state (`Model/Shortcut`) is left
out.
-/

namespace Verif.PlanarSystem

open Verif.Geometry Verif.Variation Verif.Planar Verif.Integrate

/-- A discretised sheet: quadrature points with weights, thickness, the undeformed Jacobian `ori`, the
Jacobian `pre` when all unknowns vanish, the Jacobians of the fields of the unknowns, the loads. -/
structure Problem (J κ : Type) where
  Q : Finset κ
  μ : κ → ℝ
  t : κ → ℝ
  ori : κ → Jac
  pre : κ → Jac
  field : κ → J → Jac
  F : J → ℝ

variable {J κ : Type} [Fintype J]

/-- Jacobian of a displacement. -/
def combine (f : J → Jac) (x : J → ℝ) : Jac := fun i d => ∑ j, x j * f j i d

/-- Jacobian of the deformed sheet (`src/gsThinShellAssembler.hpp` l.2491-2512, 2626-2680). -/
def deformed (P : Problem J κ) (x : EuclideanSpace ℝ J) (q : κ) : Jac := fun i d =>
  P.pre q i d + combine (P.field q) x i d

/-- The membrane forces (`src/gsMaterialMatrixIntegrate.hpp` l.311-323). -/
noncomputable def forces (P : Problem J κ) (M : κ → Material) (r : Rule) (x : EuclideanSpace ℝ J) (q : κ) : Voigt :=
  resultant (M q) r (P.t q) 0 (P.ori q) (deformed P x q)

/-- The moduli (`src/gsMaterialMatrixIntegrate.hpp` l.311-323). -/
noncomputable def moduli (P : Problem J κ) (M : κ → Material) (r : Rule) (x : EuclideanSpace ℝ J) (q : κ) : T3 :=
  modulus (M q) r (P.t q) 0 (P.ori q) (deformed P x q)

/-- The residual (`src/gsThinShellAssembler.hpp` l.2106-2110). -/
noncomputable def residual (P : Problem J κ) (M : κ → Material) (r : Rule) (x : EuclideanSpace ℝ J) :
    EuclideanSpace ℝ J :=
  WithLp.toLp 2 fun j =>
    (∑ q ∈ P.Q, internalForce (deformed P x q) (P.field q j) (forces P M r x q) * P.μ q) + P.F j

/-- Entries of the tangent (`src/gsThinShellAssembler.hpp` l.1821-1835). -/
noncomputable def entry (P : Problem J κ) (M : κ → Material) (r : Rule) (x : EuclideanSpace ℝ J) (j j' : J) : ℝ :=
  ∑ q ∈ P.Q, stiffness (deformed P x q) (P.field q j) (P.field q j') (moduli P M r x q) (forces P M r x q) * P.μ q

/-- The tangent as a linear map. -/
noncomputable def tangent (P : Problem J κ) (M : κ → Material) (r : Rule) (x : EuclideanSpace ℝ J) :
    EuclideanSpace ℝ J →L[ℝ] EuclideanSpace ℝ J :=
  LinearMap.toContinuousLinearMap
    { toFun := fun v => WithLp.toLp 2 fun j => ∑ j', entry P M r x j j' * v j'
      map_add' := fun u v => by
        ext j; simp [mul_add, Finset.sum_add_distrib]
      map_smul' := fun c v => by
        ext j; simp [Finset.mul_sum, mul_left_comm] }

/-- The matrix of the linear problem (`src/gsThinShellAssembler.hpp` l.1655-1680): the expressions on
the undeformed geometry, without forces. -/
noncomputable def linearEntry (P : Problem J κ) (M : κ → Material) (r : Rule) (j j' : J) : ℝ :=
  ∑ q ∈ P.Q, dotV (rowMul (EmDer (P.ori q) (P.field q j)) (modulus (M q) r (P.t q) 0 (P.ori q) (P.ori q)))
    (EmDer (P.ori q) (P.field q j')) * P.μ q

/-- The loads times a factor. -/
def Problem.scale (P : Problem J κ) (l : ℝ) : Problem J κ := { P with F := fun j => l * P.F j }

/-- Incompressible neo-Hookean and Mooney–Rivlin materials (`src/gsMaterialMatrixNonlinear.hpp`
l.1309-1343, 1690-1715). -/
noncomputable def neoHooke (p : Hyper.Par) : Material := ⟨Hyper.sNH p, Hyper.cNH p⟩

/-- Mooney–Rivlin. -/
noncomputable def mooneyRivlin (p : Hyper.Par) : Material := ⟨Hyper.sMR p, Hyper.cMR p⟩

/-- The two incompressible materials with a stored energy. -/
inductive Solid where
  | neoHooke
  | mooneyRivlin

/-- Stress and tangent. -/
noncomputable def Solid.law : Solid → Hyper.Par → Material
  | .neoHooke => PlanarSystem.neoHooke
  | .mooneyRivlin => PlanarSystem.mooneyRivlin

end Verif.PlanarSystem
