import Verif.Model.System
import Mathlib.Analysis.InnerProductSpace.PiL2

/-!
# The nonlinear system of a shell

Models the residual assembled by `assembleVector` (`src/gsThinShellAssembler.hpp` l.1980-2065) and the
tangent assembled by `assembleMatrix` (l.1706-1790) as functions of the vector of unknowns, for shells
with bending, and the section quantities of two materials whose moduli do not depend on the
deformation.

Simplifications: the unknowns are a finite type `J`; the field of an unknown is the basis function (or
the sum of the basis functions with the same number) in one component.  Quadrature points are a type
`κ` and `μ` is weight times `meas(m_ori)`.  Loads are dead: body forces, tractions and point loads;
pressure, foundation and weak conditions are left out (`Model/WeakForms`).
-/

namespace Verif.ShellSystem

open V3 Verif.Geometry Verif.Variation Verif.Balance Verif.Integrate
open Verif.Linear (Output)

/-- A discretised shell: quadrature points with weights, the undeformed surface `ori`, the surface `pre`
when all unknowns vanish (the undeformed one moved by the prescribed displacements), the fields of the
unknowns, the loads. -/
structure Problem (J κ : Type) where
  Q : Finset κ
  μ : κ → ℝ
  ori : κ → Surf
  pre : κ → Surf
  field : κ → J → Surf
  F : J → ℝ

variable {J κ : Type} [Fintype J]

/-- The deformed surface: `constructSolution` puts the coefficients of the unknowns (and the prescribed
values) on the control points of the undeformed geometry (`src/gsThinShellAssembler.hpp`
l.2491-2512, 2626-2680). -/
noncomputable def deformed (P : Problem J κ) (x : EuclideanSpace ℝ J) (q : κ) : Surf :=
  ⟨fun i => (P.pre q).a i + vsum Finset.univ fun j => x j • (P.field q j).a i,
    (P.pre q).d11 + vsum Finset.univ fun j => x j • (P.field q j).d11,
    (P.pre q).d22 + vsum Finset.univ fun j => x j • (P.field q j).d22,
    (P.pre q).d12 + vsum Finset.univ fun j => x j • (P.field q j).d12⟩

/-- The material at the quadrature points: section quantities of a deformed surface. -/
abbrev Law (κ : Type) := κ → Surf → Section

/-- The residual (`src/gsThinShellAssembler.hpp` l.2032-2042): loads minus internal forces. -/
noncomputable def residual (P : Problem J κ) (law : Law κ) (x : EuclideanSpace ℝ J) : EuclideanSpace ℝ J :=
  WithLp.toLp 2 fun j => (∑ q ∈ P.Q, internalForce (deformed P x q) (P.field q j)
    (law q (deformed P x q)).N (law q (deformed P x q)).M * P.μ q) + P.F j

/-- Entries of the tangent (`src/gsThinShellAssembler.hpp` l.1757-1776). -/
noncomputable def entry (P : Problem J κ) (law : Law κ) (x : EuclideanSpace ℝ J) (j j' : J) : ℝ :=
  ∑ q ∈ P.Q, stiffness (deformed P x q) (P.field q j) (P.field q j') (law q (deformed P x q)).A
    (law q (deformed P x q)).B (law q (deformed P x q)).C (law q (deformed P x q)).D
    (law q (deformed P x q)).N (law q (deformed P x q)).M * P.μ q

/-- The tangent as a linear map. -/
noncomputable def tangent (P : Problem J κ) (law : Law κ) (x : EuclideanSpace ℝ J) :
    EuclideanSpace ℝ J →L[ℝ] EuclideanSpace ℝ J :=
  LinearMap.toContinuousLinearMap
    { toFun := fun v => WithLp.toLp 2 fun j => ∑ j', entry P law x j j' * v j'
      map_add' := fun u v => by
        ext j; simp [mul_add, Finset.sum_add_distrib]
      map_smul' := fun c v => by
        ext j; simp [Finset.mul_sum, mul_left_comm] }

/-- The matrix that `assemble` gives for the linear problem (`src/gsThinShellAssembler.hpp`
l.1577-1600): the expressions on the undeformed surface, without resultants. -/
noncomputable def linearEntry (P : Problem J κ) (law : Law κ) (j j' : J) : ℝ :=
  ∑ q ∈ P.Q, linStiffness (P.ori q) (P.field q j) (P.field q j') (law q (P.ori q)).A
    (law q (P.ori q)).B (law q (P.ori q)).C (law q (P.ori q)).D * P.μ q

/-- The loads times a factor. -/
def Problem.scale (P : Problem J κ) (l : ℝ) : Problem J κ := { P with F := fun j => l * P.F j }

/-- The problem of a basis `φ` with the free degrees of freedom as unknowns and the others prescribed to
be zero. -/
def Problem.held {ι : Type} (Q : Finset κ) (μ : κ → ℝ) (ori : κ → Surf) (φ : κ → ι → Shape)
    (free : ι × Fin 3 → Prop) (F : {p // free p} → ℝ) : Problem {p // free p} κ :=
  ⟨Q, μ, ori, ori, fun q j => System.dofField (φ q) j.1, F⟩

/-! ## Materials -/

/-- Value of an evaluation that does not fail. -/
noncomputable def value : Outcome ℝ → ℝ
  | .ok x => x
  | _ => 0

/-- The linear material: moduli as in `System.linearModuli`; the resultants are the stresses of the
membrane and of the bending strain, integrated in closed form
(`src/gsMaterialMatrixLinear.hpp` l.249-316, 557-616, `src/gsMaterialMatrixIntegrate.hpp` l.169-257). -/
noncomputable def linearLaw (r : Rule) (E ν t : ℝ) (ori s : Surf) : Section :=
  { System.linearModuli r t E ν ori with
    N := fun k => value (evalInto .constant r .vectorN t
      fun _ => Linear.stress E ν (Acon ori) (membraneStrain ori s) k)
    M := fun k => value (evalInto .constant r .vectorM t
      fun _ => Linear.stress E ν (Acon ori) (bendingStrain ori s) k) }

/-- Strain vector of a laminate: `Eij(0,1) += Eij(1,0)`, then the entries in Voigt order
(`src/gsMaterialMatrixComposite.hpp` l.317-321). -/
noncomputable def strainVec (e : T2) : Voigt := vec3 (e 0 0) (e 1 1) (e 0 1 + e 1 0)

/-- The laminate: `VectorN` is the matrix `A` times the membrane strain, `VectorM` the matrix `D` times
the bending strain (`src/gsMaterialMatrixComposite.hpp` l.287-326). -/
noncomputable def laminateLaw (r : Rule) (t : ℝ) (ls : List Composite.Layer) (ori s : Surf) : Section :=
  { System.laminateModuli r t ls ori with
    N := mulVec3 (System.laminateModuli r t ls ori).A (strainVec (membraneStrain ori s))
    M := mulVec3 (System.laminateModuli r t ls ori).D (strainVec (bendingStrain ori s)) }

end Verif.ShellSystem
