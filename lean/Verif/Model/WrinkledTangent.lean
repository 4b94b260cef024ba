import Verif.Model.Wrinkled

/-!
# The tangent of a membrane with wrinkles

Models the matrix that the version of `assembleMatrix` without bending assembles
(`src/gsThinShellAssembler.hpp` l.1792-1858) for a membrane in space whose material is the tension-field wrapper
around the linear material, in the two variants of the wrapper (`src/gsMaterialMatrixTFT.hpp` l.366-452).

Simplifications: as in `Model/Wrinkled`.
-/

namespace Verif.Wrinkled

open Verif.Geometry Verif.Variation Verif.Integrate Verif.ShellSystem

variable {J κ : Type} [Fintype J]

/-- Matrix of the wrapper at a height by class.  `linear` is the template argument of that name: the variant for
linear materials (`src/gsMaterialMatrixTFT.hpp` l.366-407) or the general variant (l.409-452), which asks the
wrapped material for the derivative of its matrix; the linear material answers zero
(`src/gsMaterialMatrixLinear.hpp` l.254-258). -/
noncomputable def matrixOf (linear : Bool) (slack θ : ℝ) (C : T3) (S : Voigt) (tf : Int) : Outcome T3 :=
  if tf = 1 then .ok C
  else if tf = -1 then .ok fun i j => C i j * slack
  else if tf = 0 then
    .ok (if linear then TFT.computeCLin θ C S else TFT.computeCNl θ C S fun _ _ _ => 2 * 0)
  else .throws

/-- Matrix at a height: classification with the option `opt`, then the matrix by class. -/
noncomputable def matrixAt (linear : Bool) (opt : Int) (slack E ν : ℝ) (ori s : Surf) (f : Found) (z : ℝ) : Outcome T3 :=
  (TFT.tensionField opt (f.s0 z) (f.s1 z) (f.e0 z) (f.e1 z)).bind fun tf =>
    (TFTSection.linStress E ν ori s .vectorN z).bind fun S =>
      matrixOf linear slack (f.θ z) (Linear.matrix E ν (Acon ori)) S tf

/-- The matrix `A` of the section (`src/gsMaterialMatrixIntegrate.hpp` l.181-223, 333-364), one entry. -/
noncomputable def moduli (linear : Bool) (r : Rule) (opt : Int) (slack E ν t : ℝ) (ori s : Surf) (f : Found)
    (i k : Fin 3) : Outcome ℝ :=
  TFTSection.section2 r .matrixA t fun z => (matrixAt linear opt slack E ν ori s f z).map fun D => D i k

/-- Entries of the tangent (`src/gsThinShellAssembler.hpp` l.1829-1834) with the matrices `A` and the membrane
forces `N` at the quadrature points. -/
noncomputable def entry (P : Problem J κ) (A : κ → T3) (N : κ → Voigt) (x : EuclideanSpace ℝ J) (j j' : J) : ℝ :=
  ∑ q ∈ P.Q, stiffnessMembrane (deformed P x q) (P.field q j) (P.field q j') (A q) (N q) * P.μ q

/-- The tangent as a linear map. -/
noncomputable def tangent (P : Problem J κ) (A : κ → T3) (N : κ → Voigt) (x : EuclideanSpace ℝ J) :
    EuclideanSpace ℝ J →L[ℝ] EuclideanSpace ℝ J :=
  LinearMap.toContinuousLinearMap
    { toFun := fun v => WithLp.toLp 2 fun j => ∑ j', entry P A N x j j' * v j'
      map_add' := fun u v => by
        ext j; simp [mul_add, Finset.sum_add_distrib]
      map_smul' := fun c v => by
        ext j; simp [Finset.mul_sum, mul_left_comm] }

end Verif.Wrinkled
