import Verif.Model.ModalProgram

/-!
# The table of the buckling example

`examples/example_shell3D_DWR_buckling.cpp` l.384-513: the matrices of a basis and of a finer one at the same deformed
geometry, their eigenpairs, the scaled eigenvectors and the printed numbers.

Simplifications: those of `Model/BucklingProgram` and `Model/ModalProgram` (exact arithmetic, all eigenpairs are
returned, the solvers are given by what they promise, fields are given at the quadrature points `α`, the same points
for both bases, division by zero is `none`).
-/

namespace Verif.BucklingTable

open Verif.Geometry Verif.Variation Verif.DWR Verif.ModalProgram
open Verif.BucklingProgram (Dense Shifted)

variable {α : Type} {n N : ℕ}

/-- `assembleMatrixL(mp_def)`, `assembleMatrixH(mp_def)`: the tangent of the basis at the deformed geometry
(`src/gsThinShellAssembler.hpp` l.1757-1776). -/
noncomputable def tang (D : EigSetup α) (φ : Fin n → α → EigFld) :
    EuclideanSpace ℝ (Fin n) →L[ℝ] EuclideanSpace ℝ (Fin n) :=
  LoadedShell.ofEntries fun i j => integral D fun q =>
    stiffness (D.pt q).defo (φ i q).d (φ j q).d (D.pt q).mmN.1 (D.pt q).mmN.2.1 (D.pt q).mmN.2.2.1 (D.pt q).mmN.2.2.2
      (D.pt q).N (D.pt q).M

/-- One of the two solvers (`examples/example_shell3D_DWR_buckling.cpp` l.395-414, 460-479); `spectra` says whether
`gsSpectra_ENABLED` is defined. -/
def Solved (spectra : Bool) (D : EigSetup α) (φ : Fin n → α → EigFld) (vec : Fin n → EuclideanSpace ℝ (Fin n))
    (val : Fin n → ℝ) : Prop :=
  if spectra = true then Shifted (stiff D φ) (tang D φ - stiff D φ) vec val
  else Dense (tang D φ - stiff D φ) (stiff D φ) vec val

/-- The row of the table for the eigenpairs of the two bases (`examples/example_shell3D_DWR_buckling.cpp`
l.430-513). -/
noncomputable def row (D : EigSetup α) (ψ : Fin n → α → EigFld) (φ : Fin N → α → EigFld)
    (vL : EuclideanSpace ℝ (Fin n)) (lL : ℝ) (vH : EuclideanSpace ℝ (Fin N)) (lH : ℝ) : Option Row :=
  if normBuckling D (comb ψ vL) (comb ψ vL) = 0 then none else
  let u := comb ψ ((1 / normBuckling D (comb ψ vL) (comb ψ vL)) • vL)
  if normBuckling D u (comb ψ vL) = 0 then none else
  let zL := comb ψ ((1 / normBuckling D u (comb ψ vL)) • vL)
  if normBuckling D u (comb φ vH) = 0 then none else
  let zH := comb φ ((1 / normBuckling D u (comb φ vH)) • vH)
  let e := (eigEstimate .total .buckling lL lL lH D u zL zH ⟨0, []⟩).error
  some ⟨lL, e, lL + e⟩

end Verif.BucklingTable
