import Verif.Model.BucklingProgram
import Verif.Model.DWREigen
import Verif.Model.LoadedShell

/-!
# The modal analysis of the example program

`examples/example_shell3D_DWR_modal.cpp` l.381-505: stiffness and mass matrix of a basis, their eigenpairs, the same
for the finer basis, the scaled eigenvectors, and the printed numbers.

Simplifications: exact arithmetic; all eigenpairs are returned (Spectra returns at most 10); the solvers are given by
what they promise (`Model/BucklingProgram`); fields are given by their values and derivatives at the quadrature points
`α`, the same points for both bases.  Division by zero, which gives numbers that are not numbers, is `none`.
-/

namespace Verif.ModalProgram

open V3 Verif.Geometry Verif.Variation Verif.DWR RealInnerProductSpace
open Verif.Balance (vsum)
open Verif.BucklingProgram (Dense Shifted)

variable {α : Type} {n N : ℕ}

/-- The field of a vector of coefficients (`constructMultiPatchL`, `constructMultiPatchH`,
`src/gsThinShellAssemblerDWR.h` l.205-206). -/
noncomputable def comb (φ : Fin n → α → EigFld) (c : EuclideanSpace ℝ (Fin n)) (q : α) : EigFld :=
  ⟨vsum Finset.univ fun i => c i • (φ i q).w,
   ⟨fun k => vsum Finset.univ fun i => c i • (φ i q).d.a k, vsum Finset.univ fun i => c i • (φ i q).d.d11,
    vsum Finset.univ fun i => c i • (φ i q).d.d22, vsum Finset.univ fun i => c i • (φ i q).d.d12⟩,
   ⟨fun k => vsum Finset.univ fun i => c i • (φ i q).first.a k, vsum Finset.univ fun i => c i • (φ i q).first.d11,
    vsum Finset.univ fun i => c i • (φ i q).first.d22, vsum Finset.univ fun i => c i • (φ i q).first.d12⟩⟩

/-- Sum over the quadrature points. -/
noncomputable def integral (D : EigSetup α) (f : α → ℝ) : ℝ :=
  (D.elems.map fun e => (e.map fun q => D.wt q * (f q * Variation.measure (D.pt q).ori)).sum).sum

/-- `assembleMatrixL()`, `assembleMatrixH()`: the linear matrix of the basis
(`src/gsThinShellAssembler.hpp` l.1577-1600). -/
noncomputable def stiff (D : EigSetup α) (φ : Fin n → α → EigFld) :
    EuclideanSpace ℝ (Fin n) →L[ℝ] EuclideanSpace ℝ (Fin n) :=
  LoadedShell.ofEntries fun i j => integral D fun q =>
    linStiffness (D.pt q).ori (φ i q).d (φ j q).d (D.pt q).mm.1 (D.pt q).mm.2.1 (D.pt q).mm.2.2.1 (D.pt q).mm.2.2.2

/-- `assembleMassL()`, `assembleMassH()`: the consistent mass matrix of the basis
(`src/gsThinShellAssembler.hpp` l.1457-1463). -/
noncomputable def mass (D : EigSetup α) (φ : Fin n → α → EigFld) :
    EuclideanSpace ℝ (Fin n) →L[ℝ] EuclideanSpace ℝ (Fin n) :=
  LoadedShell.ofEntries fun i j => integral D fun q => (D.pt q).rho * dot (φ i q).w (φ j q).w

/-- One of the two solvers (`examples/example_shell3D_DWR_modal.cpp` l.403-413, 454-464); `spectra` says whether
`gsSpectra_ENABLED` is defined. -/
def Solved (spectra : Bool) (D : EigSetup α) (φ : Fin n → α → EigFld) (vec : Fin n → EuclideanSpace ℝ (Fin n))
    (val : Fin n → ℝ) : Prop :=
  if spectra = true then Shifted (stiff D φ) (mass D φ) vec val else Dense (stiff D φ) (mass D φ) vec val

/-- `numGoal[r]`, `approxs[r]`, `estGoal[r]`. -/
structure Row where
  num : ℝ
  approx : ℝ
  est : ℝ

/-- The row of the table for the eigenpairs of the two bases (`examples/example_shell3D_DWR_modal.cpp`
l.428-505). -/
noncomputable def row (D : EigSetup α) (ψ : Fin n → α → EigFld) (φ : Fin N → α → EigFld)
    (vL : EuclideanSpace ℝ (Fin n)) (lL : ℝ) (vH : EuclideanSpace ℝ (Fin N)) (lH : ℝ) : Option Row :=
  if ⟪mass D ψ vL, vL⟫ = 0 then none else
  let u := comb ψ ((1 / ⟪mass D ψ vL, vL⟫) • vL)
  if normModal D u (comb ψ vL) = 0 then none else
  let zL := comb ψ ((1 / normModal D u (comb ψ vL)) • vL)
  if normModal D u (comb φ vH) = 0 then none else
  let zH := comb φ ((1 / normModal D u (comb φ vH)) • vH)
  let e := (eigEstimate .total .modal lL lL lH D u zL zH ⟨0, []⟩).error
  some ⟨lL, e, lL + e⟩

end Verif.ModalProgram
