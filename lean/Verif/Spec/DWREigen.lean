import Verif.Model.DWREigen
import Verif.Spec.DWRError

/-! # Specification notions for the eigenvalue estimates -/

namespace Verif.DWR

open V3 Verif.Geometry Verif.Variation

variable {α : Type}

/-- Sum over all quadrature points. -/
noncomputable def eigTotal (D : EigSetup α) (f : α → ℝ) : ℝ :=
  (D.elems.flatten.map fun q => D.wt q * f q * area (D.pt q).ori).sum

/-- Elastic form of the linear problem: the integrand of the assembler's linear stiffness matrix. -/
noncomputable def formA (D : EigSetup α) (z u : α → EigFld) : ℝ :=
  eigTotal D fun q =>
    let p := D.pt q
    linStiffness p.ori (z q).d (u q).d p.mm.1 p.mm.2.1 p.mm.2.2.1 p.mm.2.2.2

/-- Tangent form at the deformed geometry: the integrand of the assembler's stiffness matrix. -/
noncomputable def formT (D : EigSetup α) (z u : α → EigFld) : ℝ :=
  eigTotal D fun q =>
    let p := D.pt q
    stiffness p.defo (z q).d (u q).d p.mmN.1 p.mmN.2.1 p.mmN.2.2.1 p.mmN.2.2.2 p.N p.M

/-- Mass form. -/
noncomputable def formM (D : EigSetup α) (z u : α → EigFld) : ℝ :=
  eigTotal D fun q => (D.pt q).rho * ((z q).w.x * (u q).w.x + (z q).w.y * (u q).w.y + (z q).w.z * (u q).w.z)

/-- Right-hand form of the eigenvalue problem `a(u,z) = λ b(u,z)`. -/
noncomputable def formB (k : EigKind) (D : EigSetup α) (z u : α → EigFld) : ℝ :=
  match k with
  | .modal => formM D z u
  | .buckling => formT D z u - formA D z u

/-- Surface without second derivatives. -/
def Flat (s : Surf) : Prop := s.d11 = 0 ∧ s.d22 = 0 ∧ s.d12 = 0

/-- Reference and deformed surface have no second derivatives and no moments act. -/
def FlatState (D : EigSetup α) : Prop :=
  ∀ q, Flat (D.pt q).ori ∧ Flat (D.pt q).defo ∧ (D.pt q).M = fun _ => 0

end Verif.DWR
