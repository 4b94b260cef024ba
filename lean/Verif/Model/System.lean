import Verif.Model.Balance
import Verif.Model.Integrate
import Verif.Model.Composite

/-!
# The matrix of the linear problem

Models the elastic part of the matrix assembled by `assemble` (`src/gsThinShellAssembler.hpp`
l.1540-1600 with bending, l.1629-1670 without) and the moduli it uses.

A degree of freedom is a basis function with a component.  Rows and columns are kept for all degrees
of freedom; the ones that G+Smo eliminates are named by a predicate where they matter.  `μ` is weight
times `meas(m_ori)`.  Terms of boundaries, interfaces, foundation and pressure are in
`Model/WeakForms`.
-/

namespace Verif.System

open V3 Verif.Geometry Verif.Variation Verif.Balance Verif.Integrate
open Verif.Linear (Output)

/-- Value of `gsMaterialMatrixIntegrate<T,out>` for a material whose 3×3 matrix for the output `o` at
the scaled height `ξ` is `C o ξ` (`src/gsThinShellAssembler.hpp` l.1557-1564,
`src/gsMaterialMatrixIntegrate.hpp` l.169-257). -/
noncomputable def modulus (c : MatIntegration) (r : Rule) (t : ℝ) (C : Output → ℝ → T3) (o : Output) :
    T3 := fun i j =>
  match evalInto c r o t (fun ξ => C o ξ i j) with
  | .ok x => x
  | _ => 0

/-- The moduli of the linear problem (`src/gsThinShellAssembler.hpp` l.1557-1564); no resultants. -/
noncomputable def moduli (c : MatIntegration) (r : Rule) (t : ℝ) (C : Output → ℝ → T3) : Section :=
  ⟨modulus c r t C .matrixA, modulus c r t C .matrixB, modulus c r t C .matrixC,
    modulus c r t C .matrixD, fun _ => 0, fun _ => 0⟩

/-- The field of a degree of freedom. -/
def dofField {ι : Type} (φ : ι → Shape) (p : ι × Fin 3) : Surf :=
  basisField p.2 (φ p.1).grad (φ p.1).hess

/-- Integrand (`src/gsThinShellAssembler.hpp` l.1577-1600; l.1650-1670 without bending). -/
noncomputable def integrand (bending : Bool) (s u v : Surf) (S : Section) : ℝ :=
  if bending then linStiffness s u v S.A S.B S.C S.D
  else dotV (rowMul (EmDer s u) S.A) (EmDer s v)

/-- The matrix. -/
noncomputable def matrix {ι κ : Type} (bending : Bool) (Q : Finset κ) (μ : κ → ℝ) (s : κ → Surf)
    (φ : κ → ι → Shape) (S : κ → Section) (p p' : ι × Fin 3) : ℝ :=
  ∑ q ∈ Q, integrand bending (s q) (dofField (φ q) p) (dofField (φ q) p') (S q) * μ q

/-- The linear material: one matrix for all outputs and heights
(`src/gsMaterialMatrixLinear.hpp` l.178-216, `src/gsMaterialMatrixLinear.h` l.169). -/
noncomputable def linearModuli (r : Rule) (t E ν : ℝ) (s : Surf) : Section :=
  moduli .constant r t (fun _ _ => Linear.matrix E ν (Acon s))

/-- Which laminate matrix belongs to an output (`src/gsMaterialMatrixComposite.hpp` l.258-263). -/
def which : Output → Composite.Which
  | .matrixB => .B
  | .matrixC => .C
  | .matrixD => .D
  | _ => .A

/-- The laminate: integrated by the material itself (`src/gsMaterialMatrixComposite.h` l.71), bases at
height 0 (`src/gsMaterialMatrixComposite.hpp` l.271-277). -/
noncomputable def laminateModuli (r : Rule) (t : ℝ) (ls : List Composite.Layer) (s : Surf) : Section :=
  moduli .integrated r t (fun o _ =>
    Composite.toSurface (s.a 0) (s.a 1) (acon s 0) (acon s 1) (Composite.abd (which o) ls))

end Verif.System
