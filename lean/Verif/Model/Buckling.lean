import Verif.Model.Plate
import Verif.Model.ShellTangent
import Verif.Model.WeakForms

/-!
# The tangent matrix of a deformed plate

`assembleMatrix(deformed)` as a bilinear form, and the sections of two kinds of material at a deformed
state.  Simplifications as in `Model/Plate`: exact integrals over the parameters instead of Gauss
quadrature, arbitrary functions instead of splines, no boundary and interface terms.
-/

namespace Verif.Plate

open V3 Verif.Geometry Verif.Balance Verif.Integrate Verif.Fields MeasureTheory
open Verif.Linear (Output)

/-- Tangent for the undeformed surface `X`, the deformed surface `x`, the sections `S` (of both) and the
foundation `k` (`src/gsThinShellAssembler.hpp` l.1757-1776, 532-534). -/
noncomputable def tangentForm (X x : ℝ × ℝ → V3) (S : Surf → Surf → Section) (k : V3) (D : Set (ℝ × ℝ))
    (u v : ℝ × ℝ → V3) : ℝ :=
  ∫ q in D, let s := S (jet X q) (jet x q);
    Variation.stiffness (jet x q) (jet u q) (jet v q) s.A s.B s.C s.D s.N s.M * Variation.measure (jet X q)
      + WeakForms.foundMat (Variation.measure (jet X q)) k (u q) (v q)

/-- `VectorN`, `VectorM` of a material constant through the thickness with the stress `f`
(`src/gsThinShellAssembler.hpp` l.1733-1738, `src/gsMaterialMatrixIntegrate.hpp` l.169-257). -/
noncomputable def constResultant (r : Rule) (t : ℝ) (o : Output) (f : Voigt) : Voigt := fun k =>
  match evalInto .constant r o t (fun _ => f k) with
  | .ok x => x
  | _ => 0

/-- Section of the linear material: the moduli are those of the linear problem, the stresses come from the
membrane and the bending strain (`src/gsMaterialMatrixLinear.hpp` l.178-216, 470-490, 593-626). -/
noncomputable def linearSection (r : Rule) (t E ν : ℝ) (ori s : Surf) : Section :=
  { System.linearModuli r t E ν ori with
    N := constResultant r t .vectorN (Linear.stress E ν (Acon ori) (membraneStrain ori s))
    M := constResultant r t .vectorM (Linear.stress E ν (Acon ori) (bendingStrain ori s)) }

/-- Section of a material integrated through the thickness, with the law `L` on the undeformed surface
(`src/gsMaterialMatrixIntegrate.hpp` l.311-323). -/
noncomputable def lawSection (L : Surf → ShellTangent.Law) (r : Rule) (t : ℝ) (ori s : Surf) : Section :=
  ⟨ShellTangent.modulus (L ori) r t 0 s, ShellTangent.modulus (L ori) r t 1 s,
    ShellTangent.modulus (L ori) r t 1 s, ShellTangent.modulus (L ori) r t 2 s,
    ShellTangent.resultant (L ori) r t 0 s, ShellTangent.resultant (L ori) r t 1 s⟩

end Verif.Plate
