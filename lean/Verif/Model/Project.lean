import Verif.Model.Solution
import Verif.Model.Outputs
import Verif.Model.Principal

/-!
# Full solution vector, projection, principal values of the assembler

Models `fullSolutionVector`, `projectL2`, `projectL2_into`, `computePrincipalStretches` and
`computePrincipalStresses` of `src/gsThinShellAssembler.hpp` (l.2685-2697, 2734-2795, 2831-2893).

Assumed about G+Smo: `gsFeSolution::extractFull` lists the coefficients patch by patch, component by
component, function by function, each read like in `extract`; `gsExprEvaluator::eval(expr, pt)`
without a patch index evaluates on patch 0.
-/

namespace Verif.Project

open Verif.Solution Verif.Linear

/-! ## Vectors -/

/-- The loop of `extractFull`: the values of the functions of the list, in order; `fixed` is the
fixed part of the space. -/
def readAll (m : Mapper) (fixed sol : List ℝ) : List (ℕ × ℕ × ℕ) → Outcome (List ℝ)
  | [] => .ok []
  | t :: ts => (dofValue m fixed sol (m.glob t.1 t.2.1 t.2.2)).bind fun x =>
      (readAll m fixed sol ts).bind fun l => .ok (x :: l)

/-- `fullSolutionVector` (`src/gsThinShellAssembler.hpp` l.2685-2697): the space is set up anew, so
that its fixed part is the projection `proj` of the boundary data (`m_ddofs` is not used). -/
def fullSolutionVector (m : Mapper) (d : ℕ) (proj sol : List ℝ) : Outcome (List ℝ) :=
  readAll m proj sol (triples m m.nPatches d)

/-- `projectL2_into(fun, matrix)` (`src/gsThinShellAssembler.hpp` l.2831-2857): the body is
commented out, the matrix stays as it is. -/
def projectInto {F : Type} (_fun : F) (result : List ℝ) : List ℝ := result

/-- `projectL2` (`src/gsThinShellAssembler.hpp` l.2884-2893): starts from an empty matrix. -/
def projectL2 {F : Type} (f : F) : List ℝ := projectInto f []

/-- `projectL2_into(fun, mp)` (`src/gsThinShellAssembler.hpp` l.2859-2881): the geometry plus the
field of the vector; the number of patches is that of the geometry. -/
noncomputable def projectPatches {F : Type} (m : Mapper) (d : ℕ) (ddofs : List ℝ)
    (patches : MultiPatch) (f : F) : Outcome MultiPatch :=
  (fill m ddofs (projectL2 f) (triples m patches.n d) (fun _ _ _ => 0)).bind fun c =>
    addCoefs patches ⟨patches.n, fun p => m.size p 0, c⟩

/-! ## Principal values -/

/-- Assignment `result.col(k) = v` to a matrix with `R` rows: sizes are checked by assertions
only. -/
def assignCol (R : ℕ) (rows : ℕ) : Outcome Unit := if rows = R then .ok () else .ub

/-- `computePrincipalStretches` (output `Stretch`, 3 rows) and `computePrincipalStresses` (output
`PStress`, 2 rows) (`src/gsThinShellAssembler.hpp` l.2734-2795): sizes of the columns, one
evaluation at one point and height per column. -/
def principalSizes (mat : Outputs.Mat) (o : Output) (R : ℕ) : ℕ → Outcome (List ℕ)
  | 0 => .ok []
  | n + 1 => (Outputs.eval mat o 1 1).bind fun s => (assignCol R s.rows).bind fun _ =>
      (principalSizes mat o R n).bind fun l => .ok (s.rows :: l)

/-- The values of `computePrincipalStresses`: every point is evaluated alone and on patch 0.  `g p u`
is the reference basis and `S p u` the stress at the point `u` of patch `p`; `g0` is the basis left
in the material by earlier evaluations. -/
noncomputable def principalStresses {P : Type} (solver : T3 → Spectral.Eig) (g0 : Spectral.Cols)
    (g : ℕ → P → Spectral.Cols) (S : ℕ → P → T2) (u : List P) : List (Outcome (Fin 2 → ℝ)) :=
  u.map fun x => Principal.eval3DPStress solver (n := 1) (m := 1) g0 (fun _ _ => g 0 x)
    (fun _ _ => S 0 x) 0 0

end Verif.Project
