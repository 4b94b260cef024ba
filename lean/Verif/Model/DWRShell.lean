import Verif.Model.DWRError
import Verif.Model.ShellSystem
import Mathlib.Data.List.Nodup

/-!
# The error estimator on a nonlinear shell

Puts together what `gsThinShellDWRHelper::computeError` (`src/gsThinShellDWRHelper.h` l.70-142) uses
for a shell of linear material: the system of the finer assembler (`Model/ShellSystem`), the goal and
the dual vector (`Model/DWR`) and the estimate (`Model/DWRError`), all evaluated with one set of data.
Line numbers without a file name refer to `src/gsThinShellAssemblerDWR.hpp`.

Simplifications: the free unknowns of the finer basis are numbered by `Fin n`; quadrature points are
those of the finer basis, distinct and the same in the system, the goal and the estimate; the goal is
integrated over the domain; loads are dead.
-/

namespace Verif.DWR

open V3 Verif.Geometry Verif.Variation Verif.Balance
open Verif.ShellSystem (Problem deformed)

/-- The finer discretisation: quadrature points by element with weights, geometry (`ori`), geometry when
all unknowns vanish (`pre`), positions (`X`, `pos`), values and derivatives of the basis functions in the
domain, on the Neumann sides and at the point loads, and the loads. -/
structure Fine (n : ℕ) (κ β γ : Type) where
  elems : List (List κ)
  wt : κ → ℝ
  ori : κ → Surf
  pre : κ → Surf
  X : κ → V3
  pos : κ → V3
  field : κ → Fin n → Surf
  val : κ → Fin n → V3
  force : κ → V3
  bdr : List β
  bwt : β → ℝ
  gN : β → V3
  /-- length element of the side, `meas(m_ori)` in the assembler and `tv(Gori).norm()` in the estimate -/
  tv : β → ℝ
  bval : β → Fin n → V3
  loads : List γ
  load : γ → LoadAt
  lval : γ → Fin n → V3
  boxes : List (List Box)

variable {n : ℕ} {κ β γ : Type}

/-- The same discretisation under other loads. -/
def Fine.loaded (D : Fine n κ β γ) (force : κ → V3) (gN : β → V3) (load : γ → LoadAt) : Fine n κ β γ :=
  { D with force := force, gN := gN, load := load }

/-- Right-hand side of the dead loads: body force (`src/gsThinShellAssembler.hpp` l.2032-2036), tractions
(l.347-356) and point loads (l.1324-1391 there). -/
noncomputable def Fine.rhs (D : Fine n κ β γ) (j : Fin n) : ℝ :=
  (D.elems.flatten.map fun q => D.wt q * (dot (D.val q j) (D.force q) * Variation.measure (D.ori q))).sum
    + (D.bdr.map fun q => D.bwt q * (dot (D.bval q j) (D.gN q) * D.tv q)).sum
    + (D.loads.map fun k => dot (D.lval k j) (D.load k).value).sum

/-- The system of the finer assembler (`m_assemblerH`). -/
noncomputable def Fine.problem [DecidableEq κ] (D : Fine n κ β γ) : Problem (Fin n) κ :=
  ⟨D.elems.flatten.toFinset, fun q => D.wt q * Variation.measure (D.ori q), D.ori, D.pre, D.field, D.rhs⟩

/-- A basis function of the finer basis, evaluated where the estimate needs it. -/
def Fine.basis (D : Fine n κ β γ) (j : Fin n) : Disc κ β γ :=
  ⟨fun q => D.val q j, fun q => D.field q j, fun q => D.bval q j, fun k => D.lval k j⟩

variable [DecidableEq κ]

/-- What the estimate reads for the deformed geometry with unknowns `x` (l.1826-1867): resultants of the
material on it. -/
noncomputable def Fine.setup (D : Fine n κ β γ) (law : ShellSystem.Law κ) (x : EuclideanSpace ℝ (Fin n)) :
    Setup κ β γ where
  elems := D.elems
  wt := D.wt
  ori := D.ori
  defo := deformed D.problem x
  F := D.force
  N q := (law q (deformed D.problem x q)).N
  M q := (law q (deformed D.problem x q)).M
  press _ := 0
  bed _ := 0
  disp q := D.pos q + (vsum Finset.univ fun j => x j • D.val q j) - D.X q
  bdr := D.bdr
  bwt := D.bwt
  gN := D.gN
  tv := D.tv
  loads := D.loads
  load := D.load
  boxes := D.boxes

/-- State of a point for the goal and the dual vector (l.211-262, 2762-2794) of a linear material; the
transformation matrices are those of goals that are not considered here. -/
noncomputable def Fine.point (D : Fine n κ β γ) (E ν τ : ℝ) (x : EuclideanSpace ℝ (Fin n)) (q : κ) : Pt :=
  linState E ν τ
    { ori := D.ori q, X := D.X q, defo := deformed D.problem x q
      x := D.pos q + vsum Finset.univ fun j => x j • D.val q j
      primal := D.pos q + (vsum Finset.univ fun j => x j • D.val q j) - D.X q
      T := fun _ _ => 0, Tp := fun _ _ => 0, mmA := fun _ _ => 0, mmD := fun _ _ => 0
      mmAi := fun _ _ => 0, mmBi := fun _ _ => 0, mmCi := fun _ _ => 0, mmDi := fun _ _ => 0
      S0 := fun _ => 0, S1 := fun _ => 0, N := fun _ => 0, M := fun _ => 0, P0 := fun _ => 0 }

/-- `computeGoal` of the deformed geometry with unknowns `x` (l.2749-2966). -/
noncomputable def Fine.goal (D : Fine n κ β γ) (E ν τ : ℝ) (g : Goal) (c : ℕ) (x : EuclideanSpace ℝ (Fin n)) :
    Outcome ℝ :=
  DWR.goal .domain g c (D.elems.flatten.map fun q => (D.wt q, D.point E ν τ x q))

/-- Entry of `assembleDualH` (l.195-644). -/
noncomputable def Fine.dual (D : Fine n κ β γ) (E ν τ : ℝ) (g : Goal) (c : ℕ) (x : EuclideanSpace ℝ (Fin n))
    (j : Fin n) : Outcome ℝ :=
  DWR.dual .domain g c (D.elems.flatten.map fun q => (D.wt q, D.point E ν τ x q, ⟨D.val q j, D.field q j, j⟩))

/-- The material of the shell (`Model/ShellSystem`), integrated with the rule `r`. -/
noncomputable def Fine.law (D : Fine n κ β γ) (r : Integrate.Rule) (E ν τ : ℝ) : ShellSystem.Law κ :=
  fun q => ShellSystem.linearLaw r E ν τ (D.ori q)

end Verif.DWR
