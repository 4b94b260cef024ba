import Verif.Outcome
import Verif.Model.Variation
import Mathlib.Data.Real.Basic
import Mathlib.Data.Finset.Basic
import Mathlib.Algebra.BigOperators.Group.Finset.Basic

/-!
# Solution vector, displacement field, deformed geometry, boundary forces

Models `constructMultiPatch`, `constructSolutionVector`, `_constructSolution`, `updateMultiPatch`
and `boundaryForce_impl` of `src/gsThinShellAssembler.hpp` (l.2308-2506, 2625-2724).
-/

namespace Verif.Solution

/-- Degree-of-freedom mapper (`gsDofMapper`): number of patches, number of functions of a patch in a
component (`patchSize`), global index of a function (`index`, arguments patch, component, function),
number of free indices (`is_free_index(g)` is `g < freeSize`, `global_to_bindex(g)` is
`g - freeSize`). -/
structure Mapper where
  nPatches : ℕ
  size : ℕ → ℕ → ℕ
  glob : ℕ → ℕ → ℕ → ℕ
  freeSize : ℕ

/-- Coefficients: patch, component, function. -/
abbrev Field := ℕ → ℕ → ℕ → ℝ

/-- A multi-patch with the number of rows of its coefficient matrices. -/
structure MultiPatch where
  n : ℕ
  rows : ℕ → ℕ
  coef : Field

/-- The triples (patch, component, function) in the order of the loops (l.2643-2657, 2704-2714);
`n` is the number of patches, `d` the number of components. -/
def triples (m : Mapper) (n d : ℕ) : List (ℕ × ℕ × ℕ) :=
  (List.range n).flatMap fun p => (List.range d).flatMap fun c =>
    (List.range (m.size p c)).map fun k => (p, c, k)

/-- Unchecked access (`at` checks in debug builds only). -/
def readAt (l : List ℝ) (i : ℕ) : Outcome ℝ :=
  match l[i]? with
  | some x => .ok x
  | none => .ub

/-- Value of a global index: solution vector or Dirichlet data (l.2650-2656). -/
def dofValue (m : Mapper) (ddofs sol : List ℝ) (g : ℕ) : Outcome ℝ :=
  if g < m.freeSize then readAt sol g else readAt ddofs (g - m.freeSize)

/-- Assignment of one coefficient. -/
def setCoef (f : Field) (t : ℕ × ℕ × ℕ) (x : ℝ) : Field := fun p c k =>
  if (p, c, k) = t then x else f p c k

/-- The loop filling the coefficients (`m_solution.extract`, l.2670; G+Smo's `gsFeSolution::extract`
is assumed to do the same as the loop in l.2643-2657 with the space's mapper and `fixedPart`, which
l.2630-2631 set to the assembler's). -/
def fill (m : Mapper) (ddofs sol : List ℝ) : List (ℕ × ℕ × ℕ) → Field → Outcome Field
  | [], f => .ok f
  | t :: ts, f =>
    match dofValue m ddofs sol (m.glob t.1 t.2.1 t.2.2) with
    | .ok x => fill m ddofs sol ts (setCoef f t x)
    | .throws => .throws
    | .ub => .ub

/-- `constructMultiPatch` = `constructDisplacement` for an ordinary basis (l.2660-2675, 2679-2682):
a patch has as many coefficients as the mapper has functions. -/
def constructDisplacement (m : Mapper) (d : ℕ) (ddofs sol : List ℝ) : Outcome MultiPatch :=
  (fill m ddofs sol (triples m m.nPatches d) (fun _ _ _ => 0)).map
    (fun f => ⟨m.nPatches, fun p => m.size p 0, f⟩)

/-- A mapped basis (`gsMappedBasis`): number of global functions, number of local coefficients of a
patch and the matrix of `global_coef_to_local_coef` with `exportToPatches`. -/
structure Mapped where
  nGlobal : ℕ
  rows : ℕ → ℕ
  W : ℕ → ℕ → ℕ → ℝ

/-- `constructMultiPatch` for a mapped basis (l.2633-2659): the coefficients of the global functions
are filled patch by patch into the same matrix (the patch of the triple only selects the index),
and then mapped to the patches.  Writing a row beyond `nGlobal` is undefined. -/
noncomputable def constructMapped (m : Mapper) (b : Mapped) (d : ℕ) (ddofs sol : List ℝ) :
    Outcome MultiPatch :=
  if ∃ t ∈ triples m m.nPatches d, b.nGlobal ≤ t.2.2 then .ub else
  (fill m ddofs sol (triples m m.nPatches d) (fun _ _ _ => 0)).map
    (fun f => ⟨m.nPatches, b.rows, fun p c k =>
      ∑ i ∈ Finset.range b.nGlobal, b.W p k i *
        -- the last patch whose loop reaches function `i` has written it
        (match (List.range m.nPatches).reverse.find? (fun q => i < m.size q c) with
          | some q => f q c i
          | none => 0)⟩)

/-- One step of `constructSolutionVector` (l.2708-2712): free entries are copied; the coefficient
matrix is read without check.  The vector is uninitialised (`none`) at the start (l.2702). -/
def collect (m : Mapper) (u : MultiPatch) :
    List (ℕ × ℕ × ℕ) → (ℕ → Option ℝ) → Outcome (ℕ → Option ℝ)
  | [], r => .ok r
  | t :: ts, r =>
    if m.glob t.1 t.2.1 t.2.2 < m.freeSize then
      if t.2.2 < u.rows t.1 then
        collect m u ts (fun g => if g = m.glob t.1 t.2.1 t.2.2 then some (u.coef t.1 t.2.1 t.2.2)
          else r g)
      else .ub
    else collect m u ts r

/-- `constructSolutionVector` (l.2699-2718). -/
def constructSolutionVector (m : Mapper) (d : ℕ) (u : MultiPatch) : Outcome (ℕ → Option ℝ) :=
  collect m u (triples m u.n d) (fun _ => none)

/-- `coefs() += coefs()` on every patch of the second argument (l.2484-2485): a patch missing in the
first or a different number of rows is undefined (Eigen's size check is an assertion). -/
noncomputable def addCoefs (mp u : MultiPatch) : Outcome MultiPatch :=
  open Classical in
  if ∀ p, p < u.n → p < mp.n ∧ mp.rows p = u.rows p then
    .ok ⟨mp.n, mp.rows, fun p c k => if p < u.n then mp.coef p c k + u.coef p c k else mp.coef p c k⟩
  else .ub

/-- `_constructSolution(solVector, undeformed)` (l.2480-2488): the second argument is not used; the
displacement is added to a copy of `m_patches` (`patches`). -/
noncomputable def constructSolutionFrom (m : Mapper) (d : ℕ) (ddofs : List ℝ) (patches : MultiPatch)
    (sol : List ℝ) (_undeformed : MultiPatch) : Outcome MultiPatch :=
  (constructDisplacement m d ddofs sol).bind (addCoefs patches)

/-- `constructSolution(solVector)` (l.2490-2500). -/
noncomputable def constructSolution (m : Mapper) (d : ℕ) (ddofs : List ℝ) (patches : MultiPatch)
    (sol : List ℝ) : Outcome MultiPatch :=
  constructSolutionFrom m d ddofs patches sol patches

/-- `updateMultiPatch(solVector, mp)` (l.2502-2506): the new value of `mp`. -/
noncomputable def updateMultiPatch (m : Mapper) (d : ℕ) (ddofs : List ℝ) (patches : MultiPatch)
    (sol : List ℝ) (mp : MultiPatch) : Outcome MultiPatch :=
  constructSolutionFrom m d ddofs patches sol mp

/-! ## Boundary forces -/

/-- A side of a patch with the functions on it (`basis(patch).boundary(side)`). -/
structure Side where
  patch : ℕ
  functions : List ℕ

/-- The index sets of component `c` (l.2324-2333, 2395-2404): one set for all sides. -/
def indices (glob : ℕ → ℕ → ℕ → ℕ) (c : ℕ) : List Side → Finset ℕ
  | [] => ∅
  | s :: ss => (s.functions.map (glob s.patch c)).toFinset ∪ indices glob c ss

/-- Component `c` of the boundary force: sum of the right-hand side over the set (l.2372-2375,
2436-2439).  The order of summation over the unordered set is not modelled. -/
noncomputable def boundaryForce (glob : ℕ → ℕ → ℕ → ℕ) (rhs : ℕ → ℝ) (sides : List Side) (c : ℕ) :
    ℝ :=
  ∑ g ∈ indices glob c sides, rhs g

/-- `assembler.rhs()` in `boundaryForce_impl` (l.2361-2363): the internal force of the field that
belongs to a global index, integrated with the quadrature `Q`, weights `wt` and reference measure
`μ`; no boundary conditions are set, so that all indices are free. -/
noncomputable def forceVector {ι : Type} (Q : Finset ι) (wt μ : ι → ℝ) (s : ι → Geometry.Surf)
    (N M : ι → Voigt) (φ : ℕ → ι → Geometry.Surf) (g : ℕ) : ℝ :=
  ∑ q ∈ Q, wt q * (Variation.internalForce (s q) (φ g q) (N q) (M q) * μ q)

end Verif.Solution
