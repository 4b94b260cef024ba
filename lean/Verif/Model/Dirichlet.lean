import Verif.Outcome
import Mathlib.Data.Real.Basic
import Mathlib.Algebra.BigOperators.Group.Finset.Basic
import Mathlib.Data.Fintype.BigOperators

/-!
# Prescribed displacements and sizes of the systems

Models which Dirichlet values the space holds (`fixedPart`) when a system is assembled, and which
number of degrees of freedom the matrices and vectors have, along a sequence of calls of
`gsThinShellAssembler` (`src/gsThinShellAssembler.h` l.165-195, 340-380, `src/gsThinShellAssembler.hpp`
l.211-265, 1302-1323, 1436-2140, 2625-2697, 2862-2882).

Assumed about G+Smo: `setup(bc, dirichlet::homogeneous, c)` sets the fixed part to zero,
`setup(bc, dirichlet::l2Projection, c)` to the projection of the data of `bc`; assembling a matrix
expression adds the entries between free functions to the matrix and subtracts the entries between
free and fixed functions times the fixed part from the right-hand side; all spaces returned by
`trialSpace(0)` share the mapper and the fixed part; `initSystem` allocates with the number of free
functions of the mapper at that time.
-/

namespace Verif.Dirichlet

/-! ## Prescribed displacements

Simplification: all boundary conditions of a history fix the same `b` functions, so the `n` free
functions and their numbers do not change. -/

/-- A linear problem with `n` free and `b` fixed functions: blocks of the stiffness matrix and force
vector. -/
structure Linear (n b : ℕ) where
  /-- free–free -/
  K : Fin n → Fin n → ℝ
  /-- free–fixed -/
  A : Fin n → Fin b → ℝ
  /-- fixed–fixed -/
  B : Fin b → Fin b → ℝ
  f : Fin n → ℝ
  h : Fin b → ℝ

/-- Members that matter: boundary conditions, stored values `m_ddofs`, values of the space. -/
structure Values (β : Type) (b : ℕ) where
  bcs : β
  ddofs : Fin b → ℝ
  fixed : Fin b → ℝ

/-- Public calls that read or write the fixed part. -/
inductive Call (β : Type) where
  /-- `setGeometry`, `setUndeformed`, `setBasis`, `setSpaceBasis`: `_initialize` -/
  | initialize
  | updateBCs (k : β)
  | homogenizeDirichlet
  | assembleMass
  | assembleFoundation
  /-- `assembleMatrix(deformed)` and the variant with a previous solution -/
  | assembleMatrix
  /-- `assembleVector(deformed, homogenize)` -/
  | assembleVector (homogenize : Bool)
  /-- `assemble()` -/
  | assemble
  /-- `constructMultiPatch`, `constructDisplacement`, `constructSolution`, `updateMultiPatch`,
  `projectL2_into` -/
  | construct
  | fullSolutionVector

variable {β : Type} {n b : ℕ}

/-- After the constructor (`_initialize`, `src/gsThinShellAssembler.hpp` l.243-265): `proj` is the L2
projection of the data of the boundary conditions. -/
def Values.new (proj : β → Fin b → ℝ) (k : β) : Values β b := ⟨k, proj k, proj k⟩

/-- Effect of a call on the values (lines of `src/gsThinShellAssembler.hpp`): `_initialize` l.261-263;
`updateBCs` (`src/gsThinShellAssembler.h` l.177-185); `homogenizeDirichlet` l.1314-1319; mass l.1451;
foundation l.1494-1526 none; matrix l.1745, 1815, 1911; vector l.2016-2017, 2087-2088; `assemble`
l.1540-1625, 1631-1710 none; `constructMultiPatch` l.2630-2631; `fullSolutionVector` l.2692;
`projectL2_into` l.2872-2873. -/
def Values.call (proj : β → Fin b → ℝ) (s : Values β b) : Call β → Values β b
  | .initialize => { s with ddofs := proj s.bcs, fixed := proj s.bcs }
  | .updateBCs k => ⟨k, proj k, proj k⟩
  | .homogenizeDirichlet => { s with fixed := fun _ => 0 }
  | .assembleMass => { s with fixed := fun _ => 0 }
  | .assembleFoundation => s
  | .assembleMatrix => { s with fixed := fun _ => 0 }
  | .assembleVector true => { s with fixed := fun _ => 0 }
  | .assembleVector false => { s with fixed := proj s.bcs }
  | .assemble => s
  | .construct => { s with fixed := s.ddofs }
  | .fullSolutionVector => { s with fixed := proj s.bcs }

/-- A sequence of calls after construction. -/
def Values.run (proj : β → Fin b → ℝ) (k : β) (l : List (Call β)) : Values β b :=
  l.foldl (Values.call proj) (.new proj k)

/-- Right-hand side of `assemble()` (l.1540-1625): force vector minus the free–fixed entries times the
fixed part of the space. -/
noncomputable def linearRhs (P : Linear n b) (s : Values β b) (i : Fin n) : ℝ :=
  P.f i - ∑ j, P.A i j * s.fixed j

/-- Right-hand side of `assembleVector(deformed)` for this linear problem (l.1995-2065) where the
deformed geometry has coefficients `x` and `y`: no matrix expressions occur, hence no fixed part. -/
noncomputable def residualRhs (P : Linear n b) (x : Fin n → ℝ) (y : Fin b → ℝ) (i : Fin n) : ℝ :=
  P.f i - (∑ j, P.K i j * x j + ∑ j, P.A i j * y j)

/-- Fixed coefficients of the displacement that `constructDisplacement(x)` returns
(l.2630-2631, 2660-2672). -/
def shown (s : Values β b) : Fin b → ℝ := s.ddofs

/-! ## Sizes

Simplification: the number of free functions depends only on the continuity in `setup` (boundary
conditions and basis fixed); indices are those of the free functions `0, …, free-1`. -/

/-- Members: option "Continuity", `m_continuity`, number of free functions of the space. -/
structure Sizes where
  opt : ℤ
  cont : ℤ
  space : ℕ

/-- Calls. -/
inductive SizeCall where
  /-- `options().setInt("Continuity", c)` (`src/gsThinShellAssembler.h` l.155) -/
  | option (c : ℤ)
  /-- `setOptions` with "Continuity" `c` (`src/gsThinShellAssembler.hpp` l.227-240) -/
  | setOptions (c : ℤ)
  /-- `setGeometry`, `setBasis`, `setSpaceBasis`, `updateBCs`, `initInterfaces`,
  `homogenizeDirichlet` -/
  | refresh
  /-- `assemble()` (l.1542-1555, 1633-1645) -/
  | assemble
  /-- `assembleMatrix` (l.1724-1745, 1804-1815, 1876-1911) -/
  | assembleMatrix
  /-- `assembleVector` (l.2001-2017, 2078-2088) -/
  | assembleVector
  /-- `assembleMass` (l.1445-1451) -/
  | assembleMass

/-- After the constructor, `num` gives the number of free functions for a continuity. -/
def Sizes.new (num : ℤ → ℕ) : Sizes := ⟨-1, -1, num (-1)⟩

/-- `_getOptions` followed by `setup` with `m_continuity` (l.214-221, 1304-1319): with or without a
change of the continuity the space ends up with `m_continuity = opt`. -/
def Sizes.getOptions (num : ℤ → ℕ) (s : Sizes) : Sizes := ⟨s.opt, s.opt, num s.opt⟩

/-- `_getOptions` alone (l.214-221): the space is set up again only after a change. -/
def Sizes.getOptions' (num : ℤ → ℕ) (s : Sizes) : Sizes :=
  if s.cont ≠ s.opt then ⟨s.opt, s.opt, num s.opt⟩ else s

/-- Adding entries for all pairs of free functions to a system with `rows` rows and columns: entries
outside are undefined behaviour; the result is the number of rows and of functions. -/
def fillSystem (rows free : ℕ) : Outcome (ℕ × ℕ) := if free ≤ rows then .ok (rows, free) else .ub

/-- One call: state afterwards and, for the assembling ones, rows of the system and number of free
functions assembled into it. -/
def Sizes.call (num : ℤ → ℕ) (s : Sizes) : SizeCall → Sizes × Option (Outcome (ℕ × ℕ))
  | .option c => ({ s with opt := c }, none)
  | .setOptions c =>
    let s' : Sizes := { s with opt := c }
    (if s.opt ≠ c then s'.getOptions num else s', none)
  | .refresh => (s.getOptions num, none)
  | .assemble => let s' := s.getOptions' num; (s', some (fillSystem s'.space s'.space))
  | .assembleMatrix => let s' := s.getOptions num; (s', some (fillSystem s.space s'.space))
  | .assembleVector => let s' := s.getOptions num; (s', some (fillSystem s.space s'.space))
  | .assembleMass =>
    let s' : Sizes := { s with space := num s.cont }; (s', some (fillSystem s.space s'.space))

/-- A sequence of calls up to undefined behaviour: rows and functions of all systems assembled. -/
def Sizes.run (num : ℤ → ℕ) : List SizeCall → Sizes → Outcome (List (ℕ × ℕ))
  | [], _ => .ok []
  | c :: l, s =>
    match (s.call num c).2 with
    | none => (s.call num c).1.run num l
    | some (.ok r) => ((s.call num c).1.run num l).map (r :: ·)
    | some .throws => .throws
    | some .ub => .ub

end Verif.Dirichlet
