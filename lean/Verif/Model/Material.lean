import Verif.Outcome
import Mathlib.Logic.Function.Basic

/-!
# State of a material object and of the evaluators built on it

Models the data members of `gsMaterialMatrixBase` (`src/gsMaterialMatrixBase.h`), the
constructor of `gsMaterialMatrixTFT` (`src/gsMaterialMatrixTFT.h`) and the constructors
of `gsMaterialMatrixIntegrate(Single)` and `gsMaterialMatrixEval(Single)`.
-/

namespace Verif.Material

/-! ## Parameters -/

/-- `setParameter(const index_t i, const function_ptr & par)`: `m_pars[i] = par` without
resizing (`src/gsMaterialMatrixBase.h` l.700-703).  An index outside the vector is
undefined behaviour.  Simplification: index as natural number. -/
def setParameterPtr {F : Type} (pars : List (Option F)) (i : Nat) (par : Option F) :
    Outcome (List (Option F)) :=
  if i < pars.length then .ok (pars.set i par) else .ub

/-- `setParameter(const index_t i, const gsFunctionSet<T> & par)`: resize when too short
(new entries are null), then store a clone (`src/gsMaterialMatrixBase.h` l.722-727). -/
def setParameterRef {F : Type} (pars : List (Option F)) (i : Nat) (par : F) : List (Option F) :=
  let p := if pars.length < i + 1 then pars ++ List.replicate (i + 1 - pars.length) none else pars
  p.set i (some par)

/-- `getParameter(i)`: `return m_pars[i]` guarded by an assertion only
(`src/gsMaterialMatrixBase.h` l.736-740). -/
def getParameter {F : Type} (pars : List (Option F)) (i : Nat) : Outcome (Option F) :=
  match pars[i]? with
  | some p => .ok p
  | none => .ub

/-- Material models as far as named parameters are concerned: Mooney-Rivlin (has `ratio`),
Ogden (has `mu_i`, `alpha_i`), any other (Young's modulus and Poisson's ratio only). -/
inductive Model where
  | other | mooneyRivlin | ogden
deriving Repr, DecidableEq

/-- Named parameters. -/
inductive Name where
  | youngs | poisson | ratio | mu (i : Nat) | alpha (i : Nat)
deriving Repr, DecidableEq

/-- Which slot a named setter or getter uses; `none` = GISMO_NO_IMPLEMENTATION
(`src/gsMaterialMatrixNonlinear.hpp` l.1082-1200: E at 0, nu at 1, ratio at 2 for MR only,
mu_i at 2+2i and alpha_i at 2+2i+1 for OG only). -/
def slot : Model → Name → Option Nat
  | _, .youngs => some 0
  | _, .poisson => some 1
  | .mooneyRivlin, .ratio => some 2
  | .ogden, .mu i => some (2 + 2 * i)
  | .ogden, .alpha i => some (2 + 2 * i + 1)
  | _, _ => none

/-- Named setter: `Base::setParameter(slot, f)` by reference. -/
def setNamed {F : Type} (m : Model) (pars : List (Option F)) (n : Name) (f : F) :
    Outcome (List (Option F)) :=
  match slot m n with
  | none => .throws
  | some i => .ok (setParameterRef pars i f)

/-- Named getter: `Base::getParameter(slot)`. -/
def getNamed {F : Type} (m : Model) (pars : List (Option F)) (n : Name) : Outcome (Option F) :=
  match slot m n with
  | none => .throws
  | some i => getParameter pars i

/-- A sequence of named setter calls; a call that throws leaves the list unchanged and
the program carries on. -/
def runSetters {F : Type} (m : Model) (pars : List (Option F)) (ops : List (Name × F)) :
    List (Option F) :=
  ops.foldl (fun p op => match setNamed m p op.1 op.2 with | .ok q => q | _ => p) pars

/-! ## Registered geometries -/

/-- The members `m_patches`, `m_defpatches`, `m_thickness` of a material
(`src/gsMaterialMatrixBase.h` l.803-811).  `G`: geometries, `F`: functions, `none`: null. -/
structure State (G F : Type) where
  undef : Option G
  defo : Option G
  thickness : Option F
deriving Repr, DecidableEq

/-- Default constructed members: all null. -/
def State.empty {G F : Type} : State G F := ⟨none, none, none⟩

/-- `setUndeformed` (`src/gsMaterialMatrixBase.h` l.780-790). -/
def State.setUndeformed {G F : Type} (s : State G F) (g : Option G) : State G F := { s with undef := g }
/-- `setDeformed` (`src/gsMaterialMatrixBase.h` l.780-791). -/
def State.setDeformed {G F : Type} (s : State G F) (g : Option G) : State G F := { s with defo := g }

/-- `hasUndeformed()`: `return m_defpatches!=nullptr;` (`src/gsMaterialMatrixBase.h`
l.796-797) – sic, the *deformed* pointer is tested. -/
def State.hasUndeformed {G F : Type} (s : State G F) : Bool := s.defo.isSome
/-- `hasDeformed()`: `return m_defpatches!=nullptr;` (`src/gsMaterialMatrixBase.h` l.798). -/
def State.hasDeformed {G F : Type} (s : State G F) : Bool := s.defo.isSome

/-- Calls that change the registered geometries. -/
inductive GeoOp (G : Type) where
  | setUndeformed (g : Option G)
  | setDeformed (g : Option G)
deriving Repr, DecidableEq

/-- Run a sequence of such calls. -/
def State.run {G F : Type} (s : State G F) (ops : List (GeoOp G)) : State G F :=
  ops.foldl (fun s op => match op with
    | .setUndeformed g => s.setUndeformed g
    | .setDeformed g => s.setDeformed g) s

/-- Constructor of `gsMaterialMatrixTFT` (`src/gsMaterialMatrixTFT.h` l.96-109) together
with its overridden `setUndeformed/setDeformed`, which pass the geometry on to the wrapped
material (l.204-229).  Result: (state of the wrapper, state of the wrapped material). -/
def tftCtor {G F : Type} (inner : State G F) : State G F × State G F :=
  let outer : State G F := State.empty
  let p := (outer, inner)
  let p := if inner.hasUndeformed then (p.1.setUndeformed inner.undef, p.2.setUndeformed inner.undef) else p
  let p := if inner.hasDeformed then (p.1.setDeformed inner.defo, p.2.setDeformed inner.defo) else p
  ({ p.1 with thickness := inner.thickness }, p.2)

/-! ## Evaluators -/

/-- Constructor of `gsMaterialMatrixIntegrateSingle(patch, material, deformed)` and of
`gsMaterialMatrixEvalSingle(patch, material, deformed, z)`: registers the deformed
geometry with the (shared) material (`src/gsMaterialMatrixIntegrate.hpp` l.124-136,
`src/gsMaterialMatrixEval.hpp` l.126-147). -/
def ctorDef {G F : Type} (s : State G F) (d : G) : State G F := s.setDeformed (some d)

/-- Constructor of `gsMaterialMatrixIntegrateSingle(patch, material, undeformed, deformed)`
(`src/gsMaterialMatrixIntegrate.hpp` l.139-153). -/
def integrateCtorBoth {G F : Type} (s : State G F) (u d : G) : State G F :=
  (s.setUndeformed (some u)).setDeformed (some d)

/-- Constructor of `gsMaterialMatrixEvalSingle(patch, material, undeformed, deformed, z)`:
the argument `undeformed` is commented out and `setUndeformed(deformed)` is called
(`src/gsMaterialMatrixEval.hpp` l.149-172). -/
def evalCtorBoth {G F : Type} (s : State G F) (_u d : G) : State G F :=
  (s.setUndeformed (some d)).setDeformed (some d)

/-- An evaluator: it keeps a pointer to its material (`m_materialMat`) and nothing else of
the geometry.  `mat` identifies the material, `asked` is the deformed geometry passed to
the constructor (kept here for the statement of the property only). -/
structure Evaluator (G : Type) where
  mat : Nat
  asked : G
deriving Repr, DecidableEq

/-- All materials of the program, by identity. -/
abbrev World (G F : Type) := Nat → State G F

/-- Building an evaluator. -/
def build {G F : Type} (w : World G F) (e : Evaluator G) : World G F :=
  Function.update w e.mat (ctorDef (w e.mat) e.asked)

/-- Building a sequence of evaluators. -/
def buildAll {G F : Type} (w : World G F) (es : List (Evaluator G)) : World G F :=
  es.foldl build w

/-- The deformed geometry an evaluator uses when it is evaluated in world `w`: that of its
material at that time (`_computePoints`, `src/gsMaterialMatrixBaseDim.hpp` l.388-420). -/
def usedDeformed {G F : Type} (w : World G F) (e : Evaluator G) : Option G := (w e.mat).defo

/-- The evaluators built by the mixed-integration-point stiffness
(`src/gsThinShellAssembler.hpp` l.1876-1905): six on `deformed`, then six on `previous`,
all on the same material containers.  Here: one patch with material `m`. -/
def mipEvaluators {G : Type} (m : Nat) (deformed previous : G) : List (Evaluator G) :=
  List.replicate 6 ⟨m, deformed⟩ ++ List.replicate 6 ⟨m, previous⟩

/-! ## Pieces of an integrated evaluator -/

/-- One iteration of `_makePieces`: `piece(q)` is `.at(q)` (throws when out of range) and
the pointer is dereferenced (null: undefined behaviour)
(`src/gsMaterialMatrixIntegrate.hpp` l.104-120). -/
def consPiece {M : Type} (slot : Option (Option M)) (rest : Outcome (List M)) :
    Outcome (List M) :=
  match slot with
  | none => .throws
  | some none => .ub
  | some (some m) => rest.bind fun l => .ok (m :: l)

/-- `_makePieces`: the loop over the patches `q < n`
(`src/gsMaterialMatrixIntegrate.hpp` l.104-120).  Result: the materials of the pieces. -/
def makePieces {M : Type} (n : Nat) (c : List (Option M)) : Outcome (List M) :=
  (List.range n).foldr (fun q acc => consPiece c[q]? acc) (.ok [])

/-- Constructor from a single material without undeformed geometry
(`src/gsMaterialMatrixIntegrate.hpp` l.49-60): fill all slots, then make the pieces once. -/
def integrateFromOne {M : Type} (n : Nat) (m : M) : Outcome (List M) :=
  makePieces n ((List.range n).foldl (fun c p => c.set p (some m)) (List.replicate n none))

/-- Constructor from a single material with undeformed geometry
(`src/gsMaterialMatrixIntegrate.hpp` l.81-95): the pieces are made inside the loop over
the patches, i.e. already after the first slot is filled. -/
def integrateFromOneBoth {M : Type} (n : Nat) (m : M) : Outcome (List M) :=
  ((List.range n).foldl (fun (acc : Outcome (List (Option M) × List M)) p =>
      acc.bind fun cp =>
        let c := cp.1.set p (some m)
        (makePieces n c).bind fun ps => .ok (c, ps))
    (.ok (List.replicate n none, []))).bind fun cp => .ok cp.2

/-- Constructors from a container (`src/gsMaterialMatrixIntegrate.hpp` l.33-47, 71-79). -/
def integrateFromContainer {M : Type} (n : Nat) (c : List (Option M)) : Outcome (List M) :=
  makePieces n c

end Verif.Material
