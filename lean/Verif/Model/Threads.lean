import Verif.Model.Explicit

/-!
# Evaluation of one material by several threads

The assembler evaluates the expressions of an assembly in the threads of an OpenMP region; all of them
evaluate the same material object.  The data of the points are a member of type `util::gsThreaded`
(`m_data`), every thread has its own; the registered geometries are ordinary members, shared by all threads.
There is no lock.

Simplifications: the calls are sequences of the accesses below, in any interleaving; reading the registered
geometry and computing the data of the points from it (`_computePoints`) is one access, as is each
`setDeformed`.  Geometries and points are abstract and the undeformed geometry is fixed, as in
`Model/Explicit`.  Exceptions are values here (in C++ one that leaves the region ends the program).
-/

namespace Verif.Threads

/-- Accesses of a thread to the wrapped material and to its own data. -/
inductive Act (P : Type) where
  /-- `_computePoints`: reads `m_defpatches`, writes the own `m_data` (`src/gsMaterialMatrixBaseDim.hpp` l.386-393). -/
  | load (us : List P)
  /-- The loop over the points, from the own `m_data` (`src/gsMaterialMatrixBaseDim.hpp` l.270-343). -/
  | value (us : List P)
  /-- `function_ptr tmp = m_materialMat->getDeformed()` (`src/gsMaterialMatrixTFT.hpp` l.783). -/
  | save
  /-- `m_materialMat->setDeformed(m_defpatches0)` (`src/gsMaterialMatrixTFT.hpp` l.784). -/
  | put
  /-- `m_materialMat->setDeformed(tmp)` (`src/gsMaterialMatrixTFT.hpp` l.786). -/
  | back
deriving Repr, DecidableEq

/-- Writes the shared `m_defpatches` of the wrapped material (`src/gsMaterialMatrixTFT.hpp` l.784, 786). -/
def Act.writes {P : Type} : Act P → Bool
  | .put | .back => true
  | _ => false

/-- Reads it (`src/gsMaterialMatrixBaseDim.hpp` l.392, `src/gsMaterialMatrixTFT.hpp` l.783). -/
def Act.reads {P : Type} : Act P → Bool
  | .load _ | .save => true
  | _ => false

/-- What belongs to one thread: its `m_data` (`src/gsMaterialMatrixBaseDim.h` l.444), the local `tmp`, the
results so far, the accesses that remain. -/
structure Loc (G P α : Type) where
  cache : List (G × P)
  tmp : Option G
  out : List (Outcome (List α))
  prog : List (Act P)

/-- The shared `m_defpatches` of the wrapped material, and the threads. -/
structure St (G P α : Type) where
  reg : Option G
  loc : Nat → Loc G P α

/-- Effect of one access on the registered geometry and on the thread; `fixed` is `m_defpatches0`
(`src/gsMaterialMatrixTFT.hpp` l.781-787). -/
def exec {G P α : Type} (f : G → P → P → Outcome α) (fixed reg : Option G) (l : Loc G P α) :
    Act P → Option G × Loc G P α
  | .load us => (reg, { l with cache := Explicit.points reg l.cache us })
  | .value us => (reg, { l with out := l.out ++ [Explicit.values f l.cache us] })
  | .save => (reg, { l with tmp := reg })
  | .put => (fixed, l)
  | .back => (l.tmp, l)

/-- Thread `i` performs its next access, if it has one. -/
def step {G P α : Type} (f : G → P → P → Outcome α) (fixed : Option G) (s : St G P α) (i : Nat) : St G P α :=
  match (s.loc i).prog with
  | [] => s
  | a :: r => ⟨(exec f fixed s.reg (s.loc i) a).1,
      fun j => if j = i then { (exec f fixed s.reg (s.loc i) a).2 with prog := r } else s.loc j⟩

/-- An interleaving: the threads in the order of their accesses. -/
def run {G P α : Type} (f : G → P → P → Outcome α) (fixed : Option G) (s : St G P α) (σ : List Nat) : St G P α :=
  σ.foldl (step f fixed) s

/-- Calls made inside the region: an evaluation of the wrapped material, and the tension field. -/
inductive Call (P : Type) where
  | evaluate (us : List P)
  | field (us : List P)
deriving Repr, DecidableEq

/-- Accesses of a call; `expl` is the option `Explicit` (`src/gsMaterialMatrixTFT.hpp` l.779-791). -/
def Call.acts {P : Type} (expl : Bool) : Call P → List (Act P)
  | .evaluate us => [.load us, .value us]
  | .field us => if expl then [.save, .put, .load us, .value us, .back] else [.load us, .value us]

/-- All threads before the region, with the calls they will make. -/
def start {G P α : Type} (expl : Bool) (reg : Option G) (cache : Nat → List (G × P)) (calls : Nat → List (Call P)) :
    St G P α := ⟨reg, fun i => ⟨cache i, none, [], (calls i).flatMap (Call.acts expl)⟩⟩

end Verif.Threads
