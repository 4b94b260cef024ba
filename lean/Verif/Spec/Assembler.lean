import Verif.Model.Assembler
import Verif.Spec.Loads

/-! # Specification of the assembler's observable behaviour -/

namespace Verif.Assembler

open Verif.Loads

variable {P : Type}

/-- The loads a client has registered, as the client sees it: the last registered function of each
kind and the last list of point loads.  This is the intended state, kept independently of the
assembler's own flags. -/
structure Registered (P : Type) where
  found : Option ℕ
  press : Option ℕ
  points : List (PointLoad P)

/-- Registration by one client step. -/
def Registered.step (r : Registered P) : Op P → Registered P
  | .config (.setPointLoads l) => { r with points := l }
  | .config (.setFoundation f) => { r with found := some f }
  | .config (.setPressure f) => { r with press := some f }
  | _ => r

/-- Registration by a client program. -/
def Registered.exec (r : Registered P) (ops : List (Op P)) : Registered P := ops.foldl step r

/-- Vector of an optional load. -/
def optVec (f : Option ℕ) (v : ℕ → Vec) (g : ℕ) : ℝ :=
  match f with
  | none => 0
  | some f => v f g

/-- The vector a successful assembly with data `e` should produce. -/
noncomputable def Registered.vector (d : ℕ) (m : Mapper) (S : Space P) (r : Registered P) (e : Elem)
    (g : ℕ) : ℝ :=
  e.base g + optVec r.found e.found g + optVec r.press e.press g + nodalAll d m S r.points g

/-- A client step that changes geometry, basis or continuity. -/
def Op.reconfigures : Op P → Prop
  | .config .setGeometry => True
  | .config .setBasis => True
  | .config .setSpaceBasis => True
  | .config (.optionContinuity _) => True
  | .config (.setOptions _) => True
  | _ => False

/-- The routines whose status is expected to describe their own work. -/
def Reports (returned : Outcome Status) (ok : Bool) : Prop :=
  ∃ s, returned = .ok s ∧ (s = .success ↔ ok = true)

end Verif.Assembler
