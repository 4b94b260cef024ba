import Verif.Outcome

/-!
# Material identification, factory and XML

Models `src/gsMaterialMatrixUtils.h`, `src/getMaterialMatrix.h` and
`src/gsMaterialMatrixXml.hpp`.
-/

namespace Verif.Ids

/-- `enum class Material` – `src/gsMaterialMatrixUtils.h` (Material: SvK=0, NH=1,
NH_ext=2, MR=3, OG=4). -/
inductive Mat where
  | SvK | NH | NH_ext | MR | OG
deriving Repr, DecidableEq

/-- Integer values of `enum class Material`. -/
def Mat.code : Mat → Nat
  | .SvK => 0 | .NH => 1 | .NH_ext => 2 | .MR => 3 | .OG => 4

/-- `enum class Implementation` – `src/gsMaterialMatrixUtils.h` (Composite=0,
Analytical=1, Generalized=2, Spectral=3). -/
inductive Impl where
  | Composite | Analytical | Generalized | Spectral
deriving Repr, DecidableEq

/-- Integer values of `enum class Implementation`. -/
def Impl.code : Impl → Nat
  | .Composite => 0 | .Analytical => 1 | .Generalized => 2 | .Spectral => 3

/-- `static_cast<enum Material>(material)` for a value inside the enumeration; a value
outside keeps no name (`none`), as no comparison with an enumerator succeeds
(`src/getMaterialMatrix.h` l.129, l.293). -/
def Mat.ofInt (i : Int) : Option Mat :=
  if i = 0 then some .SvK else if i = 1 then some .NH else if i = 2 then some .NH_ext
  else if i = 3 then some .MR else if i = 4 then some .OG else none

/-- `static_cast<enum Implementation>(implementation)`
(`src/getMaterialMatrix.h` l.130, l.294). -/
def Impl.ofInt (i : Int) : Option Impl :=
  if i = 0 then some .Composite else if i = 1 then some .Analytical
  else if i = 2 then some .Generalized else if i = 3 then some .Spectral else none

/-- `encodeMat_id<mat,imp>::id = 10*imp + mat` (`src/gsMaterialMatrixUtils.h`,
`encodeMat_id`). -/
def encode (m : Mat) (i : Impl) : Nat := 10 * i.code + m.code

/-- `decodeMat_id<id>::material = id % 10` (`src/gsMaterialMatrixUtils.h`). -/
def decodeMat (id : Nat) : Nat := id % 10

/-- `decodeMat_id<id>::implementation = (id/10) % 10` (`src/gsMaterialMatrixUtils.h`). -/
def decodeImpl (id : Nat) : Nat := (id / 10) % 10

/-! ## The factory -/

/-- Dynamic class of a material object: `gsMaterialMatrixLinear<d>` or
`gsMaterialMatrixNonlinear<d,T,id,comp>`.  The dimension `d` is a template argument of
the factory and is added where it matters (`Obj`). -/
inductive Kind where
  | linear
  | nonlinear (id : Nat) (comp : Bool)
deriving Repr, DecidableEq

/-- `getMaterialMatrix(mp,thickness,parameters,rho,options)`,
`src/getMaterialMatrix.h` l.116-263.  `mat`, `impl` are the raw option values,
`npars` is `parameters.size()` (only used by `parameters.at(0/1)`, which throws when out
of range).  `none` is the returned null pointer.  Simplification: the geometry,
thickness and density arguments are passed through unchanged and not modelled here. -/
def factoryRho (mat : Int) (comp : Bool) (impl : Int) (npars : Nat) : Outcome (Option Kind) :=
  let m := Mat.ofInt mat
  let i := Impl.ofInt impl
  if m = some .SvK then
    if i = some .Composite then .throws
    else if 2 ≤ npars then .ok (some .linear) else .throws
  else if i = some .Composite then .throws
  else if m = some .NH ∧ i = some .Analytical ∧ ¬ comp then .ok (some (.nonlinear (encode .NH .Analytical) false))
  else if m = some .NH ∧ i = some .Generalized ∧ ¬ comp then .ok (some (.nonlinear (encode .NH .Generalized) false))
  else if m = some .NH ∧ i = some .Spectral ∧ ¬ comp then .ok (some (.nonlinear (encode .NH .Spectral) false))
  else if m = some .NH ∧ i = some .Analytical ∧ comp then .ok (some (.nonlinear (encode .NH .Analytical) true))
  else if m = some .NH ∧ i = some .Generalized ∧ comp then .ok (some (.nonlinear (encode .NH .Generalized) true))
  else if m = some .NH ∧ i = some .Spectral ∧ comp then .ok (some (.nonlinear (encode .NH .Spectral) true))
  else if m = some .NH_ext ∧ ¬ comp then .throws
  else if m = some .NH_ext ∧ i = some .Analytical ∧ comp then .ok (some (.nonlinear (encode .NH_ext .Analytical) true))
  else if m = some .NH_ext ∧ i = some .Generalized ∧ comp then .ok (some (.nonlinear (encode .NH_ext .Generalized) true))
  else if m = some .NH_ext ∧ i = some .Spectral ∧ comp then .ok (some (.nonlinear (encode .NH_ext .Spectral) true))
  else if m = some .MR ∧ i = some .Analytical ∧ ¬ comp then .ok (some (.nonlinear (encode .MR .Analytical) false))
  else if m = some .MR ∧ i = some .Generalized ∧ ¬ comp then .ok (some (.nonlinear (encode .MR .Generalized) false))
  else if m = some .MR ∧ i = some .Spectral ∧ ¬ comp then .ok (some (.nonlinear (encode .MR .Spectral) false))
  else if m = some .MR ∧ i = some .Analytical ∧ comp then .ok (some (.nonlinear (encode .MR .Analytical) true))
  else if m = some .MR ∧ i = some .Generalized ∧ comp then .ok (some (.nonlinear (encode .MR .Generalized) true))
  else if m = some .MR ∧ i = some .Spectral ∧ comp then .ok (some (.nonlinear (encode .MR .Spectral) true))
  else if m = some .OG ∧ i = some .Analytical ∧ ¬ comp then .throws
  else if m = some .OG ∧ i = some .Generalized ∧ ¬ comp then .throws
  else if m = some .OG ∧ i = some .Spectral ∧ ¬ comp then .ok (some (.nonlinear (encode .OG .Spectral) false))
  else if m = some .OG ∧ i = some .Analytical ∧ comp then .throws
  else if m = some .OG ∧ i = some .Generalized ∧ comp then .throws
  else if m = some .OG ∧ i = some .Spectral ∧ comp then .ok (some (.nonlinear (encode .OG .Spectral) true))
  else .ok none

/-- `getMaterialMatrix(mp,thickness,parameters,options)` (no density),
`src/getMaterialMatrix.h` l.281-427; a separate copy of the same chain. -/
def factoryNoRho (mat : Int) (comp : Bool) (impl : Int) (npars : Nat) : Outcome (Option Kind) :=
  let m := Mat.ofInt mat
  let i := Impl.ofInt impl
  if m = some .SvK then
    if i = some .Composite then .throws
    else if 2 ≤ npars then .ok (some .linear) else .throws
  else if i = some .Composite then .throws
  else if m = some .NH ∧ i = some .Analytical ∧ ¬ comp then .ok (some (.nonlinear (encode .NH .Analytical) false))
  else if m = some .NH ∧ i = some .Generalized ∧ ¬ comp then .ok (some (.nonlinear (encode .NH .Generalized) false))
  else if m = some .NH ∧ i = some .Spectral ∧ ¬ comp then .ok (some (.nonlinear (encode .NH .Spectral) false))
  else if m = some .NH ∧ i = some .Analytical ∧ comp then .ok (some (.nonlinear (encode .NH .Analytical) true))
  else if m = some .NH ∧ i = some .Generalized ∧ comp then .ok (some (.nonlinear (encode .NH .Generalized) true))
  else if m = some .NH ∧ i = some .Spectral ∧ comp then .ok (some (.nonlinear (encode .NH .Spectral) true))
  else if m = some .NH_ext ∧ ¬ comp then .throws
  else if m = some .NH_ext ∧ i = some .Analytical ∧ comp then .ok (some (.nonlinear (encode .NH_ext .Analytical) true))
  else if m = some .NH_ext ∧ i = some .Generalized ∧ comp then .ok (some (.nonlinear (encode .NH_ext .Generalized) true))
  else if m = some .NH_ext ∧ i = some .Spectral ∧ comp then .ok (some (.nonlinear (encode .NH_ext .Spectral) true))
  else if m = some .MR ∧ i = some .Analytical ∧ ¬ comp then .ok (some (.nonlinear (encode .MR .Analytical) false))
  else if m = some .MR ∧ i = some .Generalized ∧ ¬ comp then .ok (some (.nonlinear (encode .MR .Generalized) false))
  else if m = some .MR ∧ i = some .Spectral ∧ ¬ comp then .ok (some (.nonlinear (encode .MR .Spectral) false))
  else if m = some .MR ∧ i = some .Analytical ∧ comp then .ok (some (.nonlinear (encode .MR .Analytical) true))
  else if m = some .MR ∧ i = some .Generalized ∧ comp then .ok (some (.nonlinear (encode .MR .Generalized) true))
  else if m = some .MR ∧ i = some .Spectral ∧ comp then .ok (some (.nonlinear (encode .MR .Spectral) true))
  else if m = some .OG ∧ i = some .Analytical ∧ ¬ comp then .throws
  else if m = some .OG ∧ i = some .Generalized ∧ ¬ comp then .throws
  else if m = some .OG ∧ i = some .Spectral ∧ ¬ comp then .ok (some (.nonlinear (encode .OG .Spectral) false))
  else if m = some .OG ∧ i = some .Analytical ∧ comp then .throws
  else if m = some .OG ∧ i = some .Generalized ∧ comp then .throws
  else if m = some .OG ∧ i = some .Spectral ∧ comp then .ok (some (.nonlinear (encode .OG .Spectral) true))
  else .ok none

/-! ## XML -/

/-- A material object as far as the XML code can see it: dimension `d`, class, tension
field wrapper, thickness, density and parameter functions.  `none` entries are null
pointers.  `F` is the type of functions. -/
structure Obj (F : Type) where
  dim : Nat
  kind : Kind
  tft : Bool
  thickness : Option F
  density : Option F
  pars : List (Option F)
deriving Repr, DecidableEq

/-- The `MaterialMatrix` XML node: attributes `type` and `TFT`, child nodes
`Thickness`, `Density` and the indexed `Parameters`. -/
structure Node (F : Type) where
  type : Option String
  tft : Option String
  thickness : Option F
  density : Option F
  pars : List (Nat × F)
deriving Repr, DecidableEq

/-- `gsXml<…>::type()` of the classes that have an XML interface
(`src/gsMaterialMatrixNonlinear.hpp` l.2883-2986, `src/gsMaterialMatrixLinear.hpp`,
class list in `put_impl`, `src/gsMaterialMatrixXml.hpp` l.186-263).  Dimensions other
than 2 and 3 and ids other than 11, 12 (compressible), 13, 34 fall through all dynamic
casts. -/
def typeString (dim : Nat) : Kind → Option String
  | .linear => if dim = 2 then some "Linear2" else if dim = 3 then some "Linear3" else none
  | .nonlinear id comp =>
    if id = 11 then
      if comp then (if dim = 2 then some "CompressibleNH2" else if dim = 3 then some "CompressibleNH3" else none)
      else (if dim = 2 then some "IncompressibleNH2" else if dim = 3 then some "IncompressibleNH3" else none)
    else if id = 12 then
      if comp then (if dim = 2 then some "CompressibleNHe2" else if dim = 3 then some "CompressibleNHe3" else none)
      else none
    else if id = 13 then
      if comp then (if dim = 2 then some "CompressibleMR2" else if dim = 3 then some "CompressibleMR3" else none)
      else (if dim = 2 then some "IncompressibleMR2" else if dim = 3 then some "IncompressibleMR3" else none)
    else if id = 34 then
      if comp then (if dim = 2 then some "CompressibleOG2" else if dim = 3 then some "CompressibleOG3" else none)
      else (if dim = 2 then some "IncompressibleOG2" else if dim = 3 then some "IncompressibleOG3" else none)
    else none

/-- Writing the parameters: loop `k=0..numParameters-1`, dereferencing each parameter
(`src/gsMaterialMatrixXml.hpp` l.341-346); a null parameter is dereferenced. `k` is the
index of the head of the list. -/
def putPars {F : Type} : Nat → List (Option F) → Outcome (List (Nat × F))
  | _, [] => .ok []
  | _, none :: _ => .ub
  | k, some f :: r => (putPars (k+1) r).map ((k, f) :: ·)

/-- `putMaterialMatrixToXml`, `src/gsMaterialMatrixXml.hpp` l.312-350.  The thickness
pointer is dereferenced unconditionally (the preceding check is an assertion). -/
def putData {F : Type} (ty : String) (o : Obj F) : Outcome (Node F) :=
  match o.thickness with
  | none => .ub
  | some t => (putPars 0 o.pars).map fun ps =>
      { type := some ty, tft := none, thickness := some t, density := o.density, pars := ps }

/-- `put_impl`, `src/gsMaterialMatrixXml.hpp` l.186-263: dynamic casts in turn, `none` =
returned NULL. -/
def putImpl {F : Type} (o : Obj F) : Outcome (Option (Node F)) :=
  match typeString o.dim o.kind with
  | none => .ok none
  | some ty => (putData ty o).map some

/-- `put`, `src/gsMaterialMatrixXml.hpp` l.164-184: for a tension-field wrapper the inner
material is written and the attribute `TFT` is appended to the returned node without a
null check. -/
def put {F : Type} (o : Obj F) : Outcome (Option (Node F)) :=
  if o.tft then
    (putImpl o).bind fun
      | none => .ub
      | some n => .ok (some { n with tft := some "true" })
  else putImpl o

/-- Class chosen by `get_impl` from the `type` attribute
(`src/gsMaterialMatrixXml.hpp` l.109-162). -/
def kindOfType (s : String) : Option (Nat × Kind) :=
  if s = "Linear2" then some (2, .linear)
  else if s = "Linear3" then some (3, .linear)
  else if s = "CompressibleNH2" then some (2, .nonlinear 11 true)
  else if s = "CompressibleNH3" then some (3, .nonlinear 11 true)
  else if s = "IncompressibleNH2" then some (2, .nonlinear 11 false)
  else if s = "IncompressibleNH3" then some (3, .nonlinear 11 false)
  else if s = "CompressibleNHe2" then some (2, .nonlinear 12 true)
  else if s = "CompressibleNHe3" then some (3, .nonlinear 12 true)
  else if s = "CompressibleMR2" then some (2, .nonlinear 13 true)
  else if s = "CompressibleMR3" then some (3, .nonlinear 13 true)
  else if s = "IncompressibleMR2" then some (2, .nonlinear 13 false)
  else if s = "IncompressibleMR3" then some (3, .nonlinear 13 false)
  else if s = "CompressibleOG2" then some (2, .nonlinear 34 true)
  else if s = "CompressibleOG3" then some (3, .nonlinear 34 true)
  else if s = "IncompressibleOG2" then some (2, .nonlinear 34 false)
  else if s = "IncompressibleOG3" then some (3, .nonlinear 34 false)
  else none

/-- Dimension of the tension-field wrapper chosen from the `type` attribute
(`src/gsMaterialMatrixXml.hpp` l.75-100). -/
def tftDimOfType (s : String) : Option Nat :=
  if s = "Linear2" then some 2
  else if s = "Linear3" then some 3
  else if s = "CompressibleNH2" ∨ s = "IncompressibleNH2" ∨ s = "CompressibleNHe2" ∨
      s = "CompressibleMR2" ∨ s = "IncompressibleMR2" ∨ s = "CompressibleOG2" ∨
      s = "IncompressibleOG2" then some 2
  else if s = "CompressibleNH3" ∨ s = "IncompressibleNH3" ∨ s = "CompressibleNHe3" ∨
      s = "CompressibleMR3" ∨ s = "IncompressibleMR3" ∨ s = "CompressibleOG3" ∨
      s = "IncompressibleOG3" then some 3
  else none

/-- `setParameter(i, f)` by reference: grows the list when needed (new slots null), then
stores a clone (`src/gsMaterialMatrixBase.h` l.722-727). -/
def setPar {F : Type} (pars : List (Option F)) (i : Nat) (f : F) : List (Option F) :=
  (if pars.length < i + 1 then pars ++ List.replicate (i + 1 - pars.length) none else pars).set i (some f)

/-- Reading the parameters: for each child in file order `setParameter(index, fun)`
starting from a default constructed object, which has no parameters
(`src/gsMaterialMatrixXml.hpp` l.296-306). -/
def getPars {F : Type} (l : List (Nat × F)) : List (Option F) :=
  l.foldl (fun ps x => setPar ps x.1 x.2) []

/-- `getMaterialMatrixFromXml`, `src/gsMaterialMatrixXml.hpp` l.271-309: a missing
`Thickness` node is dereferenced. -/
def getData {F : Type} (dim : Nat) (k : Kind) (n : Node F) : Outcome (Obj F) :=
  match n.thickness with
  | none => .ub
  | some t => .ok { dim := dim, kind := k, tft := false, thickness := some t,
                    density := n.density, pars := getPars n.pars }

/-- `get_impl`, `src/gsMaterialMatrixXml.hpp` l.109-162. `none` = returned NULL. -/
def getImpl {F : Type} (n : Node F) : Outcome (Option (Obj F)) :=
  match n.type with
  | none => .ok none
  | some s =>
    match kindOfType s with
    | none => .ok none
    | some (d, k) => (getData d k n).map some

/-- `get`, `src/gsMaterialMatrixXml.hpp` l.52-107. -/
def get {F : Type} (n : Node F) : Outcome (Option (Obj F)) :=
  match n.type with
  | none => .ok none
  | some s =>
    (getImpl n).bind fun tmp =>
      if n.tft = some "1" ∨ n.tft = some "true" ∨ n.tft = some "True" then
        match tftDimOfType s, tmp with
        | some d, some o => .ok (some { o with dim := d, tft := true })
        | some _, none => .ub
        | none, _ => .ok none
      else .ok tmp

end Verif.Ids
