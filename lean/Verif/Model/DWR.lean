import Verif.Model.Variation
import Verif.Model.Linear
import Verif.Model.Transform
import Verif.Outcome

/-!
# Goals and duals of the goal-oriented error estimator

Models `computeGoal` and `_assembleDual` of `src/gsThinShellAssemblerDWR.hpp`, at one quadrature
point and summed over a quadrature rule.  Line numbers without a file name refer to that file.
Shells (`d = 3`) are modelled; integrals are the quadrature sums G+Smo evaluates.  The boundary
conditions restrict the set of test functions and are not part of the pointwise expressions.
-/

namespace Verif.DWR

open V3 Verif.Geometry Verif.Variation

/-- `enum class GoalFunction` (`src/gsThinShellAssemblerDWR.h` l.25-39). -/
inductive Goal where
  | displacement | stretch | pstrain | pstress
  | membraneStrain | membraneStress | membraneForce
  | flexuralStrain | flexuralStress | flexuralMoment
  | modal | buckling
deriving Repr, DecidableEq

/-- The three versions of `computeGoal` and `_assembleDual`: the whole domain, boundaries
(`bContainer`) and points (`gsMatrix`).  One side of the container is considered; `dir` is the
coordinate that varies along it. -/
inductive Region where
  | domain | boundary (dir : Fin 2) | points
deriving Repr, DecidableEq

/-- `meas(Gori)` (G+Smo core, not part of the repository): the area element on the domain and at
points, the length element of the side on a boundary. -/
noncomputable def Region.meas (s : Surf) : Region → ℝ
  | .boundary d => V3.norm (s.a d)
  | _ => Variation.measure s

/-- What the expressions read at one point: both geometries with their positions, the field
`primal`, the transformation matrices, the moduli and the stresses (l.211-262, 2762-2794). -/
structure Pt where
  ori : Surf
  X : V3
  defo : Surf
  x : V3
  primal : V3
  T : T3
  Tp : T3
  mmA : T3
  mmD : T3
  mmAi : T3
  mmBi : T3
  mmCi : T3
  mmDi : T3
  S0 : Voigt
  S1 : Voigt
  N : Voigt
  M : Voigt
  P0 : Fin 2 → ℝ

/-- A test function at the point: value, derivatives and its row in the evaluated expression
(`i+j*actives.rows()`, l.1245). -/
structure Fld where
  w : V3
  d : Surf
  loc : ℕ

/-- Entries of a vector. -/
def comps (v : V3) : Voigt := vec3 v.x v.y v.z

/-- `flat` of a matrix: off-diagonal entries are added. -/
def flat (A : T2) : Voigt := vec3 (A 0 0) (A 1 1) (A 0 1 + A 1 0)

/-- Product with `m12 = diag(1,1,0.5)` (l.270, 727, 1192, 2802, 3026, 3240). -/
noncomputable def half3 (w : Voigt) : Voigt := vec3 (w 0) (w 1) (0.5 * w 2)

/-- `Cm` (l.273, 730, 1195, 2805, 3029, 3243). -/
noncomputable def Cm (s : Surf) : Voigt := half3 (flat (Acov s))

/-- `Cm_der` (l.274, 731, 1196). -/
noncomputable def CmDer (s v : Surf) : Voigt := fun k => 2 * half3 (EmDer s v) k

/-- `Em` (l.281, 738, 1203, 2811, 3035, 3249). -/
noncomputable def Em (ori s : Surf) : Voigt := fun k => 0.5 * (flat (Acov s) k - flat (Acov ori) k)

/-- `Ef` (l.289, 746, 1211, 2817, 3041, 3255). -/
noncomputable def Ef (ori s : Surf) : Voigt :=
  dbl3 fun k => deriv2dot ori (normal ori) k - deriv2dot s (normal s) k

/-- `lambda = Cm * Tᵀ` (l.277, 734, 1199, 2808, 3032). -/
noncomputable def lam (p : Pt) : Voigt := mulVec3 p.T (Cm p.defo)

/-- `lambda_der` (l.278, 735, 1200). -/
noncomputable def lamDer (p : Pt) (v : Fld) : Voigt := mulVec3 p.T (CmDer p.defo v.d)

/-- `lambda` of the goal on points: the transposed matrix (l.3246). -/
noncomputable def lamPoints (p : Pt) : Voigt := mulVec3 (transpose3 p.T) (Cm p.defo)

/-- `Emp` (l.285, 742, 1207, 2814, 3038, 3252). -/
noncomputable def Emp (p : Pt) : Voigt := mulVec3 p.T (half3 (Em p.ori p.defo))

/-- `Emp_der` (l.286, 743, 1208). -/
noncomputable def EmpDer (p : Pt) (v : Fld) : Voigt := mulVec3 p.T (half3 (EmDer p.defo v.d))

/-- `Sm_der` (l.293, 750, 1215). -/
def SmDer (p : Pt) (v : Fld) : Voigt := rowMul (EmDer p.defo v.d) p.mmA

/-- `Smp_der` (l.296, 753, 1218). -/
def SmpDer (p : Pt) (v : Fld) : Voigt := mulVec3 p.Tp (SmDer p v)

/-- `Sf_der` (l.299, 756, 1221). -/
noncomputable def SfDer (p : Pt) (v : Fld) : Voigt := rowMul (EfDer p.defo v.d) p.mmD

/-- `N_der` (l.302, 759, 1224). -/
noncomputable def NDer (p : Pt) (v : Fld) : Voigt := fun j =>
  rowMul (EmDer p.defo v.d) p.mmAi j + rowMul (EfDer p.defo v.d) p.mmBi j

/-- `M_der` (l.303, 760, 1225). -/
noncomputable def MDer (p : Pt) (v : Fld) : Voigt := fun j =>
  rowMul (EmDer p.defo v.d) p.mmCi j + rowMul (EfDer p.defo v.d) p.mmDi j

/-- Quantity of a goal (goals other than `PStress`): what is squared or of which a component is
taken (l.2824-2962). -/
noncomputable def quantity (p : Pt) : Goal → Voigt
  | .displacement => comps (p.x - p.X)
  | .stretch => lam p
  | .pstrain => Emp p
  | .membraneStrain => Em p.ori p.defo
  | .membraneStress => p.S0
  | .membraneForce => p.N
  | .flexuralStrain => Ef p.ori p.defo
  | .flexuralStress => p.S1
  | .flexuralMoment => p.M
  | _ => fun _ => 0

/-- `q.tr()*q*meas` for component 9, `q.tr()*uv(c,3)*meas` otherwise; a component outside the
vector is only excluded by assertions (l.197, 649, 1114). -/
noncomputable def select (c : ℕ) (μ : ℝ) (q : Voigt) : Outcome ℝ :=
  if c = 9 then .ok (dotV q q * μ) else if h : c < 3 then .ok (q ⟨c, h⟩ * μ) else .ub

/-- The same for the two principal stresses (l.2870-2884, 3094-3107, 3345-3370). -/
noncomputable def select2 (c : ℕ) (μ : ℝ) (q : Fin 2 → ℝ) : Outcome ℝ :=
  if c = 9 then .ok ((q 0 * q 0 + q 1 * q 1) * μ)
  else if h : c < 2 then .ok (q ⟨c, h⟩ * μ) else .ub

/-- Integrand of `computeGoal` (l.2824-2965, 3048-3189, 3263-3520).  All versions multiply with
`meas(Gori)`.  On points, the component of the stretch is the component of the displacement
(l.3310). -/
noncomputable def goalAt (R : Region) (g : Goal) (c : ℕ) (p : Pt) : Outcome ℝ :=
  let μ := R.meas p.ori
  match g with
  | .modal | .buckling => .throws
  | .pstress => select2 c μ p.P0
  | .stretch =>
    match R with
    | .points => if c = 9 then select c μ (lamPoints p) else select c μ (comps (p.x - p.X))
    | _ => select c μ (lam p)
  | g => select c μ (quantity p g)

/-- `computeGoal`: sum over the quadrature points, or over the given points with weight 1. -/
noncomputable def goal (R : Region) (g : Goal) (c : ℕ) : List (ℝ × Pt) → Outcome ℝ
  | [] => .ok 0
  | (w, p) :: r => (goalAt R g c p).bind fun x => (goal R g c r).bind fun y => .ok (w * x + y)

/-- `2*q_der*q*meas` for component 9, `q_der*uv(c,3)*meas` otherwise (l.305-643). -/
noncomputable def selectDer (c : ℕ) (μ : ℝ) (q qd : Voigt) : Outcome ℝ :=
  if c = 9 then .ok (2 * dotV qd q * μ) else if h : c < 3 then .ok (qd ⟨c, h⟩ * μ) else .ub

/-- Variation of the quantity of a goal as coded (goals other than `PStress`). -/
noncomputable def quantityDer (p : Pt) (v : Fld) : Goal → Voigt
  | .displacement => comps v.w
  | .stretch => lamDer p v
  | .pstrain => EmpDer p v
  | .membraneStrain => EmDer p.defo v.d
  | .membraneStress => SmDer p v
  | .membraneForce => NDer p v
  | .flexuralStrain => EfDer p.defo v.d
  | .flexuralStress => SfDer p v
  | .flexuralMoment => MDer p v
  | _ => fun _ => 0

/-- `PStress` (l.404-443, 861-900): `reshape(conv,3,2)` keeps the first two columns.  On points
that matrix is missing (l.1340): a row of three entries is multiplied with the two principal
stresses, and a component is taken out of all three (l.1356). -/
noncomputable def pstressDual (R : Region) (c : ℕ) (μ : ℝ) (p : Pt) (v : Fld) : Outcome ℝ :=
  let q := SmpDer p v
  match R with
  | .points => if c = 9 then .ub else if h : c < 3 then .ok (q ⟨c, h⟩ * μ) else .ub
  | _ =>
    if c = 9 then .ok (2 * (q 0 * p.P0 0 + q 1 * p.P0 1) * μ)
    else if h : c < 2 then .ok (q (Fin.castSucc ⟨c, h⟩) * μ) else .ub

/-- `MembraneForce` (l.510-542, 967-999, 1441-1476).  On boundaries and points the component is
taken from `N` itself: the expression has no test function.  On boundaries G+Smo refuses to
assemble it and the `catch` block reports an assembly error; on points the 1×1 value is indexed with
the row of the test function. -/
noncomputable def forceDual (R : Region) (c : ℕ) (μ : ℝ) (p : Pt) (v : Fld) : Outcome ℝ :=
  if c = 9 then .ok (2 * dotV (NDer p v) p.N * μ)
  else match R with
    | .domain => if h : c < 3 then .ok (NDer p v ⟨c, h⟩ * μ) else .ub
    | .boundary _ => if c < 3 then .throws else .ub
    | .points =>
      if h : c < 3 then (if v.loc = 0 then .ok (p.N ⟨c, h⟩ * μ) else .ub) else .ub

/-- `FlexuralStrain` (l.543-575, 1000-1034, 1477-1511).  On boundaries `m110` is built from
`mult2t` (l.1005). -/
noncomputable def flexDual (R : Region) (c : ℕ) (μ : ℝ) (p : Pt) (v : Fld) : Outcome ℝ :=
  match R with
  | .boundary _ =>
    if c = 9 then .ok (2 * dotV (dbl3 (EfDer p.defo v.d)) (Ef p.ori p.defo) * μ)
    else selectDer c μ (Ef p.ori p.defo) (EfDer p.defo v.d)
  | _ => selectDer c μ (Ef p.ori p.defo) (EfDer p.defo v.d)

/-- Integrand of `_assembleDual` for one test function. -/
noncomputable def dualAt (R : Region) (g : Goal) (c : ℕ) (p : Pt) (v : Fld) : Outcome ℝ :=
  let μ := R.meas p.ori
  match g with
  | .modal | .buckling => .throws
  | .pstress => pstressDual R c μ p v
  | .membraneForce => forceDual R c μ p v
  | .flexuralStrain => flexDual R c μ p v
  | .displacement => selectDer c μ (comps p.primal) (comps v.w)
  | g => selectDer c μ (quantity p g) (quantityDer p v g)

/-- `_assembleDual`: entry of the vector belonging to a test function. -/
noncomputable def dual (R : Region) (g : Goal) (c : ℕ) : List (ℝ × Pt × Fld) → Outcome ℝ
  | [] => .ok 0
  | (w, p, v) :: r =>
    (dualAt R g c p v).bind fun x => (dual R g c r).bind fun y => .ok (w * x + y)

/-- What the evaluators return for the linear material with constant thickness `τ`, at the
mid-surface (`_E`, `src/gsMaterialMatrixLinear.hpp` l.461-495, 593-626: `VectorN` uses the membrane
strain, `VectorM` the bending strain; resultants integrated analytically, l.231-262 here). -/
noncomputable def linState (E ν τ : ℝ) (p : Pt) : Pt :=
  let C := Linear.matrix E ν (Acon p.ori)
  let s0 := Linear.stress E ν (Acon p.ori) (Geometry.membraneStrain p.ori p.defo)
  let s1 := Linear.stress E ν (Acon p.ori) (Geometry.bendingStrain p.ori p.defo)
  { p with
    mmA := C, mmD := C, S0 := s0, S1 := s1
    mmAi := fun i j => τ * C i j, mmBi := fun _ _ => 0, mmCi := fun _ _ => 0
    mmDi := fun i j => τ ^ 3 / 12 * C i j
    N := fun k => τ * s0 k, M := fun k => τ ^ 3 / 12 * s1 k }

/-- What the evaluators return for the other materials at height `z`: `eval3D_vector` and
`eval3D_matrix` ignore the requested output (`src/gsMaterialMatrixNonlinear.hpp` l.509, 549-551,
709), so that `VectorN` and `VectorM` are the same stress `S`, and `MatrixA` and `MatrixD` the same
modulus `C`, of the strain at height `z`. -/
noncomputable def nonlinState (S : Voigt → Voigt) (C : Voigt → T3) (z : ℝ) (p : Pt) : Pt :=
  let e : Voigt := fun k => Em p.ori p.defo k + z * Ef p.ori p.defo k
  { p with mmA := C e, mmD := C e, S0 := S e, S1 := S e }

/-- State with the transformation of the stretches at the mid-surface
(`MaterialOutput::StretchTransform`, l.227; `src/gsMaterialMatrixEval.hpp` l.272-276 and
`src/gsMaterialMatrixBase.h` l.332-333: `eval3D_spec2con` with the stretch directions `n`). -/
noncomputable def stretchState (n : Fin 2 → V3) (p : Pt) : Pt :=
  { p with T := Transform.spec2con p.ori 0 n }

end Verif.DWR
