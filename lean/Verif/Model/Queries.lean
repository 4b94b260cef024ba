import Verif.Model.Variation
import Verif.Model.Linear
import Mathlib.Analysis.Real.Sqrt
import Mathlib.Data.Finset.Max
import Mathlib.Algebra.BigOperators.Group.Finset.Basic

/-!
# Area, norms, energy and interface errors

Models the query functions of `src/gsThinShellAssembler.hpp` (l.2508-2624, 2896-2960).  Integrals
are quadrature sums `Σ wt q · f q` over a finite set of points; `evaluator.integral` of G+Smo does not
multiply with a measure on its own when `meas` is written in the expression.  `cleanUp`, `setOptions`
and `getMap` do not influence the values.
-/

namespace Verif.Queries

open V3 Verif.Geometry

variable {ι : Type}

/-- A geometry at the quadrature points: position and derivatives. -/
structure Geo (ι : Type) where
  x : ι → V3
  s : ι → Surf

/-- `meas(G)`. -/
noncomputable def Geo.meas (G : Geo ι) (q : ι) : ℝ := Variation.measure (G.s q)

/-- `getArea` (l.2508-2520). -/
noncomputable def getArea (Q : Finset ι) (wt : ι → ℝ) (G : Geo ι) : ℝ := ∑ q ∈ Q, wt q * G.meas q

/-- `getDisplacementNorm` (l.2522-2539): `pow(result/area, 0.5)`. -/
noncomputable def displacementNorm (Q : Finset ι) (wt : ι → ℝ) (ori defo : Geo ι) : ℝ :=
  Real.sqrt ((∑ q ∈ Q, wt q * (dot (defo.x q - ori.x q) (defo.x q - ori.x q) * defo.meas q))
    / (∑ q ∈ Q, wt q * ori.meas q))

/-- `u.tr() * (m_N + m_M).tr()`: product of the displacement with the Voigt vectors (l.2558). -/
def pairing (u : V3) (N M : Voigt) : ℝ := u.x * (N 0 + M 0) + u.y * (N 1 + M 1) + u.z * (N 2 + M 2)

/-- `getElasticEnergy` (l.2541-2561): `N`, `M` are the stress resultants. -/
noncomputable def elasticEnergy (Q : Finset ι) (wt : ι → ℝ) (ori defo : Geo ι) (N M : ι → Voigt) :
    ℝ :=
  ∑ q ∈ Q, wt q * (1 / 2 * pairing (defo.x q - ori.x q) (N q) (M q) * defo.meas q)

/-- `deformationNorm(deformed, original)` (l.2896-2908). -/
noncomputable def deformationNorm (Q : Finset ι) (wt : ι → ℝ) (defo ori : Geo ι) : ℝ :=
  ∑ q ∈ Q, wt q * (dot (defo.x q) (defo.x q) * ori.meas q)

/-! ## Interface errors -/

/-- An interface at its quadrature points: the left and right geometries. -/
structure Ifc (ι : Type) where
  L : Geo ι
  R : Geo ι

/-- `interfaceErrorC0` (l.2576-2584): `integralInterface` over the points of the interfaces, then
the square root. -/
noncomputable def errorC0 (Q : Finset ι) (wt : ι → ℝ) (I : Ifc ι) : ℝ :=
  Real.sqrt (∑ q ∈ Q, wt q * dot (I.L.x q - I.R.x q) (I.L.x q - I.R.x q))

/-- `interfaceErrorG1` (l.2586-2594). -/
noncomputable def errorG1 (Q : Finset ι) (wt : ι → ℝ) (I : Ifc ι) : ℝ :=
  Real.sqrt (∑ q ∈ Q, wt q * dot (normal (I.L.s q) - normal (I.R.s q))
    (normal (I.L.s q) - normal (I.R.s q)))

/-- `sn(G)`: cross product of the derivatives, not normalised. -/
def sn (s : Surf) : V3 := cross (s.a 0) (s.a 1)

/-- Value compared in `interfaceErrorNormal` (l.2596-2603); the result is its maximum. -/
noncomputable def normalDiff (sL sR : Surf) : ℝ := V3.norm (sn sL - sn sR)

/-- `(fform.inv() * fform2nd)`; `fform2nd` of G+Smo is the second fundamental form. -/
noncomputable def shape (s : Surf) : T2 := fun i j => ∑ k, inv2 (Acov s) i k * Bcov s k j

/-- Value in `interfaceErrorGaussCurvature` (l.2605-2614). -/
noncomputable def gauss (s : Surf) : ℝ := det2 (shape s)

/-- Value in `interfaceErrorMeanCurvature` (l.2615-2624): the trace. -/
noncomputable def mean (s : Surf) : ℝ := shape s 0 0 + shape s 1 1

/-- `maxInterface` over the points (a non-empty set). -/
noncomputable def maxOver (Q : Finset ι) (h : Q.Nonempty) (f : ι → ℝ) : ℝ := Q.sup' h f

/-- `_isInPlane(ifc, tol)` and the loop body of `_ifcTest(tol)` (l.2910-2957): the integral without a
container runs over all interfaces of the assembler, whatever the argument. -/
noncomputable def isInPlane (Q : Finset ι) (wt : ι → ℝ) (all : List (Ifc ι)) (tol : ℝ)
    (_ifc : Ifc ι) : Prop :=
  Real.sqrt ((all.map (fun I => ∑ q ∈ Q, wt q * dot (normal (I.L.s q) - normal (I.R.s q))
    (normal (I.L.s q) - normal (I.R.s q)))).sum) < tol

open Classical in
/-- `_ifcTest`: the interfaces put in `m_inPlane`. -/
noncomputable def ifcTest (Q : Finset ι) (wt : ι → ℝ) (all : List (Ifc ι)) (tol : ℝ) : List (Ifc ι) :=
  all.filter (fun I => isInPlane Q wt all tol I)

end Verif.Queries
