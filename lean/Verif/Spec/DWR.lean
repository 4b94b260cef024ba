import Verif.Model.DWR
import Verif.Spec.Variation
import Verif.Props.Linear

/-! # Specification notions for the goal-oriented error estimator -/

namespace Verif.DWR

open V3 Verif.Geometry Verif.Variation

/-- Goals that do not involve principal directions. -/
def Direct : Goal → Prop
  | .displacement | .membraneStrain | .membraneStress | .membraneForce
  | .flexuralStrain | .flexuralStress | .flexuralMoment => True
  | _ => False

/-- Components of the goals formed from three values: all of them (9), or one of the three. -/
def Comp3 (c : ℕ) : Prop := c = 9 ∨ c < 3

/-- The state of one point as the deformed geometry moves along a test function: position and
derivatives move linearly, the reference stays. -/
structure Moves (P : ℝ → Pt) (v : Fld) : Prop where
  ori : ∀ t, (P t).ori = (P 0).ori
  X : ∀ t, (P t).X = (P 0).X
  x : ∀ t, (P t).x = (P 0).x + t • v.w
  defo : ∀ t, (P t).defo = shift (P 0).defo v.d t
  indep : Indep ((P 0).defo.a 0) ((P 0).defo.a 1)

/-- The moduli are the derivatives of the stresses and resultants with respect to the Voigt strains:
along the motion, with `e` and `k` the rates of the two strains. -/
structure Tangent (P : ℝ → Pt) : Prop where
  rates : ∃ e k : Voigt,
    (∀ i, HasDerivAt (fun t => voigtMembrane (P t).ori (P t).defo i) (e i) 0) ∧
    (∀ i, HasDerivAt (fun t => voigtBending (P t).ori (P t).defo i) (k i) 0) ∧
    (∀ i, HasDerivAt (fun t => (P t).S0 i) (∑ j, (P 0).mmA i j * e j) 0) ∧
    (∀ i, HasDerivAt (fun t => (P t).S1 i) (∑ j, (P 0).mmD i j * k j) 0) ∧
    (∀ i, HasDerivAt (fun t => (P t).N i) (∑ j, ((P 0).mmAi i j * e j + (P 0).mmCi i j * k j)) 0) ∧
    (∀ i, HasDerivAt (fun t => (P t).M i) (∑ j, ((P 0).mmBi i j * e j + (P 0).mmDi i j * k j)) 0)
  symA : ∀ i j, (P 0).mmA i j = (P 0).mmA j i
  symD : ∀ i j, (P 0).mmD i j = (P 0).mmD j i
  symAi : ∀ i j, (P 0).mmAi i j = (P 0).mmAi j i
  symDi : ∀ i j, (P 0).mmDi i j = (P 0).mmDi j i
  symBC : ∀ i j, (P 0).mmBi i j = (P 0).mmCi j i

/-- The field `primal` handed over is the displacement. -/
def IsDisplacement (p : Pt) : Prop := p.primal = p.x - p.X

/-- A quadrature rule with a moving state and a test function at every point. -/
abbrev Rule := List (ℝ × (ℝ → Pt) × Fld)

/-- The states at parameter `t`. -/
def Rule.at (r : Rule) (t : ℝ) : List (ℝ × Pt) := r.map fun q => (q.1, q.2.1 t)

/-- The states at the start together with the test functions. -/
def Rule.start (r : Rule) : List (ℝ × Pt × Fld) := r.map fun q => (q.1, q.2.1 0, q.2.2)

/-- `D` is the derivative at 0 of a computation that succeeds for all parameters. -/
def IsDerivative (J : ℝ → Outcome ℝ) (D : Outcome ℝ) : Prop :=
  ∃ (f : ℝ → ℝ) (d : ℝ), (∀ t, J t = .ok (f t)) ∧ D = .ok d ∧ HasDerivAt f d 0

/-- A point displaced along a test function, with the field `primal` its displacement. -/
noncomputable def displaced (p : Pt) (v : Fld) (t : ℝ) : Pt :=
  { p with x := p.x + t • v.w, defo := shift p.defo v.d t, primal := p.x + t • v.w - p.X }

/-- `n` are orthonormal principal directions of `C = C_ij a^i ⊗ a^j` (with covariant components
`C`), and `l` the principal values. -/
def Principal (s : Surf) (C : T2) (n : Fin 2 → V3) (l : Fin 2 → ℝ) : Prop :=
  (∀ i j, dot (n i) (n j) = if i = j then 1 else 0) ∧
    (∀ i, dot (n i) (cross (s.a 0) (s.a 1)) = 0) ∧
    ∀ i, (C 0 0 * dot (acon s 0) (n i) + C 0 1 * dot (acon s 1) (n i)) • acon s 0
      + (C 1 0 * dot (acon s 0) (n i) + C 1 1 * dot (acon s 1) (n i)) • acon s 1 = l i • n i

/-- The tangents are orthonormal. -/
def Orthonormal (s : Surf) : Prop :=
  dot (s.a 0) (s.a 0) = 1 ∧ dot (s.a 1) (s.a 1) = 1 ∧ dot (s.a 0) (s.a 1) = 0

/-- A motion along a test function of a point with orthonormal reference tangents, in which the
transformation matrix is the one the evaluator computes from differentiable principal directions of
the deformation tensor. -/
def PrincipalMotion (P : ℝ → Pt) (v : Fld) : Prop :=
  Moves P v ∧ Orthonormal (P 0).ori ∧ ∃ (n : ℝ → Fin 2 → V3) (l : ℝ → Fin 2 → ℝ),
    (∀ t, (P t).T = Transform.spec2con (P 0).ori 0 (n t)) ∧
    (∀ t, Principal (P 0).ori (Acov (P t).defo) (n t) (l t)) ∧
    ∀ i, ∃ n', HasVDeriv (fun t => n t i) n' 0

/-- The same point in other surface coordinates (`P` the Jacobian of the change of coordinates, `g`
its second derivatives).  Positions and displacements stay. -/
noncomputable def reparamPt (P : T2) (g1 g2 g3 : Fin 2 → ℝ) (p : Pt) : Pt :=
  { p with ori := Linear.reparam P g1 g2 g3 p.ori, defo := Linear.reparam P g1 g2 g3 p.defo }

end Verif.DWR
