import Verif.Model.ShellSystem
import Verif.Spec.Variation
import Verif.Spec.Solve
import Mathlib.LinearAlgebra.Matrix.NonsingularInverse
import Mathlib.LinearAlgebra.Matrix.Trace
import Mathlib.Data.Matrix.Mul

/-!
# Specification: the Koiter shell

Independent of the model: the energy of a Koiter shell of isotropic material with the strains of
`Spec/Variation`, the potential of a discretised shell with dead loads.
-/

namespace Verif.Spec.ShellSystem

open V3 Verif.Geometry Verif.Variation Verif.ShellSystem

/-- First fundamental form. -/
def first (s : Surf) : Matrix (Fin 2) (Fin 2) ℝ := .of fun i j => dot (s.a i) (s.a j)

/-- Second fundamental form. -/
noncomputable def second (s : Surf) : Matrix (Fin 2) (Fin 2) ℝ :=
  !![dot s.d11 (unitNormal (s.a 0) (s.a 1)), dot s.d12 (unitNormal (s.a 0) (s.a 1));
    dot s.d12 (unitNormal (s.a 0) (s.a 1)), dot s.d22 (unitNormal (s.a 0) (s.a 1))]

/-- Quadratic form of plane stress in the metric `G`: `(1-ν) |e|² + ν (tr e)²`. -/
noncomputable def planeForm (ν : ℝ) (G e : Matrix (Fin 2) (Fin 2) ℝ) : ℝ :=
  (1 - ν) * (G⁻¹ * e * (G⁻¹ * e)).trace + ν * (G⁻¹ * e).trace ^ 2

/-- Energy per undeformed area: Young's modulus `E`, Poisson's ratio `ν`, thickness `t`. -/
noncomputable def koiter (E ν t : ℝ) (ori s : Surf) : ℝ :=
  E * t / (2 * (1 - ν ^ 2)) * planeForm ν (first ori) ((1 / 2 : ℝ) • (first s - first ori))
    + E * t ^ 3 / (24 * (1 - ν ^ 2)) * planeForm ν (first ori) (second ori - second s)

variable {J κ : Type} [Fintype J]

/-- Total potential: energy of the shell minus the work of the loads. -/
noncomputable def potential (P : Problem J κ) (E ν t : κ → ℝ) (x : EuclideanSpace ℝ J) : ℝ :=
  (∑ q ∈ P.Q, koiter (E q) (ν q) (t q) (P.ori q) (deformed P x q) * P.μ q) - ∑ j, P.F j * x j

/-- The tangents of the deformed surface are independent at all quadrature points. -/
def Admissible (P : Problem J κ) : Set (EuclideanSpace ℝ J) :=
  {x | ∀ q ∈ P.Q, Indep ((deformed P x q).a 0) ((deformed P x q).a 1)}

/-- The solver solves every regular system. -/
def Solver {V : Type} [NormedAddCommGroup V] [NormedSpace ℝ V] (solve : (V →L[ℝ] V) → V → V) : Prop :=
  ∀ m : V →L[ℝ] V, Function.Injective m → Solve.Exact solve m

end Verif.Spec.ShellSystem
