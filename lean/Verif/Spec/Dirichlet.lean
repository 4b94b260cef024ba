import Verif.Model.Dirichlet
import Mathlib.Analysis.Calculus.Deriv.Basic

/-! # Specification: equilibrium with prescribed displacements -/

namespace Verif.Dirichlet

variable {β : Type} {n b : ℕ}

/-- Potential energy of free coefficients `x` and fixed coefficients `y`. -/
noncomputable def energy (P : Linear n b) (x : Fin n → ℝ) (y : Fin b → ℝ) : ℝ :=
  1 / 2 * (∑ i, ∑ j, x i * P.K i j * x j) + (∑ i, ∑ j, x i * P.A i j * y j)
    + 1 / 2 * (∑ i, ∑ j, y i * P.B i j * y j) - ∑ i, P.f i * x i - ∑ i, P.h i * y i

/-- Equilibrium under the prescribed displacements `g`: the fixed coefficients are `g`, and the energy
is stationary in every direction that keeps them. -/
def Equilibrium (P : Linear n b) (g : Fin b → ℝ) (x : Fin n → ℝ) (y : Fin b → ℝ) : Prop :=
  y = g ∧ ∀ d : Fin n → ℝ, HasDerivAt (fun t : ℝ => energy P (fun i => x i + t * d i) y) 0 0

/-- The boundary conditions in force after a sequence of calls: those given last. -/
def current (k : β) : List (Call β) → β
  | [] => k
  | .updateBCs k' :: l => current k' l
  | _ :: l => current k l

/-- Calls after which the space holds the prescribed values. -/
def restores : Call β → Bool
  | .initialize | .updateBCs _ | .assembleVector false | .construct | .fullSolutionVector => true
  | _ => false

/-- Calls after which the space holds zeros. -/
def clears : Call β → Bool
  | .homogenizeDirichlet | .assembleMass | .assembleMatrix | .assembleVector true => true
  | _ => false

/-- No call that clears comes after the last call that restores. -/
def Fresh (l : List (Call β)) : Prop :=
  ∃ pre post, l = pre ++ post ∧ (∀ c ∈ post, clears c = false) ∧
    (pre = [] ∨ ∃ init c, pre = init ++ [c] ∧ restores c = true)

/-- Sizes of the systems: rows and functions by the option in force (`o` at the start). -/
def expected (num : ℤ → ℕ) : ℤ → List SizeCall → List (ℕ × ℕ)
  | _, [] => []
  | _, .option c :: l => expected num c l
  | _, .setOptions c :: l => expected num c l
  | o, .refresh :: l => expected num o l
  | o, _ :: l => (num o, num o) :: expected num o l

/-- `pending`: the option has been changed directly and neither `assemble()` nor a call that sets up
the space has come since.  Then no other system may be assembled. -/
def Ordered : Bool → List SizeCall → Prop
  | _, [] => True
  | _, .option _ :: l => Ordered true l
  | p, .setOptions _ :: l => Ordered p l
  | _, .refresh :: l => Ordered false l
  | _, .assemble :: l => Ordered false l
  | p, _ :: l => p = false ∧ Ordered false l

end Verif.Dirichlet
