import Verif.Model.DWRShell
import Verif.Spec.DWRObject
import Verif.Spec.DWR
import Verif.Spec.ShellSystem

/-! # Specification: accuracy of the error estimate of a nonlinear shell -/

namespace Verif.DWR

open Verif.ShellSystem

variable {n : ℕ} {κ β γ : Type} [DecidableEq κ]

/-- The coarser functions are combinations of the finer ones, with rows `A`; the residual of `x` vanishes
on all of them. -/
def SolvesCoarse {m : ℕ} (D : Fine n κ β γ) (law : Law κ) (A : Fin m → Fin n → ℝ)
    (x : EuclideanSpace ℝ (Fin n)) : Prop :=
  ∀ i, ∑ j, A i j * ShellSystem.residual D.problem law x j = 0

/-- `x` solves the problem on the finer basis. -/
def SolvesFine (D : Fine n κ β γ) (law : Law κ) (x : EuclideanSpace ℝ (Fin n)) : Prop :=
  ∀ j, ShellSystem.residual D.problem law x j = 0

/-- `z` solves the system of the assembled tangent and the assembled dual vector at `x`. -/
def SolvesDual (D : Fine n κ β γ) (r : Integrate.Rule) (E ν τ : ℝ) (g : Goal) (c : ℕ)
    (x : EuclideanSpace ℝ (Fin n)) (z : Fin n → ℝ) : Prop :=
  ∀ j, D.dual E ν τ g c x j = .ok (∑ j', entry D.problem (D.law r E ν τ) x j j' * z j')

/-- The goals of `x` and `y` are computed, their difference is `d`. -/
def GoalChange (D : Fine n κ β γ) (E ν τ : ℝ) (g : Goal) (c : ℕ) (x y : EuclideanSpace ℝ (Fin n)) (d : ℝ) : Prop :=
  ∃ a b, D.goal E ν τ g c x = .ok a ∧ D.goal E ν τ g c y = .ok b ∧ d = b - a

/-- A function of the coarser basis. -/
noncomputable def coarse {m : ℕ} (D : Fine n κ β γ) (A : Fin m → Fin n → ℝ) (z : Fin m → ℝ) : Disc κ β γ :=
  comb z fun i => comb (A i) D.basis

end Verif.DWR
