import Verif.Spec.HeldShell

/-!
# Specification: Newton's method for a shell with clamped sides

What the sequence of states is, by how much the clamped sides have turned, and when the shell is stable without the
clamping.
-/

namespace Verif.Spec.ClampNewton

open Verif.ShellSystem Verif.HeldShell Spec.HeldShell

variable {J κ ι : Type} [Fintype J]

/-- The states of Newton's method, started with the solution of the linear problem. -/
structure Iterates (P : Problem J κ) (H : Holds J ι) (law : Law κ) (x : ℕ → EuclideanSpace ℝ J) : Prop where
  start : ∀ j, ∑ j', linearEntry P H law j j' * x 0 j' = linearRhs P H j
  step : ∀ n j, ∑ j', entry P H law (x n) j j' * (x (n + 1) j' - x n j') = residual P H law (x n) j

/-- Rate at which a point of a clamped side turns. -/
noncomputable def turning (H : Holds J ι) (q : ι) (v : EuclideanSpace ℝ J) : ℝ :=
  fderiv ℝ (fun y => tilt H q (H.S.surf y q)) 0 v

/-- By how much a displacement turns the clamped sides: root of the weighted mean of the squares. -/
noncomputable def turned (H : Holds J ι) (v : EuclideanSpace ℝ J) : ℝ :=
  √(∑ q ∈ H.Q1, H.w1 q * (H.a1 q * turning H q v ^ 2 * H.μ1 q))

/-- The same with clamping factors multiplied by `c`. -/
def rigid {J ι : Type} (H : Holds J ι) (c : ℝ) : Holds J ι := { H with a1 := fun q => c * H.a1 q }

/-- The linear problem without clamping is positive definite. -/
def Stable (P : Problem J κ) (H : Holds J ι) (law : Law κ) : Prop :=
  ∀ v : EuclideanSpace ℝ J, v ≠ 0 → 0 < ∑ j, ∑ j', v j * linearEntry P (hinged H) law j j' * v j'

/-- Weights, factors and measures of the clamped sides are not negative. -/
def Factors {J ι : Type} (H : Holds J ι) : Prop := ∀ q ∈ H.Q1, 0 ≤ H.w1 q ∧ 0 ≤ H.a1 q ∧ 0 ≤ H.μ1 q

end Verif.Spec.ClampNewton
