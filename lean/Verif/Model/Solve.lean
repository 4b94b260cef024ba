import Verif.Outcome
import Mathlib.Analysis.Normed.Operator.NormedSpace

/-!
# The solution loop of the tutorials and examples

Models the nonlinear solution in `tutorials/nonlinear_shell.cpp` and, statement for statement the same, in
`examples/example_shell3D.cpp` l.519-596, `examples/example_shell2D.cpp` l.411-484 and
`examples/example_parametric_panel.cpp` l.353-415: the linear problem, then Newton's method.

Simplifications: exact real arithmetic; the vectors of degrees of freedom are a normed space `V`; the sparse
solver (`CGDiagonal`: `compute`, then `solve`) is a function `solve` whose properties are hypotheses; the
matrices are continuous linear maps.  Printing is left out, except for the warning.
-/

namespace Verif.Solve

variable {V : Type} [NormedAddCommGroup V] [NormedSpace ℝ V]

/-- What the programs use of the assembler: matrix and right-hand side of `assemble()`, and the two functions
`Residual` and `Jacobian`; `none` is a status other than `Success`
(`tutorials/nonlinear_shell.cpp` l.114-131, 136-138). -/
structure Sys (V : Type) [NormedAddCommGroup V] [NormedSpace ℝ V] where
  K0 : V →L[ℝ] V
  F : V
  residual : V → Option V
  jacobian : V → Option (V →L[ℝ] V)

/-- `solVector`, `R`, whether the loop was left by `break`, the iterations made, and whether
`Maximum iterations reached!` was printed. -/
structure Result (V : Type) where
  x : V
  r : V
  broke : Bool
  its : ℕ
  warned : Bool

/-- `1e-6` (`tutorials/nonlinear_shell.cpp` l.167, `examples/example_shell3D.cpp` l.580). -/
noncomputable def tol : ℝ := 1 / 10 ^ 6

/-- `100` (`tutorials/nonlinear_shell.cpp` l.153, `examples/example_shell3D.cpp` l.561). -/
def maxIt : ℕ := 100

/-- `GISMO_ENSURE(…,"Assembly of the … failed")` (`tutorials/nonlinear_shell.cpp` l.152, 155, 160). -/
def ensure {α : Type} : Option α → Outcome α
  | some a => .ok a
  | none => .throws

open Classical in
/-- The loop from iteration `it` with `n` iterations left (`tutorials/nonlinear_shell.cpp` l.153-171,
`examples/example_shell3D.cpp` l.561-584).  The warning is printed if `it + 1 == it` (l.169, l.582). -/
noncomputable def loop (s : Sys V) (solve : (V →L[ℝ] V) → V → V) : ℕ → ℕ → V → V → Bool → Outcome (Result V)
  | 0, it, x, r, w => .ok ⟨x, r, false, it, w⟩
  | n + 1, it, x, r, w =>
    (ensure (s.jacobian x)).bind fun m =>
      (ensure (s.residual (x + solve m r))).bind fun r' =>
        if ‖solve m r‖ < tol then .ok ⟨x + solve m r, r', true, it + 1, w⟩
        else loop s solve n (it + 1) (x + solve m r) r' (w || decide (it + 1 = it))

/-- The linear solution, its residual, the loop (`tutorials/nonlinear_shell.cpp` l.136-171). -/
noncomputable def program (s : Sys V) (solve : (V →L[ℝ] V) → V → V) : Outcome (Result V) :=
  (ensure (s.residual (solve s.K0 s.F))).bind fun r =>
    loop s solve maxIt 0 (solve s.K0 s.F) r false

end Verif.Solve
