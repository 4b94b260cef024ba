import Mathlib.Analysis.InnerProductSpace.Basic
import Mathlib.LinearAlgebra.Dimension.Finrank

/-!
# The linear buckling analysis of the example program

`examples/example_shell3D_DWR_buckling.cpp` l.368-431: the linear solution, the tangent there, the difference of the
tangent and the linear matrix, and the generalised eigenvalue problem of the two matrices, which is solved in one of
two ways, depending on how the program is compiled.

Simplifications: exact arithmetic; all eigenpairs are returned (Spectra returns at most 10); the solvers of Eigen and
of Spectra are given by what they promise.
-/

namespace Verif.BucklingProgram

open RealInnerProductSpace

variable {V : Type} [NormedAddCommGroup V] [InnerProductSpace ℝ V] {n : ℕ}

/-- What `gsEigen::GeneralizedSelfAdjointEigenSolver::compute(A,B)` promises: the pairs `A v = λ B v` with vectors that
are orthonormal with respect to `B`, by increasing value. -/
structure Dense (A B : V →L[ℝ] V) (vec : Fin n → V) (val : Fin n → ℝ) : Prop where
  dim : Module.finrank ℝ V = n
  pair : ∀ i, A (vec i) = val i • B (vec i)
  orth : ∀ i j, ⟪B (vec i), vec j⟫ = if i = j then 1 else 0
  sorted : Monotone val

/-- What `gsSpectraGenSymShiftSolver` with shift 0 and `SortRule::SmallestMagn` promises for the matrices `A`, `B`: the
pairs `A v = λ B v` with vectors that are orthonormal with respect to `B`, by increasing magnitude. -/
structure Shifted (A B : V →L[ℝ] V) (vec : Fin n → V) (val : Fin n → ℝ) : Prop where
  dim : Module.finrank ℝ V = n
  pair : ∀ i, A (vec i) = val i • B (vec i)
  orth : ∀ i j, ⟪B (vec i), vec j⟫ = if i = j then 1 else 0
  sorted : ∀ i j, i ≤ j → |val i| ≤ |val j|

/-- `Kdiff = K_NL - K_L` (`examples/example_shell3D_DWR_buckling.cpp` l.369-395): the tangent at the linear solution
minus the linear matrix. -/
def kdiff (solve : (V →L[ℝ] V) → V → V) (K0 : V →L[ℝ] V) (F : V) (K : V → V →L[ℝ] V) : V →L[ℝ] V :=
  K (solve K0 F) - K0

/-- The value `eigenvalues(modeIdx,0)` (`examples/example_shell3D_DWR_buckling.cpp` l.397-431): `spectra` says whether
`gsSpectra_ENABLED` is defined. -/
def Returns (spectra : Bool) (K0 Kd : V →L[ℝ] V) (m : Fin n) (lam : ℝ) : Prop :=
  ∃ (vec : Fin n → V) (val : Fin n → ℝ),
    (if spectra = true then Shifted K0 Kd vec val else Dense Kd K0 vec val) ∧ lam = val m

end Verif.BucklingProgram
