import Verif.Model.ModalProgram
import Verif.Spec.DWREigen
import Mathlib.LinearAlgebra.Dimension.Finrank

/-!
# Specification: modes of a discretised shell
-/

namespace Verif.Spec.ModalProgram

open Verif.DWR Verif.ModalProgram RealInnerProductSpace

variable {α : Type} {n N : ℕ}

/-- Every function of the basis `ψ` is a combination of functions of the basis `φ`. -/
def Nested (ψ : Fin n → α → EigFld) (φ : Fin N → α → EigFld) : Prop := ∀ k, ∃ c, ψ k = comb φ c

/-- `lam` is the value number `i` (from 0) of two quadratic forms: the least number such that some subspace of
dimension `i + 1` has all quotients of the forms up to this number. -/
def MinMax {V : Type} [AddCommGroup V] [Module ℝ V] (a b : V → ℝ) (i : ℕ) (lam : ℝ) : Prop :=
  (∃ S : Submodule ℝ V, Module.finrank ℝ S = i + 1 ∧ ∀ v ∈ S, a v ≤ lam * b v) ∧
  ∀ S : Submodule ℝ V, Module.finrank ℝ S = i + 1 → ∃ v ∈ S, v ≠ 0 ∧ lam * b v ≤ a v

end Verif.Spec.ModalProgram
