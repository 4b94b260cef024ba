import Verif.Spec.Rayleigh
import Mathlib.Data.Set.Card

/-!
# Specification: references of the example programs

Clamped plates, the order of the modes of a square, and eigenpairs, independent of the model.
-/

namespace Verif.Spec.Examples

open V3 Spec.Balloon Spec.Plate

/-- Clamped unit square: no displacement and no slope at the edges. -/
def Clamped (v : ℝ × ℝ → V3) : Prop :=
  SmoothOn 2 v Set.univ ∧ ∀ q, Edge 1 1 q → v q = 0
    ∧ deriv (fun x => (v (x, q.2)).z) q.1 = 0 ∧ deriv (fun y => (v (q.1, y)).z) q.2 = 0

/-- Numbers of half waves with the sum of squares below `s`. -/
def below (s : ℕ) : Set (ℕ × ℕ) := {p | 1 ≤ p.1 ∧ 1 ≤ p.2 ∧ p.1 ^ 2 + p.2 ^ 2 < s}

/-- `s` is the sum `m² + n²` with the index `k` if all modes of the square are sorted, repeated ones
repeatedly: at most `k` modes are below `s`, more than `k` are at most `s`. -/
def Kth (k s : ℕ) : Prop := (below s).ncard ≤ k ∧ k < (below (s + 1)).ncard

/-- `K u = lam G u` for the deflections of a simply supported square. -/
def Eigen (K G : (ℝ × ℝ → V3) → (ℝ × ℝ → V3) → ℝ) (lam : ℝ) (u : ℝ × ℝ → V3) : Prop :=
  ∀ v, Supported 1 1 v → K u v = lam * G u v

/-- A smooth displacement with the supports of the first buckling example: no deflection at the edges, no
displacement across the west and the south edge. -/
def Held (v : ℝ × ℝ → V3) : Prop :=
  Supported 1 1 v ∧ (∀ y, (v (0, y)).x = 0) ∧ ∀ x, (v (x, 0)).y = 0

/-- Uniform strain. -/
def uniform (α β : ℝ) (q : ℝ × ℝ) : V3 := ⟨α * q.1, β * q.2, 0⟩

/-- Multiplier of the edge load for the mode with the half waves `m`, `n`: the classical load
`D π² (m² + n²)` over the force in the plate, `load (1 + ε/2)` with the strain `ε = load (1 - ν)/(E t)`. -/
noncomputable def biaxialTrue (E ν t load : ℝ) (m n : ℕ) : ℝ :=
  flexural E ν t * Real.pi ^ 2 * ((m : ℝ) ^ 2 + n ^ 2) / (load * (1 + load * (1 - ν) / (2 * E * t)))

end Verif.Spec.Examples
