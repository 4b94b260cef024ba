import Verif.Spec.Plate
import Mathlib.Analysis.Calculus.Deriv.Basic

/-!
# Specification: bounds for discretised plates

Bending stiffness, shear modulus, Laplacian and combinations of basis functions, independent of the model.
-/

namespace Verif.Spec.Plate

/-- Bending stiffness of an isotropic plate. -/
noncomputable def flexural (E ν t : ℝ) : ℝ := E * t ^ 3 / (12 * (1 - ν ^ 2))

/-- Shear modulus. -/
noncomputable def shear (E ν : ℝ) : ℝ := E / (2 * (1 + ν))

/-- Sum of the squares of the smallest wave numbers. -/
noncomputable def wave2 (a b : ℝ) : ℝ := (Real.pi / a) ^ 2 + (Real.pi / b) ^ 2

/-- Squared frequency of a Navier mode. -/
noncomputable def freq2 (E ν ρ t a b : ℝ) (m n : ℕ) : ℝ :=
  flexural E ν t / (ρ * t) * ((m * Real.pi / a) ^ 2 + (n * Real.pi / b) ^ 2) ^ 2

/-- Laplacian of a deflection. -/
noncomputable def lap (f : ℝ × ℝ → ℝ) (q : ℝ × ℝ) : ℝ :=
  deriv (deriv fun x => f (x, q.2)) q.1 + deriv (deriv fun y => f (q.1, y)) q.2

/-- Displacement with the coefficients `c` in the basis `φ`. -/
def comb {N : ℕ} (φ : Fin N → ℝ × ℝ → V3) (c : Fin N → ℝ) (q : ℝ × ℝ) : V3 :=
  ⟨∑ i, c i * (φ i q).x, ∑ i, c i * (φ i q).y, ∑ i, c i * (φ i q).z⟩

/-- Not zero everywhere on the plate. -/
def Moves (a b : ℝ) (u : ℝ × ℝ → V3) : Prop := ∃ q ∈ rect a b, u q ≠ 0

/-- No combination of the basis vanishes on the plate, apart from the zero coefficients. -/
def Independent (a b : ℝ) {N : ℕ} (φ : Fin N → ℝ × ℝ → V3) : Prop :=
  ∀ c, (∀ q ∈ rect a b, comb φ c q = 0) → c = 0

end Verif.Spec.Plate
