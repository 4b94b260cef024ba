import Verif.Spec.Plate

/-!
# Specification: buckling of a rectangular plate

Uniformly stretched plate and its stiffness in a Navier mode, independent of the model.
-/

namespace Verif.Spec.Plate

/-- The plate, stretched by `lx` and `ly` in its directions. -/
def stretched (lx ly : ℝ) (q : ℝ × ℝ) : V3 := ⟨lx * q.1, ly * q.2, 0⟩

/-- Stiffness in a Navier mode under the forces `Nx`, `Ny` per length of the undeformed edges, on a
foundation. -/
noncomputable def modeStiffness (D : T3) (Nx Ny k a b : ℝ) (m n : ℕ) : ℝ :=
  navier D a b m n + Nx * (m * Real.pi / a) ^ 2 + Ny * (n * Real.pi / b) ^ 2 + k

/-- A deflection without resistance in any direction: `T` is the tangent. -/
def Buckles (a b : ℝ) (T : (ℝ × ℝ → V3) → (ℝ × ℝ → V3) → ℝ) : Prop :=
  ∃ u, Supported a b u ∧ (∃ q ∈ rect a b, (u q).z ≠ 0) ∧ ∀ v, Pinned a b v → T u v = 0

end Verif.Spec.Plate
