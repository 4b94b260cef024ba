import Verif.Model.Tensor

/-!
# Specification: small strains

Plane stress of isotropic solids at small strains, independent of the model.
-/

namespace Verif.Spec.OgdenReference

/-- Inverse metric of a surface with the contravariant vectors `P i` in an orthonormal basis. -/
def metric (P : T2) (i j : Fin 2) : ℝ := ∑ a, P i a * P j a

/-- Plane stress moduli of an isotropic solid with the Lamé constants `l`, `m`. -/
noncomputable def planeStress (l m : ℝ) (A : T2) (i j k n : Fin 2) : ℝ :=
  2 * l * m / (l + 2 * m) * (A i j * A k n) + m * (A i k * A j n + A i n * A j k)

/-- … of an incompressible solid. -/
noncomputable def planeIncompressible (m : ℝ) (A : T2) (i j k n : Fin 2) : ℝ :=
  2 * m * (A i j * A k n) + m * (A i k * A j n + A i n * A j k)

/-- Shear modulus of an Ogden material with the terms `(μᵢ, αᵢ)`. -/
noncomputable def ogdenShear (terms : List (ℝ × ℝ)) : ℝ := (terms.map fun t => t.1 * t.2 / 2).sum

/-- Stress for the moduli `C` and the strain `e`. -/
def stress (C : Fin 2 → Fin 2 → Fin 2 → Fin 2 → ℝ) (e : T2) (i j : Fin 2) : ℝ := ∑ k, ∑ n, C i j k n * e k n

/-- `Y` is the Young's modulus of the moduli `C` in Cartesian coordinates: the stress per strain in the first
direction if the second one is free of stress. -/
def Young (C : Fin 2 → Fin 2 → Fin 2 → Fin 2 → ℝ) (Y : ℝ) : Prop :=
  ∀ e : T2, stress C e 1 1 = 0 → stress C e 0 0 = Y * e 0 0

/-- The moduli `C` store energy in every strain. -/
def Stable (C : Fin 2 → Fin 2 → Fin 2 → Fin 2 → ℝ) : Prop :=
  ∀ e : T2, e 0 1 = e 1 0 → e ≠ 0 → 0 < ∑ i, ∑ j, stress C e i j * e i j

end Verif.Spec.OgdenReference
