import Verif.Model.Tensor

/-!
# Specification: contravariant tensors under a change of parameters

`P i a` is the derivative of the old parameter `a` with respect to the new parameter `i`, as in
`Linear.reparam`: covariant components are multiplied by `P`, contravariant ones by its inverse.
-/

namespace Verif.Spec.Reparam

/-- Contravariant components of a second-order tensor in the new parameters. -/
noncomputable def contra (P S : T2) (i j : Fin 2) : ℝ :=
  ∑ a, ∑ b, inv2 P a i * inv2 P b j * S a b

/-- Contravariant components of a fourth-order tensor in the new parameters. -/
noncomputable def contra4 (P : T2) (T : Fin 2 → Fin 2 → Fin 2 → Fin 2 → ℝ) (i j k l : Fin 2) : ℝ :=
  ∑ a, ∑ b, ∑ c, ∑ d, inv2 P a i * inv2 P b j * inv2 P c k * inv2 P d l * T a b c d

/-- Covariant components of a second-order tensor in the new parameters. -/
def co (P M : T2) (i j : Fin 2) : ℝ := ∑ a, ∑ b, P i a * P j b * M a b

end Verif.Spec.Reparam
