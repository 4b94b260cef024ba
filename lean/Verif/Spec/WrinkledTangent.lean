import Verif.Model.WrinkledTangent
import Verif.Spec.Wrinkled

/-!
# Specification: the slope of the stress of a membrane that cannot bear compression

The stress that wrinkling leaves is a function of the strain.  It has kinks where a point becomes taut, wrinkled or
slack; elsewhere it has a derivative.
-/

namespace Verif.Spec.Wrinkled

open V3 Verif.TFT Verif.Spec.Relaxed Verif.Geometry Verif.Variation Verif.ShellSystem

variable {J κ : Type} [Fintype J]

/-- Not at a kink: under tension in all directions, or wrinkled in one direction and under tension in another, or
slack in all directions. -/
def Regular (C : T3) (E : Voigt) : Prop := ∃ T W, State C (mulVec3 C E) T W ∧
  (Taut T ∨ (T ≠ 0 ∧ W ≠ 0) ∨ ∀ v : Fin 2 → ℝ, v ≠ 0 → 0 < comp (strainTensor W) v v)

/-- The stress that wrinkling leaves, as a function of the strain. -/
def Leaves (C : T3) (T : Voigt → Voigt) : Prop := ∀ E, ∃ W, State C (mulVec3 C E) (T E) W

/-- A matrix as a linear map. -/
noncomputable def lin (D : T3) : Voigt →L[ℝ] Voigt :=
  LinearMap.toContinuousLinearMap
    { toFun := mulVec3 D
      map_add' := fun u v => by funext i; simp only [mulVec3, Fin.sum_univ_three, Pi.add_apply]; ring
      map_smul' := fun c v => by
        funext i; simp only [mulVec3, Fin.sum_univ_three, Pi.smul_apply, smul_eq_mul, RingHom.id_apply]; ring }

/-- `D` is the derivative of the stress that wrinkling leaves. -/
def Slope (C : T3) (E : Voigt) (D : T3) : Prop := ∀ T, Leaves C T → HasFDerivAt T (lin D) E

/-- The matrices `A` are those of a membrane with wrinkles: the thickness times the derivatives of the stresses that
wrinkling leaves. -/
def Slopes (P : Problem J κ) (C : κ → T3) (t : κ → ℝ) (x : EuclideanSpace ℝ J) (A : κ → T3) : Prop :=
  ∀ q ∈ P.Q, ∃ D, Slope (C q) (strain (P.ori q) (deformed P x q)) D ∧ ∀ i k, A q i k = t q * D i k

/-- No point is at a kink. -/
def Away (P : Problem J κ) (C : κ → T3) (x : EuclideanSpace ℝ J) : Prop :=
  ∀ q ∈ P.Q, Regular (C q) (strain (P.ori q) (deformed P x q))

/-- First-order change of the strain in a displacement with the tangents `w`. -/
noncomputable def strainRate (s : Surf) (w : Fin 2 → V3) : Voigt :=
  vec3 (dot (s.a 0) (w 0)) (dot (s.a 1) (w 1)) (dot (s.a 0) (w 1) + dot (s.a 1) (w 0))

/-- The displacement `v` costs nothing to second order: at every point it does not move material along the lines of
tension, and its strain is taken up by the wrinkles that are there. -/
def Idle (P : Problem J κ) (C : κ → T3) (x : EuclideanSpace ℝ J) (v : J → ℝ) : Prop :=
  ∀ q ∈ P.Q, ∀ T W, State (C q) (mulVec3 (C q) (strain (P.ori q) (deformed P x q))) T W →
    (∀ i, stressTensor T i 0 • slopes P v q 0 + stressTensor T i 1 • slopes P v q 1 = 0) ∧
    (T ≠ 0 → ∃ c : ℝ, ∀ k, strainRate (deformed P x q) (slopes P v q) k = c * W k)

end Verif.Spec.Wrinkled
