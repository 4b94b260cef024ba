import Verif.Model.Wrinkled
import Verif.Spec.Relaxed
import Mathlib.Analysis.Calculus.Gradient.Basic

/-!
# Specification: the energy of a membrane that cannot bear compression

Every point of the membrane may take up length by wrinkling, at no cost; it stores the least energy it can.
-/

namespace Verif.Spec.Wrinkled

open V3 Verif.TFT Verif.Spec.Relaxed Verif.Geometry Verif.ShellSystem

variable {J κ : Type} [Fintype J]

/-- The strain of a surface: half the change of the inner products of the tangents. -/
noncomputable def strain (ori s : Surf) : Voigt :=
  vec3 ((dot (s.a 0) (s.a 0) - dot (ori.a 0) (ori.a 0)) / 2) ((dot (s.a 1) (s.a 1) - dot (ori.a 1) (ori.a 1)) / 2)
    (dot (s.a 0) (s.a 1) - dot (ori.a 0) (ori.a 1))

/-- The least energy that wrinkles can leave of the strain `E`. -/
noncomputable def relaxed (C : T3) (E : Voigt) : ℝ := ⨅ W : {W : Voigt // Lengthens W}, energy C fun i => E i + W.1 i

/-- The potential of the membrane: the energies that wrinkles leave, times the thickness, minus the work of the
loads. -/
noncomputable def potential (P : Problem J κ) (C : κ → T3) (t : κ → ℝ) (x : EuclideanSpace ℝ J) : ℝ :=
  (∑ q ∈ P.Q, t q * relaxed (C q) (strain (P.ori q) (deformed P x q)) * P.μ q) - ∑ j, P.F j * x j

/-- The membrane forces `N` are those of a membrane with wrinkles: the thickness times the stress that
wrinkling leaves. -/
def Wrinkles (P : Problem J κ) (C : κ → T3) (t : κ → ℝ) (x : EuclideanSpace ℝ J) (N : κ → Voigt) : Prop :=
  ∀ q ∈ P.Q, ∃ T W, State (C q) (mulVec3 (C q) (strain (P.ori q) (deformed P x q))) T W ∧ ∀ k, N q k = t q * T k

/-- Weights, thicknesses and stiffnesses of a body. -/
structure Body (P : Problem J κ) (C : κ → T3) (t : κ → ℝ) : Prop where
  weight : ∀ q ∈ P.Q, 0 < P.μ q
  thick : ∀ q ∈ P.Q, 0 < t q
  symm : ∀ q ∈ P.Q, Symm (C q)
  stiff : ∀ q ∈ P.Q, PosDef (C q)

/-- The tangents of a displacement. -/
noncomputable def slopes (P : Problem J κ) (v : J → ℝ) (q : κ) (i : Fin 2) : V3 :=
  ⟨∑ j, v j * ((P.field q j).a i).x, ∑ j, v j * ((P.field q j).a i).y, ∑ j, v j * ((P.field q j).a i).z⟩

/-- Only the displacement zero has no gradient at all quadrature points. -/
def Held (P : Problem J κ) : Prop := ∀ v : J → ℝ, (∀ q ∈ P.Q, ∀ i, slopes P v q i = 0) → v = 0

/-- Tension in every direction. -/
def Taut (n : Voigt) : Prop := ∀ v : Fin 2 → ℝ, v ≠ 0 → 0 < comp (stressTensor n) v v

/-- The classification and the search at the height `z` see the membrane strain `E` in a surface with metric `A`:
the principal values are those of the membrane stress and strain, the smallest stress is not within the tolerance
below zero, and the angle of a wrinkled point is a zero of the searched function with compression across and
lengthening along the wrinkles. -/
structure Seen (A : T2) (C : T3) (E : Voigt) (f : Verif.Wrinkled.Found) (z : ℝ) : Prop where
  metric : Spec.PosDef.Metric A
  stress : PrincipalStress A (mulVec3 C E) (f.s0 z) (f.s1 z)
  strain : PrincipalStrain A E (f.e0 z) (f.e1 z)
  clear : 0 ≤ f.s0 z ∨ f.s0 z < -(max (f.s1 z) 0 * 1e-12)
  angle : f.s0 z < 0 → 0 ≤ f.e1 z → objective C (mulVec3 C E) (f.θ z) = 0 ∧
    comp (stressTensor (mulVec3 C E)) (dirN (f.θ z)) (dirN (f.θ z)) ≤ 0 ∧
    0 ≤ comp (strainTensor E) (dirM (f.θ z)) (dirM (f.θ z))

end Verif.Spec.Wrinkled
