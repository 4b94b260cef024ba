import Verif.Spec.PatchTest
import Mathlib.MeasureTheory.Integral.IntervalIntegral.Basic
import Mathlib.Algebra.BigOperators.Group.Finset.Basic

/-!
# Specification: the force on a side of a patch

Forces of tractions on the sides of a patch over `[0,a]×[0,b]`, independent of the model.
-/

namespace Verif.Spec.Reaction

open V3 Fields Spec.Balloon

/-- Component of a vector. -/
def part (k : ℕ) (v : V3) : ℝ := if k = 0 then v.x else if k = 1 then v.y else v.z

/-- The function `φ` in component `k`. -/
def field (φ : ℝ × ℝ → ℝ) (k : ℕ) (q : ℝ × ℝ) : V3 :=
  if k = 0 then ⟨φ q, 0, 0⟩ else if k = 1 then ⟨0, φ q, 0⟩ else ⟨0, 0, φ q⟩

/-- Force of the tractions `g` on the right side, every point weighted with `w`. -/
noncomputable def eastForce (a b : ℝ) (X g : ℝ × ℝ → V3) (w : ℝ × ℝ → ℝ) (k : ℕ) : ℝ :=
  ∫ s in (0 : ℝ)..b, w (a, s) * part k (g (a, s)) * V3.norm (vpd 1 X (a, s))

/-- Force of the tractions `g` on the left side. -/
noncomputable def westForce (b : ℝ) (X g : ℝ × ℝ → V3) (w : ℝ × ℝ → ℝ) (k : ℕ) : ℝ :=
  ∫ s in (0 : ℝ)..b, w (0, s) * part k (g (0, s)) * V3.norm (vpd 1 X (0, s))

/-- Force of the tractions `g` on the upper side. -/
noncomputable def northForce (a b : ℝ) (X g : ℝ × ℝ → V3) (w : ℝ × ℝ → ℝ) (k : ℕ) : ℝ :=
  ∫ s in (0 : ℝ)..a, w (s, b) * part k (g (s, b)) * V3.norm (vpd 0 X (s, b))

/-- Force of the tractions `g` on the lower side. -/
noncomputable def southForce (a : ℝ) (X g : ℝ × ℝ → V3) (w : ℝ × ℝ → ℝ) (k : ℕ) : ℝ :=
  ∫ s in (0 : ℝ)..a, w (s, 0) * part k (g (s, 0)) * V3.norm (vpd 0 X (s, 0))

/-- The functions `l` of the basis `φ` are those of the right side: they add up to one there and vanish on the
left side. -/
structure East (a b : ℝ) (φ : ℕ → ℝ × ℝ → ℝ) (l : List ℕ) : Prop where
  one : ∀ s ∈ Set.Icc 0 b, ∑ i ∈ l.toFinset, φ i (a, s) = 1
  far : ∀ i ∈ l, ∀ s ∈ Set.Icc 0 b, φ i (0, s) = 0

/-- The functions `l` add up to one on all four sides. -/
structure Around (a b : ℝ) (φ : ℕ → ℝ × ℝ → ℝ) (l : List ℕ) : Prop where
  ends : ∀ s ∈ Set.Icc 0 b, ∑ i ∈ l.toFinset, φ i (a, s) = 1 ∧ ∑ i ∈ l.toFinset, φ i (0, s) = 1
  sides : ∀ s ∈ Set.Icc 0 a, ∑ i ∈ l.toFinset, φ i (s, b) = 1 ∧ ∑ i ∈ l.toFinset, φ i (s, 0) = 1

/-- Tractions that vary continuously along each side. -/
def Smooth (g : Fin 2 → Bool → ℝ × ℝ → V3) : Prop := ∀ i e k, Continuous fun q => part k (g i e q)

end Verif.Spec.Reaction
