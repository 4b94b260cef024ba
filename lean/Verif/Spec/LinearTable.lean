import Verif.Model.LinearTable
import Verif.Spec.DWRError
import Verif.Spec.System

/-!
# Specification: goals of displacement fields
-/

namespace Verif.Spec.LinearTable

open Verif.DWR Verif.LinearTable

variable {κ β γ π : Type} {n : ℕ}

/-- A coordinate. -/
def coord (c : Fin 3) (v : V3) : ℝ := match c with
  | 0 => v.x
  | 1 => v.y
  | 2 => v.z

/-- Integral of a quantity over the plate plus its values at the points, with the area elements. -/
noncomputable def collect (P : Plate κ β γ π) (f : κ → ℝ) (g : π → ℝ) : ℝ :=
  total P.set f + (P.pts.map fun q => g q * area (P.pori q)).sum

/-- Collected displacement in a direction. -/
noncomputable def average (P : Plate κ β γ π) (c : Fin 3) (f : Fn κ β γ π) : ℝ :=
  collect P (fun q => coord c (f.disc.w q)) fun q => coord c (f.p q)

/-- Collected square of the distance of two displacement fields. -/
noncomputable def distance (P : Plate κ β γ π) (f g : Fn κ β γ π) : ℝ :=
  collect P
    (fun q => ((f.disc.w q).x - (g.disc.w q).x) ^ 2 + ((f.disc.w q).y - (g.disc.w q).y) ^ 2
      + ((f.disc.w q).z - (g.disc.w q).z) ^ 2)
    fun q => ((f.p q).x - (g.p q).x) ^ 2 + ((f.p q).y - (g.p q).y) ^ 2 + ((f.p q).z - (g.p q).z) ^ 2

/-- Collected square of a displacement field. -/
noncomputable def square (P : Plate κ β γ π) (f : Fn κ β γ π) : ℝ :=
  collect P (fun q => (f.disc.w q).x ^ 2 + (f.disc.w q).y ^ 2 + (f.disc.w q).z ^ 2)
    fun q => (f.p q).x ^ 2 + (f.p q).y ^ 2 + (f.p q).z ^ 2

/-- Moduli are symmetric. -/
def SymmetricModuli (P : Plate κ β γ π) : Prop :=
  ∀ q i j, (P.mm q).1 i j = (P.mm q).1 j i ∧ (P.mm q).2.1 i j = (P.mm q).2.2.1 j i ∧
    (P.mm q).2.2.2 i j = (P.mm q).2.2.2 j i

/-- The linear solution in a basis. -/
def Solution (P : Plate κ β γ π) (φ : Fin n → Fn κ β γ π) (u : EuclideanSpace ℝ (Fin n)) : Prop :=
  ∀ i, ∑ j, entry P φ i j * u j = rhs P φ i

/-- Every motion of the basis costs energy. -/
def Stiff (P : Plate κ β γ π) (φ : Fin n → Fn κ β γ π) : Prop :=
  ∀ x : Fin n → ℝ, x ≠ 0 → 0 < ∑ i, ∑ j, entry P φ i j * x j * x i

/-- Quadrature weights are positive, the surface is regular, and every strain costs energy. -/
def Sound (P : Plate κ β γ π) : Prop :=
  ∀ q ∈ P.set.elems.flatten, 0 < P.set.wt q ∧ Geometry.Indep ((P.set.ori q).a 0) ((P.set.ori q).a 1) ∧
    Spec.System.Definite ⟨(P.mm q).1, (P.mm q).2.1, (P.mm q).2.2.1, (P.mm q).2.2.2, fun _ => 0, fun _ => 0⟩

/-- A field strains the plate at some quadrature point. -/
def Strains (P : Plate κ β γ π) (f : Fn κ β γ π) : Prop :=
  ∃ q ∈ P.set.elems.flatten, ∃ k, Spec.System.rateM (P.set.ori q) (f.disc.d q) k ≠ 0 ∨
    Spec.System.rateB (P.set.ori q) (f.disc.d q) k ≠ 0

end Verif.Spec.LinearTable
