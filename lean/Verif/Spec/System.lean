import Verif.Spec.Balance
import Mathlib.Logic.ExistsUnique

/-!
# Specification: linear systems of a shell

Independent of the model: rates of the strains, displacements of coefficients, strain-free
displacements, definite section moduli, solutions of a system with eliminated degrees of freedom.
-/

namespace Verif.Spec.System

open V3 Verif.Geometry Verif.Variation Verif.Balance

variable {ι κ : Type}

/-- Rate of the membrane strain of the surface `s` moved along `u`. -/
noncomputable def rateM (s u : Surf) : Voigt := fun k =>
  deriv (fun t => voigtMembrane s (shift s u t) k) 0

/-- Rate of the bending strain. -/
noncomputable def rateB (s u : Surf) : Voigt := fun k =>
  deriv (fun t => voigtBending s (shift s u t) k) 0

/-- Displacements of the control points of a coefficient vector. -/
def nodal (x : ι × Fin 3 → ℝ) (i : ι) : V3 := ⟨x (i, 0), x (i, 1), x (i, 2)⟩

/-- Derivatives of the displacement with coefficients `x`. -/
def displacement [Fintype ι] (φ : ι → Shape) (x : ι × Fin 3 → ℝ) : Surf :=
  surface Finset.univ (nodal x) φ

/-- No strain at any of the points `Q`, to first order. -/
def StrainFree [Fintype ι] (Q : Finset κ) (s : κ → Surf) (φ : κ → ι → Shape) (x : ι × Fin 3 → ℝ) :
    Prop :=
  ∀ q ∈ Q, (∀ k, rateM (s q) (displacement (φ q) x) k = 0) ∧
    ∀ k, rateB (s q) (displacement (φ q) x) k = 0

/-- The same for the membrane strain alone. -/
def MembraneFree [Fintype ι] (Q : Finset κ) (s : κ → Surf) (φ : κ → ι → Shape) (x : ι × Fin 3 → ℝ) :
    Prop :=
  ∀ q ∈ Q, ∀ k, rateM (s q) (displacement (φ q) x) k = 0

/-- Twice the energy per area of the strains `e` and `k`. -/
def density (S : Section) (e k : Voigt) : ℝ :=
  ∑ i, ∑ j, (e i * S.A i j * e j + k i * S.B i j * e j + e i * S.C i j * k j + k i * S.D i j * k j)

/-- Symmetric moduli. -/
def Symmetric (S : Section) : Prop :=
  (∀ i j, S.A i j = S.A j i) ∧ (∀ i j, S.D i j = S.D j i) ∧ ∀ i j, S.C i j = S.B j i

/-- Every strain costs energy. -/
def Definite (S : Section) : Prop :=
  Symmetric S ∧ ∀ e k : Voigt, ¬ (e = 0 ∧ k = 0) → 0 < density S e k

/-- Only free degrees of freedom are used. -/
def Supported (free : ι × Fin 3 → Prop) (x : ι × Fin 3 → ℝ) : Prop := ∀ p, ¬ free p → x p = 0

/-- `x` solves the equations of the free degrees of freedom. -/
def Solves [Fintype ι] (K : ι × Fin 3 → ι × Fin 3 → ℝ) (free : ι × Fin 3 → Prop)
    (b x : ι × Fin 3 → ℝ) : Prop :=
  Supported free x ∧ ∀ p, free p → ∑ p', K p p' * x p' = b p

/-- Every load has exactly one solution. -/
def WellPosed [Fintype ι] (K : ι × Fin 3 → ι × Fin 3 → ℝ) (free : ι × Fin 3 → Prop) : Prop :=
  ∀ b, ∃! x, Solves K free b x

/-- Displacement of a rigid motion to first order at the points `P`. -/
def rigid (P : ι → V3) (c ω : V3) (p : ι × Fin 3) : ℝ := comp (c + cross ω (P p.1)) p.2

/-- Symmetric tensor of a Voigt vector with doubled shear. -/
noncomputable def tens (v : Voigt) : T2 := ![![v 0, v 2 / 2], ![v 2 / 2, v 1]]

end Verif.Spec.System
