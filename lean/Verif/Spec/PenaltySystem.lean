import Verif.Spec.System
import Verif.Spec.WeakForms
import Verif.Model.PenaltySystem

/-!
# Specification: weak conditions as constraints

What the conditions mean for a displacement with coefficients `x`, and the problem with the
conditions as exact constraints.
-/

namespace Verif.Spec.PenaltySystem

open V3 Verif.Geometry Verif.Variation Verif.Balance Verif.WeakForms Verif.Spec.System
open Verif.PenaltySystem

variable {ι κ : Type} [Fintype ι]

/-- Value of the displacement where the basis functions have the values `N`. -/
def value (N : ι → ℝ) (x : ι × Fin 3 → ℝ) : Vd 3 := fun j => ∑ i, N i * x (i, j)

/-- Rate of the component of the normal along `ν`. -/
noncomputable def tilt (s : Surf) (φ : ι → Shape) (ν : V3) (x : ι × Fin 3 → ℝ) : ℝ :=
  deriv (fun t => dot (normal (shift s (displacement φ x) t)) ν) 0

/-- Rates of the three angles at a weak C1 interface: between the normals, and between the outer
normal of one side and the normal of the other. -/
noncomputable def kink (D : Hinge ι κ) (q : κ) (x : ι × Fin 3 → ℝ) : V3 :=
  let L := sideCurve (D.sL q) (displacement (D.φL q) x) (D.cL q) (D.σL q)
  let R := sideCurve (D.sR q) (displacement (D.φR q) x) (D.cR q) (D.σR q)
  ⟨deriv (fun t => dot (L t).n (R t).n) 0, deriv (fun t => dot (L t).o (R t).n) 0,
    deriv (fun t => dot (R t).o (L t).n) 0⟩

/-- No jump at C0 interfaces, no tilt at clamped sides, no kink at C1 interfaces. -/
def Coupled (W : Weak ι κ) (x : ι × Fin 3 → ℝ) : Prop :=
  (∀ q ∈ W.clamp.Q, tilt (W.clamp.s q) (W.clamp.φ q) (W.clamp.ν q) x = 0) ∧
  (∀ q ∈ W.joint.Q, value (W.joint.NL q) x = value (W.joint.NR q) x) ∧
  ∀ q ∈ W.hinge.Q, kink W.hinge q x = 0

/-- The displacement at the points of the weak Dirichlet conditions is the given one. -/
def Prescribed (D : Dirichlet ι κ) (g : κ → Vd 3) (x : ι × Fin 3 → ℝ) : Prop :=
  ∀ q ∈ D.Q, value (D.N q) x = g q

/-- All factors are positive and all points regular. -/
def Proper (W : Weak ι κ) : Prop :=
  (∀ q ∈ W.dir.Q, 0 < W.dir.wt q ∧ 0 < W.dir.a q ∧ 0 < W.dir.μ q) ∧
  (∀ q ∈ W.clamp.Q, 0 < W.clamp.wt q ∧ 0 < W.clamp.a q ∧ 0 < W.clamp.μ q ∧
    Indep ((W.clamp.s q).a 0) ((W.clamp.s q).a 1)) ∧
  (∀ q ∈ W.joint.Q, 0 < W.joint.wt q ∧ 0 < W.joint.a q ∧ 0 < W.joint.μ q) ∧
  ∀ q ∈ W.hinge.Q, 0 < W.hinge.wt q ∧ 0 < W.hinge.a q ∧ 0 < W.hinge.μ q ∧
    Indep ((W.hinge.sL q).a 0) ((W.hinge.sL q).a 1) ∧
    Indep ((W.hinge.sR q).a 0) ((W.hinge.sR q).a 1) ∧
    (W.hinge.σL q = 1 ∨ W.hinge.σL q = -1) ∧ (W.hinge.σR q = 1 ∨ W.hinge.σR q = -1)

/-- All options are positive. -/
def Positive (o : Options) : Prop := 0 < o.dBc ∧ 0 < o.rBc ∧ 0 < o.ifc

/-- `u` solves the problem with the matrix `K` and the loads `F` among all displacements of the free
degrees of freedom that meet the conditions `A`; `H` are the conditions for their differences. -/
def Constrained (K : ι × Fin 3 → ι × Fin 3 → ℝ) (free : ι × Fin 3 → Prop) (F : ι × Fin 3 → ℝ)
    (A H : (ι × Fin 3 → ℝ) → Prop) (u : ι × Fin 3 → ℝ) : Prop :=
  Supported free u ∧ A u ∧ ∀ v, Supported free v → H v →
    ∑ p, v p * ∑ p', K p p' * u p' = ∑ p, v p * F p

/-- `x · K x`. -/
def form (K : ι × Fin 3 → ι × Fin 3 → ℝ) (x : ι × Fin 3 → ℝ) : ℝ := ∑ p, ∑ p', x p * K p p' * x p'

end Verif.Spec.PenaltySystem
