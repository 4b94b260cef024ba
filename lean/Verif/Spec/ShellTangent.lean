import Verif.Spec.Hyper
import Verif.Model.Integrate
import Verif.Spec.Variation

/-!
# Specification: what a tangent and a stress are derivatives of

Independent of the assembled quantities: constitutive consistency of a law at a metric, the rate of
the third fundamental form.
-/

namespace Verif.Spec.ShellTangent

open Verif.Spec.Hyper Verif.Geometry Verif.Variation Verif.Integrate

/-- `T` is twice the derivative of the stress `S` with respect to the metric at `G`, along every
curve of metrics. -/
def IsTangent (S : T2 → Fin 2 → Fin 2 → ℝ) (T : Fin 2 → Fin 2 → Fin 2 → Fin 2 → ℝ) (G : T2) :
    Prop :=
  ∀ C H, Curve C H 0 → C 0 = G → ∀ i j,
    HasDerivAt (fun τ => S (C τ) i j) (1 / 2 * contract T H i j) 0

/-- `S` is twice the derivative of the energy density `ψ` with respect to the metric at `G`. -/
def IsStress (ψ : T2 → ℝ) (S : Fin 2 → Fin 2 → ℝ) (G : T2) : Prop :=
  ∀ C H, Curve C H 0 → C 0 = G →
    HasDerivAt (fun τ => ψ (C τ)) (1 / 2 * ∑ i, ∑ j, S i j * H i j) 0

/-- `T` is the rate of the third fundamental form (products of the derivatives of the normal) of the
surface `s` moved along `v`. -/
def IsThirdRate (s v : Surf) (T : T2) : Prop :=
  ∀ i j, HasDerivAt (fun τ => V3.dot (ncov (shift s v τ) i) (ncov (shift s v τ) j)) (T i j) 0

/-- Voigt vector of half a symmetric matrix, as for strains. -/
noncomputable def half (T : T2) : Voigt := vec3 (T 0 0 / 2) (T 1 1 / 2) (T 0 1)

/-- No curvature at the point. -/
def Flat (s : Surf) : Prop := ∀ i j, Bcov s i j = 0

/-- Energy density of an incompressible neo-Hookean solid whose thickness stretch makes the volume
constant: `A` reference metric, `C` deformed metric. -/
noncomputable def energyNH (μ : ℝ) (A C : T2) : ℝ :=
  μ / 2 * ((∑ i, ∑ j, C i j * inv2 A i j) + det2 A / det2 C - 3)

/-- Energy density of an incompressible Mooney–Rivlin solid, likewise. -/
noncomputable def energyMR (c1 c2 : ℝ) (A C : T2) : ℝ :=
  c1 / 2 * ((∑ i, ∑ j, C i j * inv2 A i j) + det2 A / det2 C - 3)
    + c2 / 2 * (det2 A / det2 C * (∑ i, ∑ j, C i j * inv2 A i j) + det2 C / det2 A - 3)

/-- Neither body is degenerate at the heights of the rule. -/
def Regular (r : Rule) (t : ℝ) (ori s : Surf) : Prop :=
  ∀ j : Fin r.n, det2 (Gblock ori (r.ξ j * t)) ≠ 0 ∧ det2 (Gblock s (r.ξ j * t)) ≠ 0

/-- Energy stored per unit area of the mid-surface, with the rule through the thickness. -/
noncomputable def stored (ψ : T2 → T2 → ℝ) (r : Rule) (t : ℝ) (ori s : Surf) : ℝ :=
  ∑ j, r.w j * ψ (Gblock ori (r.ξ j * t)) (Gblock s (r.ξ j * t)) * t

end Verif.Spec.ShellTangent
