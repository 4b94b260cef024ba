import Verif.Model.WeakForms
import Verif.Spec.Variation

/-! # Specification of boundary, interface and load terms -/

namespace Verif.WeakForms

open V3 Verif.Geometry Verif.Variation

/-- Penalty energy of a prescribed displacement. -/
noncomputable def dirEnergy {d : ℕ} (α μ : ℝ) (u g : Vd d) : ℝ :=
  α / 2 * (∑ i, (u i - g i) ^ 2) * μ

/-- Penalty energy of a displacement jump. -/
noncomputable def jumpEnergy {d : ℕ} (α μ : ℝ) (uL uR : Vd d) : ℝ :=
  α / 2 * (∑ i, (uL i - uR i) ^ 2) * μ

/-- Penalty energy of the change of angle between the normals of the two sides; both orders of the
sides are counted. -/
noncomputable def angleEnergy {F : Type} (α μ : ℝ) (L R : Side F) (nn0 : ℝ) : ℝ :=
  α / 2 * ((dot L.n R.n - nn0) ^ 2 + (dot R.n L.n - nn0) ^ 2) * μ

/-- Penalty energy of the change of angle between the outer normal of one side and the normal of the
other. -/
noncomputable def outerEnergy {F : Type} (α μ : ℝ) (L R : Side F) (lr0 rl0 : ℝ) : ℝ :=
  α / 2 * ((dot L.o R.n - lr0) ^ 2 + (dot R.o L.n - rl0) ^ 2) * μ

/-- Along the curve of sides `S`, the normal changes at `t = 0` by its first variation in the
direction `w`, and the first variation in the direction `v` by the second variation. -/
def NVar {F : Type} (S : ℝ → Side F) (v w : F) : Prop :=
  HasVDeriv (fun t => (S t).n) ((S 0).n1 w) 0 ∧
    HasVDeriv (fun t => (S t).n1 v) ((S 0).n2 v w) 0

/-- The same for the outer normal. -/
def OVar {F : Type} (S : ℝ → Side F) (v w : F) : Prop :=
  HasVDeriv (fun t => (S t).o) ((S 0).o1 w) 0 ∧
    HasVDeriv (fun t => (S t).o1 v) ((S 0).o2 v w) 0

/-- The sides along the motion of a surface in direction `w`; the boundary tangent is `σ a_c`. -/
noncomputable def sideCurve (s w : Surf) (c : Fin 2) (σ : ℝ) (t : ℝ) : Side Surf :=
  sideOf (shift s w t) (σ • (shift s w t).a c)

/-- Penalty energy of weak clamping: change of the normal seen along the outer normal. -/
noncomputable def clampEnergy (α μ : ℝ) (s : Surf) (n0 ν : V3) : ℝ :=
  α / 2 * (dot (unitNormal (s.a 0) (s.a 1)) ν - dot n0 ν) ^ 2 * μ

end Verif.WeakForms
