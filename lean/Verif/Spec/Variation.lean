import Verif.Model.Variation
import Verif.Spec.Geometry
import Mathlib.Analysis.Calculus.Deriv.Basic

/-! # Specification notions for variations -/

namespace Verif.Variation

open V3 Verif.Geometry

/-- Derivative of a vector-valued function of one real variable, by components. -/
def HasVDeriv (f : ℝ → V3) (f' : V3) (t : ℝ) : Prop :=
  HasDerivAt (fun s => (f s).x) f'.x t ∧ HasDerivAt (fun s => (f s).y) f'.y t ∧
    HasDerivAt (fun s => (f s).z) f'.z t

/-- The deformed surface moved by `t` times the field `v`. -/
noncomputable def shift (s v : Surf) (t : ℝ) : Surf :=
  ⟨fun i => s.a i + t • v.a i, s.d11 + t • v.d11, s.d22 + t • v.d22, s.d12 + t • v.d12⟩

/-- Unit normal of a pair of tangents (independent of the model's `normal`). -/
noncomputable def unitNormal (a1 a2 : V3) : V3 :=
  (1 / Real.sqrt (dot (cross a1 a2) (cross a1 a2))) • cross a1 a2

/-- Unit vector. -/
noncomputable def unitVec (t : V3) : V3 := (1 / Real.sqrt (dot t t)) • t

/-- The other parametric direction. -/
def other (c : Fin 2) : Fin 2 := if c = 0 then 1 else 0

/-- `o` points out of the surface across the boundary whose tangent is column `c`: it is
orthogonal to that column and not to the other one. -/
def Crosses (s : Surf) (c : Fin 2) (o : V3) : Prop :=
  dot (s.a c) o = 0 ∧ dot (s.a (other c)) o ≠ 0

/-- Mixed second derivative of the outer normal `t × n` along two fields: `w` is the derivative,
in the direction `v`, of the derivative in the direction `u`. -/
def IsOuterSecond (s : Surf) (c : Fin 2) (σ : ℝ) (u v : Surf) (w : V3) : Prop :=
  ∃ D : ℝ → V3,
    (∀ t, Indep ((shift s v t).a 0) ((shift s v t).a 1) →
      HasVDeriv (fun r => cross (unitVec (σ • (shift (shift s v t) u r).a c))
        (unitNormal ((shift (shift s v t) u r).a 0) ((shift (shift s v t) u r).a 1))) (D t) 0) ∧
    HasVDeriv D w 0

/-- Voigt vector `(E11, E22, 2 E12)` of the Green–Lagrange strain of the mid-surface. -/
noncomputable def voigtMembrane (ori s : Surf) : Voigt :=
  vec3 ((dot (s.a 0) (s.a 0) - dot (ori.a 0) (ori.a 0)) / 2)
    ((dot (s.a 1) (s.a 1) - dot (ori.a 1) (ori.a 1)) / 2)
    (dot (s.a 0) (s.a 1) - dot (ori.a 0) (ori.a 1))

/-- Voigt vector `(K11, K22, 2 K12)` of the change of curvature `b_ori - b`. -/
noncomputable def voigtBending (ori s : Surf) : Voigt :=
  vec3 (dot ori.d11 (unitNormal (ori.a 0) (ori.a 1)) - dot s.d11 (unitNormal (s.a 0) (s.a 1)))
    (dot ori.d22 (unitNormal (ori.a 0) (ori.a 1)) - dot s.d22 (unitNormal (s.a 0) (s.a 1)))
    (2 * (dot ori.d12 (unitNormal (ori.a 0) (ori.a 1)) - dot s.d12 (unitNormal (s.a 0) (s.a 1))))

/-- Sum of two fields. -/
def fieldAdd (u v : Surf) : Surf :=
  ⟨fun i => u.a i + v.a i, u.d11 + v.d11, u.d22 + v.d22, u.d12 + v.d12⟩

/-- Multiple of a field. -/
def fieldSmul (c : ℝ) (u : Surf) : Surf :=
  ⟨fun i => c • u.a i, c • u.d11, c • u.d22, c • u.d12⟩

end Verif.Variation
