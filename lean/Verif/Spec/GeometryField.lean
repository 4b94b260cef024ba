import Verif.Spec.Variation

/-! # Specification: a mid-surface with its tangent fields -/

namespace Verif.Geometry

open V3 Verif.Variation

/-- The mid-surface `r` with tangent fields `a1`, `a2` has the data `s` at the parameters `(0, 0)`. -/
structure IsMidSurface (r a1 a2 : ℝ → ℝ → V3) (s : Surf) : Prop where
  t1 : a1 0 0 = s.a 0
  t2 : a2 0 0 = s.a 1
  r1 : HasVDeriv (fun x => r x 0) (s.a 0) 0
  r2 : HasVDeriv (fun y => r 0 y) (s.a 1) 0
  a11 : HasVDeriv (fun x => a1 x 0) s.d11 0
  a12 : HasVDeriv (fun y => a1 0 y) s.d12 0
  a21 : HasVDeriv (fun x => a2 x 0) s.d12 0
  a22 : HasVDeriv (fun y => a2 0 y) s.d22 0

end Verif.Geometry
