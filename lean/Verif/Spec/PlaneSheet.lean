import Verif.Model.PlaneSheet
import Verif.Spec.PlanarSystem
import Mathlib.Analysis.SpecialFunctions.Log.Basic
import Mathlib.Analysis.SpecialFunctions.Pow.Real

/-!
# Specification: sheets of compressible material in plane stress

The three-dimensional energy densities of the materials, the energy of a sheet whose thickness takes the
value of least energy, and the thickness stretch without stress across the thickness.
-/

namespace Verif.Spec.PlaneSheet

open Verif.PlaneSheet Verif.Hyper

/-- Trace of the metric `C` with the inverse of `A`. -/
noncomputable def tr (A C : T2) : ℝ := ∑ i, ∑ j, C i j * inv2 A i j

/-- Volumetric energy with the bulk modulus `K` for the squared volume ratio `w`. -/
noncomputable def volume (K w : ℝ) : ℝ := K / 4 * (w - 1 - Real.log w)

/-- Energy density of the three materials with the undeformed metric `A`, the deformed metric `C` and
the squared thickness stretch `x`. -/
noncomputable def energy : Solid → Par → T2 → T2 → ℝ → ℝ
  | .neoHooke => fun p A C x => p.mu / 2 * ((det2 C / det2 A * x) ^ (-1 / 3 : ℝ) * (tr A C + x) - 3)
      + volume p.K (det2 C / det2 A * x)
  | .mooneyRivlin => fun p A C x => p.c1 / 2 * ((det2 C / det2 A * x) ^ (-1 / 3 : ℝ) * (tr A C + x) - 3)
      + p.c2 / 2 * ((det2 C / det2 A * x) ^ (-2 / 3 : ℝ) * (x * tr A C + det2 C / det2 A) - 3)
      + volume p.K (det2 C / det2 A * x)
  | .extended => fun p A C x => p.mu / 2 * (tr A C + x - 3 - Real.log (det2 C / det2 A * x))
      + volume p.lam (det2 C / det2 A * x)

/-- The least energy over all thickness stretches. -/
noncomputable def density (s : Solid) (p : Par) (A C : T2) : ℝ := ⨅ x : {x : ℝ // 0 < x}, energy s p A C x

/-- Positive constants; a Poisson's ratio that is not negative for the extended material. -/
def Positive : Solid → Par → Prop
  | .neoHooke => fun p => 0 < p.mu ∧ 0 < p.K
  | .mooneyRivlin => fun p => 0 < p.c1 ∧ 0 < p.c2 ∧ 0 < p.K
  | .extended => fun p => 0 < p.mu ∧ 0 ≤ p.lam

/-- Constants of a solid: positive modulus, Poisson's ratio between -1 and 1/2, positive ratio of the
Mooney–Rivlin constants; a Poisson's ratio that is not negative for the extended material. -/
structure Constants (s : Solid) (p : Par) : Prop where
  modulus : 0 < p.E
  lower : -1 < p.ν
  upper : p.ν < 1 / 2
  ratio : s = .mooneyRivlin → 0 < p.r
  sign : s = .extended → 0 ≤ p.ν

open Classical in
/-- The thickness stretch without stress across the thickness (one if there is none). -/
noncomputable def exact (s : Solid) (p : Par) (D : Data) : ℝ :=
  if h : ∃ x, 0 < x ∧ s.stress p (cdata D x) 2 2 = 0 then h.choose else 1

end Verif.Spec.PlaneSheet
