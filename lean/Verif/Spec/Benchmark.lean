import Verif.Model.Tensor
import Mathlib.Analysis.SpecialFunctions.Pow.Real

/-!
# Specification: closed-form solutions of the unit tests

The formulas of `unittests/gsThinShellAssembler_test.cpp`, transcribed independently of the model:
uniaxial tension (`UAT_analytical`, l.669-742); the inflated balloon is in `Spec/Balloon`.
-/

namespace Verif.Spec.Benchmark

/-- Reference metric of the unit square. -/
def unit : T2 := ![![1, 0], ![0, 1]]

/-- Metric of a rectangle with the sides `x` and `y`. -/
def rect (x y : ℝ) : T2 := ![![x ^ 2, 0], ![0, y ^ 2]]

/-- Axial Cauchy stress of a rectangle stretched by `lam` from the second Piola–Kirchhoff stress `S`
and the volume ratio `J`. -/
noncomputable def cauchy (lam J S : ℝ) : ℝ := lam ^ 2 * S / J

/-- Lateral stretch, incompressible (l.705, 721, 733). -/
noncomputable def lateralI (lam : ℝ) : ℝ := (1 / lam) ^ (0.5 : ℝ)

/-- Lateral stretch, compressible (l.700, 714, 728). -/
noncomputable def lateralC (lam J : ℝ) : ℝ := (J / lam) ^ (0.5 : ℝ)

/-- Stress, incompressible neo-Hookean (l.704). -/
noncomputable def uatNH (mu lam : ℝ) : ℝ := mu * (lam * lam - 1 / lam)

/-- Stress, incompressible Mooney–Rivlin (l.718-720). -/
noncomputable def uatMR (mu ratio lam : ℝ) : ℝ :=
  let c2 := 1 / (ratio + 1);
  let c1 := 1 - c2;
  -mu * (c2 * lam * lam + c2 / lam + c1) / lam + lam * (c1 * lam * mu + 2 * c2 * mu)

/-- Stress, incompressible Ogden with any number of terms (l.732, three terms). -/
noncomputable def uatOG (terms : List (ℝ × ℝ)) (lam : ℝ) : ℝ :=
  (terms.map fun t => -t.1 * (1 / lam) ^ (0.5 * t.2)).sum + (terms.map fun t => t.1 * lam ^ t.2).sum

/-- Bulk modulus (l.697). -/
noncomputable def bulk (mu ν : ℝ) : ℝ := 2 * mu * (1 + ν) / (3 - 6 * ν)

/-- Stress, compressible neo-Hookean (l.699). -/
noncomputable def uatNHc (mu K lam J : ℝ) : ℝ :=
  lam * (0.5 * mu * (-(2 * (lam ^ 2 + 2 * J / lam)) / (3 * J ^ (2 / 3 : ℝ) * lam)
    + 2 * lam / J ^ (2 / 3 : ℝ)) + 0.25 * K * (2 * J ^ 2 / lam - 2 / lam)) / J

/-- Stress, compressible Mooney–Rivlin (l.709-713). -/
noncomputable def uatMRc (mu ratio K lam J : ℝ) : ℝ :=
  let c2 := 1 / (ratio + 1);
  let c1 := 1 - c2;
  lam * (0.5 * c1 * mu * (-(2 * (lam ^ 2 + 2 * J / lam)) / (3 * J ^ (2 / 3 : ℝ) * lam)
    + 2 * lam / J ^ (2 / 3 : ℝ))
    + 0.5 * c2 * mu * (-(4 * (2 * lam * J + J ^ 2 / lam ^ 2)) / (3 * J ^ (4 / 3 : ℝ) * lam)
      + 4 / J ^ (1 / 3 : ℝ))
    + 0.25 * K * (2 * J ^ 2 / lam - 2 / lam)) / J

/-- Stress, compressible Ogden with any number of terms (l.727, three terms). -/
noncomputable def uatOGc (terms : List (ℝ × ℝ)) (K lam J : ℝ) : ℝ :=
  1 / J * (lam * ((terms.map fun t => t.1 * (2 * (lam / J ^ (1 / 3 : ℝ)) ^ t.2 * t.2 / (3 * lam)
      - 2 * ((J / lam) ^ (0.5 : ℝ) / J ^ (1 / 3 : ℝ)) ^ t.2 * t.2 / (3 * lam)) / t.2).sum
    + 0.25 * K * (2 * J ^ 2 / lam - 2 / lam)))

/-- What the unit test expects of a compressible law `S` (in-plane stresses and thickness stress of
the rectangle `x`, `y` with the squared thickness stretch `c`): exactly one lateral stretch and one
thickness stretch make lateral stress and thickness stress zero; the lateral stretch is the one of
the unit test for the resulting volume ratio, there is no shear stress and the axial stress is the
one of the unit test.  In tension the volume does not decrease, in compression it does not
increase. -/
def Tension (S : ℝ → ℝ → Fin 3 → Fin 3 → ℝ) (x : ℝ) (sigma : ℝ → ℝ) : Prop :=
  ∃ y0, 0 < y0 ∧
    (∀ y c, 0 < y → 0 < c → (S y c 1 1 = 0 ∧ S y c 2 2 = 0 ↔ y = y0 ∧ c = y0 ^ 2)) ∧
    S y0 (y0 ^ 2) 0 1 = 0 ∧ y0 = lateralC x (x * y0 ^ 2) ∧
    cauchy x (x * y0 ^ 2) (S y0 (y0 ^ 2) 0 0) = sigma (x * y0 ^ 2) ∧
    (1 ≤ x → 1 ≤ x * y0 ^ 2 ∧ y0 ≤ x) ∧ (x ≤ 1 → x * y0 ^ 2 ≤ 1 ∧ x ≤ y0)

end Verif.Spec.Benchmark
