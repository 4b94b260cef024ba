import Verif.Model.TFTSection
import Verif.Model.Hyper
import Verif.Lemmas.Integrate
import Verif.Lemmas.Geometry
import Mathlib.MeasureTheory.Integral.IntervalIntegral.FundThmCalculus

/-! # Auxiliary facts for C116 -/

namespace Verif.TFTSection

open Verif.Geometry Verif.Integrate Verif.Hyper V3
open Verif.Linear (Output StrainKind strainKind)

/-- Values at both heights. -/
theorem section2_ok (r : Rule) (o : Output) (t : ℝ) (f : ℝ → Outcome ℝ) (m : Nat) (a b : ℝ)
    (hm : getMoment o = some m) (ha : f (1 / 2 * t) = .ok a) (hb : f (-(1 / 2) * t) = .ok b) :
    section2 r o t f = .ok (1 / ((m : ℝ) + (if m % 2 = 0 then 0 else 1) + 1) *
      ((1 / 2 * t) ^ (m + 1) * a - (-(1 / 2) * t) ^ (m + 1) * b)) := by
  have hne : ¬ (-(1 / 2) : ℝ) = 1 / 2 := by norm_num
  simp only [section2, ha, hb, Outcome.bind, evalInto, hm, multiplyLinZ, if_true, hne, if_false]

/-- The membrane stress. -/
noncomputable def N (E ν : ℝ) (ori defo : Surf) : Voigt :=
  Linear.stress E ν (Acon ori) (membraneStrain ori defo)

/-- The bending stress. -/
noncomputable def M (E ν : ℝ) (ori defo : Surf) : Voigt :=
  Linear.stress E ν (Acon ori) (bendingStrain ori defo)

/-- The bending moment of the wrapper and of the material itself. -/
theorem moments (E ν slack t : ℝ) (ori defo : Surf) (C : ℝ → T3) (tf : ℝ → Int) (θ : ℝ → ℝ)
    (r : Rule) (k : Fin 3) (h1 : tf (1 / 2 * t) = 1) (h2 : tf (-(1 / 2) * t) = 1) :
    section2 r .vectorM t (fun z =>
        (tftStress (linStress E ν ori defo) C slack tf θ .vectorM z).map fun S => S k) = .ok 0 ∧
    section0 r .vectorM t (fun z => (linStress E ν ori defo .vectorM z).map fun S => S k) =
      .ok (t ^ 3 / 12 * M E ν ori defo k) := by
  constructor
  · rw [section2_ok r .vectorM t _ 1 (N E ν ori defo k) (N E ν ori defo k) rfl]
    · simp
    · simp only [tftStress, linStress, strainKind, linStrain, Outcome.map, Outcome.bind,
        TFT.evalStress, h1, if_true, N]
    · simp only [tftStress, linStress, strainKind, linStrain, Outcome.map, Outcome.bind,
        TFT.evalStress, h2, if_true, N]
  · simp [section0, linStress, strainKind, linStrain, Outcome.map, Outcome.bind, evalInto,
      constMoment, multiplyZ, M]
    ring

/-- A unit square. -/
def square : Surf := ⟨![⟨1, 0, 0⟩, ⟨0, 1, 0⟩], 0, 0, 0⟩

/-- A square stretched by 2, curved by `β` in the first and by `γ` in the second direction. -/
def curved (β γ : ℝ) : Surf := ⟨![⟨2, 0, 0⟩, ⟨0, 2, 0⟩], ⟨0, 0, β⟩, ⟨0, 0, γ⟩, 0⟩

theorem square_normal : normal square = ⟨0, 0, 1⟩ := by
  ext <;> simp [normal, square, normalized, V3.norm, cross, dot]

theorem curved_normal (β γ : ℝ) : normal (curved β γ) = ⟨0, 0, 1⟩ := by
  have h : Real.sqrt (2 * 2 * (2 * 2)) = 4 := by
    rw [show (2 * 2 * (2 * 2) : ℝ) = 4 ^ 2 by norm_num]; exact Real.sqrt_sq (by norm_num)
  ext <;> simp [normal, curved, normalized, V3.norm, cross, dot, h]
  norm_num

theorem square_Acov (i j : Fin 2) : Acov square i j = if i = j then 1 else 0 := by
  rcases fin2_cases i with rfl | rfl <;> rcases fin2_cases j with rfl | rfl <;>
    simp [Acov, square, dot]

theorem square_Acon : Acon square = ![![1, 0], ![0, 1]] := by
  funext i j
  rcases fin2_cases i with rfl | rfl <;> rcases fin2_cases j with rfl | rfl <;>
    simp [Acon, inv2, det2, square_Acov]

theorem square_Bcov (i j : Fin 2) : Bcov square i j = 0 := by
  rcases fin2_cases i with rfl | rfl <;> rcases fin2_cases j with rfl | rfl <;>
    simp [Bcov, square_normal] <;> simp [square, dot]

theorem square_Gblock (z : ℝ) : Gblock square z = ![![1, 0], ![0, 1]] := by
  funext i j
  rcases fin2_cases i with rfl | rfl <;> rcases fin2_cases j with rfl | rfl <;>
    simp [Gblock, ncov, mixedB, square_Bcov, square_Acov, dot]

theorem curved_Acov (β γ : ℝ) (i j : Fin 2) : Acov (curved β γ) i j = if i = j then 4 else 0 := by
  rcases fin2_cases i with rfl | rfl <;> rcases fin2_cases j with rfl | rfl <;>
    simp [Acov, curved, dot] <;> norm_num

theorem curved_Bcov (β γ : ℝ) : Bcov (curved β γ) = ![![β, 0], ![0, γ]] := by
  funext i j
  rcases fin2_cases i with rfl | rfl <;> rcases fin2_cases j with rfl | rfl <;>
    simp [Bcov, curved_normal] <;> simp [curved, dot]

theorem curved_Gblock (β γ z : ℝ) :
    Gblock (curved β γ) z = ![![(2 - z * β / 2) ^ 2, 0], ![0, (2 - z * γ / 2) ^ 2]] := by
  have h00 : Acon (curved β γ) 0 0 = 1 / 4 := by
    simp [Acon, inv2, det2, curved_Acov]
  have h01 : Acon (curved β γ) 0 1 = 0 := by simp [Acon, inv2, curved_Acov]
  have h10 : Acon (curved β γ) 1 0 = 0 := by simp [Acon, inv2, curved_Acov]
  have h11 : Acon (curved β γ) 1 1 = 1 / 4 := by
    simp [Acon, inv2, det2, curved_Acov]
  funext i j
  rcases fin2_cases i with rfl | rfl <;> rcases fin2_cases j with rfl | rfl <;>
    simp [Gblock, curved_Acov, ncov, mixedB, h00, h01, h10, h11, curved_Bcov] <;>
    simp [curved, dot] <;> ring

/-- Stress of the incompressible neo-Hookean material at the height `z`. -/
noncomputable def neoHooke (p : Par) (ori defo : Surf) (_o : Output) (z : ℝ) : Outcome Voigt :=
  .ok (vec3 (sNH p (data (Gblock ori z) (Gblock defo z)) 0 0)
    (sNH p (data (Gblock ori z) (Gblock defo z)) 1 1)
    (sNH p (data (Gblock ori z) (Gblock defo z)) 0 1))

theorem integral_pow4 : ∫ z in (-(1 / 2 : ℝ))..(1 / 2), 1 / (2 - z) ^ 4
    = (8 / 27 - 8 / 125) / 3 := by
  have hd : ∀ z ∈ Set.uIcc (-(1 / 2 : ℝ)) (1 / 2),
      HasDerivAt (fun z : ℝ => ((2 - z) ^ 3)⁻¹ / 3) (1 / (2 - z) ^ 4) z := by
    intro z hz
    rw [Set.uIcc_of_le (by norm_num)] at hz
    have hne : 2 - z ≠ 0 := by have := hz.2; intro h; linarith
    have h1 : HasDerivAt (fun z : ℝ => 2 - z) (-1) z := by
      simpa using (hasDerivAt_id' z).const_sub 2
    have h3 := ((h1.pow 3).inv (pow_ne_zero 3 hne)).div_const 3
    refine h3.congr_deriv ?_
    show -(3 * (2 - z) ^ (3 - 1) * -1) / ((2 - z) ^ 3) ^ 2 / 3 = _
    field_simp
  rw [intervalIntegral.integral_eq_sub_of_hasDerivAt hd]
  · norm_num
  · apply ContinuousOn.intervalIntegrable
    intro z hz
    rw [Set.uIcc_of_le (by norm_num)] at hz
    have hne : (2 - z) ^ 4 ≠ 0 := by
      apply pow_ne_zero; have := hz.2; intro h; linarith
    exact (continuousAt_const.div (by fun_prop : ContinuousAt (fun z : ℝ => (2 - z) ^ 4) z) hne).continuousWithinAt

end Verif.TFTSection
