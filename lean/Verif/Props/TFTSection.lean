import Verif.Lemmas.TFTSection
import Verif.Props.Integrate
import Verif.Props.Principal

/-! # Property C116: section quantities of the tension-field material -/

namespace Verif.TFTSection

open Verif.Geometry Verif.Integrate Verif.Hyper V3
open Verif.Linear (Output StrainKind strainKind)

/-- **C116** Wrapped linear material, taut at both heights: the membrane force is that of the material
that is not wrapped, and the thickness times the membrane stress. -/
theorem C116_membrane (E ν slack t : ℝ) (ori defo : Surf) (C : ℝ → T3) (tf : ℝ → Int) (θ : ℝ → ℝ)
    (r : Rule) (k : Fin 3) (h1 : tf (1 / 2 * t) = 1) (h2 : tf (-(1 / 2) * t) = 1) :
    section2 r .vectorN t (fun z =>
        (tftStress (linStress E ν ori defo) C slack tf θ .vectorN z).map fun S => S k) =
      section0 r .vectorN t (fun z => (linStress E ν ori defo .vectorN z).map fun S => S k) ∧
    section0 r .vectorN t (fun z => (linStress E ν ori defo .vectorN z).map fun S => S k) =
      .ok (t * N E ν ori defo k) := by
  have e : section0 r .vectorN t (fun z => (linStress E ν ori defo .vectorN z).map fun S => S k) =
      .ok (t * N E ν ori defo k) := by
    simp [section0, linStress, strainKind, linStrain, Outcome.map, Outcome.bind, evalInto,
      constMoment, multiplyZ, N]
    ring
  refine ⟨?_, e⟩
  rw [e, section2_ok r .vectorN t _ 0 (N E ν ori defo k) (N E ν ori defo k) rfl]
  · simp; ring
  · simp [tftStress, linStress, strainKind, linStrain, Outcome.map, Outcome.bind, TFT.evalStress,
      N]
    simp only [one_div] at h1
    simp [h1]
  · simp [tftStress, linStress, strainKind, linStrain, Outcome.map, Outcome.bind, TFT.evalStress,
      N]
    simp only [one_div] at h2
    simp only [neg_mul] at h2 ⊢
    simp [h2]

/-- **C116** … and so are the four stiffnesses. -/
theorem C116_stiffness (E ν slack t : ℝ) (ori : Surf) (S : ℝ → Voigt) (tf : ℝ → Int) (θ : ℝ → ℝ)
    (r : Rule) (i j : Fin 3) (h1 : tf (1 / 2 * t) = 1) (h2 : tf (-(1 / 2) * t) = 1) (o : Output)
    (ho : o = .matrixA ∨ o = .matrixB ∨ o = .matrixC ∨ o = .matrixD) :
    section2 r o t (fun z =>
        (tftMatrix (fun _ => Linear.matrix E ν (Acon ori)) S slack tf θ z).map fun C => C i j) =
      section0 r o t (fun _ => .ok (Linear.matrix E ν (Acon ori) i j)) := by
  have v1 : (tftMatrix (fun _ => Linear.matrix E ν (Acon ori)) S slack tf θ (1 / 2 * t)).map
      (fun C => C i j) = .ok (Linear.matrix E ν (Acon ori) i j) := by
    rw [tftMatrix, if_pos h1]; rfl
  have v2 : (tftMatrix (fun _ => Linear.matrix E ν (Acon ori)) S slack tf θ (-(1 / 2) * t)).map
      (fun C => C i j) = .ok (Linear.matrix E ν (Acon ori) i j) := by
    rw [tftMatrix, if_pos h2]; rfl
  rcases ho with rfl | rfl | rfl | rfl
  · rw [section2_ok r _ t _ 0 _ _ rfl v1 v2]
    simp [section0, Outcome.bind, evalInto, constMoment, getMoment, multiplyZ]
    ring
  · rw [section2_ok r _ t _ 1 _ _ rfl v1 v2]
    simp [section0, Outcome.bind, evalInto, constMoment, getMoment, multiplyZ]
  · rw [section2_ok r _ t _ 1 _ _ rfl v1 v2]
    simp [section0, Outcome.bind, evalInto, constMoment, getMoment, multiplyZ]
  · rw [section2_ok r _ t _ 2 _ _ rfl v1 v2]
    simp [section0, Outcome.bind, evalInto, constMoment, getMoment, multiplyZ]
    ring

/-- **C116** (partial) The bending moment of the taut wrapped linear material is right exactly if the
right one is zero. -/
theorem C116_moment_partial (E ν slack t : ℝ) (ori defo : Surf) (C : ℝ → T3) (tf : ℝ → Int)
    (θ : ℝ → ℝ) (r : Rule) (k : Fin 3) (ht : t ≠ 0) (h1 : tf (1 / 2 * t) = 1)
    (h2 : tf (-(1 / 2) * t) = 1) :
    section2 r .vectorM t (fun z =>
        (tftStress (linStress E ν ori defo) C slack tf θ .vectorM z).map fun S => S k) =
      section0 r .vectorM t (fun z => (linStress E ν ori defo .vectorM z).map fun S => S k) ↔
    Linear.stress E ν (Acon ori) (bendingStrain ori defo) k = 0 := by
  obtain ⟨a, b⟩ := moments E ν slack t ori defo C tf θ r k h1 h2
  rw [a, b]
  have h3 : t ^ 3 / 12 ≠ 0 := by positivity
  constructor
  · intro h
    have := Outcome.ok.inj h
    rcases mul_eq_zero.mp this.symm with h | h
    · exact absurd h h3
    · exact h
  · intro h
    have : M E ν ori defo k = 0 := h
    rw [this, mul_zero]

/-- **C116** is violated: the bending moment of the taut wrapped linear material is zero, for every
thickness, deformation and material; the one of the material itself is not, for instance for a
square stretched by 2 and bent to a cylinder (Poisson's ratio 0), which is taut at both heights; and
the bending stiffness `D` is not zero either. -/
theorem C116_moment_violated :
    (∀ (E ν slack t : ℝ) (ori defo : Surf) (C : ℝ → T3) (tf : ℝ → Int) (θ : ℝ → ℝ) (r : Rule)
      (k : Fin 3), tf (1 / 2 * t) = 1 → tf (-(1 / 2) * t) = 1 →
      section2 r .vectorM t (fun z =>
        (tftStress (linStress E ν ori defo) C slack tf θ .vectorM z).map fun S => S k) = .ok 0) ∧
    (∀ z, strainAt square (curved 1 0) z = ![![((2 - z / 2) ^ 2 - 1) / 2, 0], ![0, 3 / 2]]) ∧
    (∀ r, section0 r .vectorM 1 (fun z => (linStress 1 0 square (curved 1 0) .vectorM z).map
      fun S => S 0) = .ok (-(1 / 12))) ∧
    (∀ r, section0 r .matrixD 1 (fun _ => .ok (Linear.matrix 1 0 (Acon square) 0 0)) =
      .ok (1 / 12)) := by
  refine ⟨fun E ν slack t ori defo C tf θ r k h1 h2 =>
    (moments E ν slack t ori defo C tf θ r k h1 h2).1, ?_, ?_, ?_⟩
  · intro z
    funext i j
    rcases fin2_cases i with rfl | rfl <;> rcases fin2_cases j with rfl | rfl <;>
      simp [strainAt, square_Gblock, curved_Gblock] <;> ring
  · intro r
    rw [(moments 1 0 0 1 square (curved 1 0) (fun _ => 0) (fun _ => 1) (fun _ => 0) r 0 rfl rfl).2]
    simp [M, Linear.stress, Linear.Sij, Linear.Cval, Linear.Cconst, Linear.lam, Linear.mu, square_Acon,
      bendingStrain, square_Bcov, curved_Bcov]
    norm_num
  · intro r
    simp [section0, Outcome.bind, evalInto, constMoment, getMoment, multiplyZ, Linear.matrix,
      Linear.Cval, Linear.Cconst, Linear.lam, Linear.mu, square_Acon]
    norm_num

/-- Non-vacuity: the deformed square is taut at both heights (strain criterion: both principal strains
are positive). -/
example : TFT.tensionField 0 0 0 (((2 - (1 / 2 : ℝ) / 2) ^ 2 - 1) / 2) (3 / 2) = .ok 1 ∧
    TFT.tensionField 0 0 0 (3 / 2) (((2 - (-(1 / 2) : ℝ) / 2) ^ 2 - 1) / 2) = .ok 1 := by
  constructor <;>
  · show Outcome.ok (TFT.fieldOf _ _ _) = _
    congr 1
    unfold TFT.fieldOf
    rw [if_pos (Or.inl (by norm_num))]

/-- **C116** is violated: the pointwise stress outputs of the taut wrapped linear material are the
membrane stress for every kind asked for and every height; the flexural and the total stress of the
material itself are other stresses. -/
theorem C116_pointwise_violated (E ν slack : ℝ) (ori defo : Surf) (C : ℝ → T3) (tf : ℝ → Int)
    (θ : ℝ → ℝ) (z : ℝ) (h : tf z = 1) :
    (∀ o, tftStress (linStress E ν ori defo) C slack tf θ o z =
      .ok (Linear.stress E ν (Acon ori) (membraneStrain ori defo))) ∧
    linStress E ν ori defo .stressM z =
      .ok (Linear.stress E ν (Acon ori) (bendingStrain ori defo)) ∧
    linStress E ν ori defo .stress z = .ok (Linear.stress E ν (Acon ori) (strainAt ori defo z)) ∧
    Linear.stress 1 0 (Acon square) (membraneStrain square (curved 1 0)) ≠
      Linear.stress 1 0 (Acon square) (bendingStrain square (curved 1 0)) ∧
    Linear.stress 1 0 (Acon square) (membraneStrain square (curved 1 0)) ≠
      Linear.stress 1 0 (Acon square) (strainAt square (curved 1 0) 1) := by
  refine ⟨?_, rfl, rfl, ?_, ?_⟩
  · intro o
    simp only [tftStress, linStress, strainKind, linStrain, Outcome.map, Outcome.bind,
      TFT.evalStress, h, if_true]
  · intro he
    have := congrFun he 0
    simp [Linear.stress, Linear.Sij, Linear.Cval, Linear.Cconst, Linear.lam, Linear.mu, square_Acon,
      bendingStrain, membraneStrain, square_Bcov, curved_Bcov, square_Acov, curved_Acov] at this
    norm_num at this
  · intro he
    have := congrFun he 0
    simp [Linear.stress, Linear.Sij, Linear.Cval, Linear.Cconst, Linear.lam, Linear.mu, square_Acon,
      strainAt, membraneStrain, square_Gblock, curved_Gblock, square_Acov, curved_Acov] at this
    norm_num at this

/-- **C116** (partial: kinds that mean the membrane part, or no curvature) The pointwise stress
outputs of the taut wrapped linear material are those of the material itself. -/
theorem C116_pointwise_partial (E ν slack : ℝ) (ori defo : Surf) (C : ℝ → T3) (tf : ℝ → Int)
    (θ : ℝ → ℝ) (z : ℝ) (h : tf z = 1) (o : Output)
    (ho : strainKind o = .ok .membrane ∨
      strainKind o = .ok .full ∧ strainAt ori defo z = membraneStrain ori defo) :
    tftStress (linStress E ν ori defo) C slack tf θ o z = linStress E ν ori defo o z := by
  have e : tftStress (linStress E ν ori defo) C slack tf θ o z =
      .ok (Linear.stress E ν (Acon ori) (membraneStrain ori defo)) := by
    simp only [tftStress, linStress, strainKind, linStrain, Outcome.map, Outcome.bind,
      TFT.evalStress, h, if_true]
  rw [e]
  rcases ho with ho | ⟨ho, hz⟩
  · simp only [linStress, ho, Outcome.map, linStrain]
  · simp only [linStress, ho, Outcome.map, linStrain, hz]

/-- Non-vacuity: the flat square stretched by 2 has no curvature. -/
example (z : ℝ) : strainAt square (curved 0 0) z = membraneStrain square (curved 0 0) := by
  funext i j
  rcases fin2_cases i with rfl | rfl <;> rcases fin2_cases j with rfl | rfl <;>
    simp [strainAt, membraneStrain, square_Gblock, curved_Gblock, square_Acov, curved_Acov] <;>
    norm_num

/-- **C116** (partial: any wrapped material whose stress is affine in the height) Force and moment of
the taut wrapper are the exact integrals of the stress. -/
theorem C116_affine_partial (g h slack t : ℝ) (inner : Output → ℝ → Outcome Voigt) (C : ℝ → T3)
    (tf : ℝ → Int) (θ : ℝ → ℝ) (r : Rule) (k : Fin 3) (h1 : tf (1 / 2 * t) = 1)
    (h2 : tf (-(1 / 2) * t) = 1)
    (hi : ∀ z, (inner .vectorN z).map (fun S => S k) = .ok (g + h * z)) :
    section2 r .vectorN t (fun z => (tftStress inner C slack tf θ .vectorN z).map fun S => S k) =
      .ok (moment t 0 fun z => g + h * z) ∧
    section2 r .vectorM t (fun z => (tftStress inner C slack tf θ .vectorM z).map fun S => S k) =
      .ok (moment t 1 fun z => g + h * z) := by
  have v : ∀ o z, tf z = 1 → (tftStress inner C slack tf θ o z).map (fun S => S k) =
      .ok (g + h * z) := by
    intro o z hz
    rw [← hi z]
    simp only [tftStress]
    cases inner .vectorN z <;> simp [Outcome.bind, Outcome.map, TFT.evalStress, hz]
  constructor
  · rw [section2_ok r .vectorN t _ 0 _ _ rfl (v _ _ h1) (v _ _ h2), moment_linear]
    congr 1
    simp
    ring
  · rw [section2_ok r .vectorM t _ 1 _ _ rfl (v _ _ h1) (v _ _ h2), moment_linear]
    congr 1
    simp
    ring

/-- Non-vacuity: a stress that grows with the height. -/
example (z : ℝ) : ((fun _ z => .ok (fun _ => 3 + 2 * z) : Output → ℝ → Outcome Voigt) .vectorN z).map
    (fun S => S 0) = .ok (3 + 2 * z) := rfl

/-- **C116** is violated: a neo-Hookean square stretched by 2 and bent to a cylinder is in tension at
every height; the membrane force of the wrapper differs from the integral of the stress, since the
stress is not affine in the height. -/
theorem C116_nonlinear_violated (p : Par) (hp : 0 < p.mu) (C : ℝ → T3) (slack : ℝ) (θ : ℝ → ℝ)
    (r : Rule) :
    (∀ z ∈ Set.Icc (-(1 / 2 : ℝ)) (1 / 2), ∃ S, neoHooke p square (curved 2 0) .vectorN z = .ok S ∧
      0 < S 0 ∧ 0 < S 1 ∧ S 2 = 0 ∧ S 0 = p.mu * (1 - 1 / 4 * (1 / (2 - z) ^ 4))) ∧
    section2 r .vectorN 1 (fun z => (tftStress (neoHooke p square (curved 2 0)) C slack (fun _ => 1) θ
      .vectorN z).map fun S => S 0) = .ok (p.mu * (1 - (2 / 81 + 2 / 625))) ∧
    moment 1 0 (fun z => p.mu * (1 - 1 / 4 * (1 / (2 - z) ^ 4))) =
      p.mu * (1 - (8 / 27 - 8 / 125) / 12) ∧
    p.mu * (1 - (2 / 81 + 2 / 625)) ≠ p.mu * (1 - (8 / 27 - 8 / 125) / 12) := by
  have hs : ∀ z ∈ Set.Icc (-(1 / 2 : ℝ)) (1 / 2),
      neoHooke p square (curved 2 0) .vectorN z =
        .ok (vec3 (p.mu * (1 - 1 / 4 * (1 / (2 - z) ^ 4))) (p.mu * (1 - 1 / 16 * (1 / (2 - z) ^ 2)))
          0) := by
    intro z hz
    have hne : 2 - z ≠ 0 := by have := hz.2; intro h; linarith
    have e1 : sNH p (data (Gblock square z) (Gblock (curved 2 0) z)) 0 0
        = p.mu * (1 - 1 / 4 * (1 / (2 - z) ^ 4)) := by
      simp [sNH, data, embed, inv2, det2, square_Gblock, curved_Gblock]
      left
      field_simp
      norm_num
    have e2 : sNH p (data (Gblock square z) (Gblock (curved 2 0) z)) 1 1
        = p.mu * (1 - 1 / 16 * (1 / (2 - z) ^ 2)) := by
      simp [sNH, data, embed, inv2, det2, square_Gblock, curved_Gblock]
      left
      field_simp
      norm_num
    have e3 : sNH p (data (Gblock square z) (Gblock (curved 2 0) z)) 0 1 = 0 := by
      simp [sNH, data, embed, inv2, det2, square_Gblock, curved_Gblock]
    rw [neoHooke, e1, e2, e3]
  refine ⟨?_, ?_, ?_, ?_⟩
  · intro z hz
    refine ⟨_, hs z hz, ?_, ?_, by simp, by simp⟩
    · have h2 : (1 : ℝ) ≤ 2 - z := by have := hz.2; linarith
      have h4 : (1 : ℝ) ≤ (2 - z) ^ 4 := one_le_pow₀ h2
      have : 1 / (2 - z) ^ 4 ≤ 1 := by rw [div_le_one (by linarith)]; exact h4
      simp only [vec3_zero]
      apply mul_pos hp; linarith
    · have h2 : (1 : ℝ) ≤ 2 - z := by have := hz.2; linarith
      have h4 : (1 : ℝ) ≤ (2 - z) ^ 2 := one_le_pow₀ h2
      have : 1 / (2 - z) ^ 2 ≤ 1 := by rw [div_le_one (by linarith)]; exact h4
      simp only [vec3_one]
      apply mul_pos hp; linarith
  · rw [section2_ok r .vectorN 1 _ 0 (p.mu * (1 - 1 / 4 * (1 / (2 - 1 / 2) ^ 4)))
      (p.mu * (1 - 1 / 4 * (1 / (2 - -(1 / 2)) ^ 4))) rfl]
    · congr 1
      simp
      ring
    · rw [mul_one]
      simp only [tftStress, hs (1 / 2) (by constructor <;> norm_num), Outcome.bind, TFT.evalStress,
        if_true, Outcome.map, vec3_zero]
    · rw [mul_one]
      simp only [tftStress, hs (-(1 / 2)) (by constructor <;> norm_num), Outcome.bind,
        TFT.evalStress, if_true, Outcome.map, vec3_zero]
  · unfold moment
    simp only [pow_zero, one_mul]
    have hi : IntervalIntegrable (fun z : ℝ => 1 / 4 * (1 / (2 - z) ^ 4)) MeasureTheory.volume
        (-(1 / 2)) (1 / 2) := by
      apply ContinuousOn.intervalIntegrable
      intro z hz
      rw [Set.uIcc_of_le (by norm_num)] at hz
      have hne : (2 - z) ^ 4 ≠ 0 := by
        apply pow_ne_zero; have := hz.2; intro h; linarith
      exact (continuousAt_const.mul (continuousAt_const.div
        (by fun_prop : ContinuousAt (fun z : ℝ => (2 - z) ^ 4) z) hne)).continuousWithinAt
    rw [intervalIntegral.integral_const_mul, intervalIntegral.integral_sub (by simp) hi,
      intervalIntegral.integral_const_mul, integral_pow4]
    simp
    norm_num
  · intro h
    have := mul_left_cancel₀ hp.ne' h
    norm_num at this

/-- **C116** is violated: the membrane force of the wrapped linear material depends on the curvature.
Both squares have the same membrane strain (stretch 2) and thickness 1; the flat one is taut at both
heights, the curved one is slack at the upper side, where its stress is dropped: with the default
multiplier 0 the force is halved. -/
theorem C116_curvature_violated (E ν slack : ℝ) (C : ℝ → T3) (θ : ℝ → ℝ) (r : Rule) (k : Fin 3) :
    membraneStrain square (curved 6 6) = membraneStrain square (curved 0 0) ∧
    (∀ z, strainAt square (curved 0 0) z = ![![3 / 2, 0], ![0, 3 / 2]]) ∧
    strainAt square (curved 6 6) (1 / 2) = ![![-3 / 8, 0], ![0, -3 / 8]] ∧
    strainAt square (curved 6 6) (-(1 / 2)) = ![![45 / 8, 0], ![0, 45 / 8]] ∧
    TFT.tensionField 0 0 0 (3 / 2) (3 / 2) = .ok 1 ∧
    TFT.tensionField 0 0 0 (-3 / 8) (-3 / 8) = .ok (-1) ∧
    TFT.tensionField 0 0 0 (45 / 8) (45 / 8) = .ok 1 ∧
    section2 r .vectorN 1 (fun z => (tftStress (linStress E ν square (curved 0 0)) C slack
      (fun _ => 1) θ .vectorN z).map fun S => S k) = .ok (N E ν square (curved 0 0) k) ∧
    section2 r .vectorN 1 (fun z => (tftStress (linStress E ν square (curved 6 6)) C slack
      (fun z => if z = 1 / 2 then -1 else 1) θ .vectorN z).map fun S => S k) =
      .ok ((1 + slack) / 2 * N E ν square (curved 0 0) k) := by
  have hm : membraneStrain square (curved 6 6) = membraneStrain square (curved 0 0) := by
    funext i j
    simp [membraneStrain, curved_Acov]
  have hN : N E ν square (curved 6 6) = N E ν square (curved 0 0) := by unfold N; rw [hm]
  refine ⟨hm, ?_, ?_, ?_, ?_, ?_, ?_, ?_, ?_⟩
  · intro z
    funext i j
    rcases fin2_cases i with rfl | rfl <;> rcases fin2_cases j with rfl | rfl <;>
      simp [strainAt, square_Gblock, curved_Gblock] <;> norm_num
  · funext i j
    rcases fin2_cases i with rfl | rfl <;> rcases fin2_cases j with rfl | rfl <;>
      simp [strainAt, square_Gblock, curved_Gblock] <;> norm_num
  · funext i j
    rcases fin2_cases i with rfl | rfl <;> rcases fin2_cases j with rfl | rfl <;>
      simp [strainAt, square_Gblock, curved_Gblock] <;> norm_num
  · show Outcome.ok (TFT.fieldOf _ _ _) = _
    congr 1
    unfold TFT.fieldOf
    rw [if_pos (Or.inl (by norm_num))]
  · show Outcome.ok (TFT.fieldOf _ _ _) = _
    congr 1
    unfold TFT.fieldOf
    rw [if_neg (by norm_num), if_pos (by norm_num)]
  · show Outcome.ok (TFT.fieldOf _ _ _) = _
    congr 1
    unfold TFT.fieldOf
    rw [if_pos (Or.inl (by norm_num))]
  · obtain ⟨a, b⟩ := C116_membrane E ν slack 1 square (curved 0 0) C (fun _ => 1) θ r k rfl rfl
    rw [a, b, one_mul]
  · rw [section2_ok r .vectorN 1 _ 0 (N E ν square (curved 0 0) k * slack)
      (N E ν square (curved 0 0) k) rfl]
    · congr 1
      simp
      ring
    · rw [mul_one, ← hN]
      simp only [tftStress, linStress, strainKind, linStrain, Outcome.map, Outcome.bind,
        TFT.evalStress, if_true, N]
      norm_num
    · rw [mul_one, ← hN]
      have hne : ¬ (-(1 / 2) : ℝ) = 1 / 2 := by norm_num
      simp only [tftStress, linStress, strainKind, linStrain, Outcome.map, Outcome.bind,
        TFT.evalStress, if_true, N, hne, if_false]

/-- **C112** is violated: for the wrapped linear material the returned stress is that of the middle
surface and the returned strain that of the height asked for; in a taut state the stress is not the
matrix times the strain (square stretched by 2 and bent to a cylinder, height 1). -/
theorem C112_elastic_violated (slack : ℝ) (θ : ℝ → ℝ) :
    ∃ S E', tftStress (linStress 1 0 square (curved 1 0))
        (fun _ => Linear.matrix 1 0 (Acon square)) slack (fun _ => 1) θ .stress 1 = .ok S ∧
      Principal.tftStrain 1 slack (θ 1) (Linear.matrix 1 0 (Acon square)) S
        (strainVoigt square (curved 1 0) 1) = .ok E' ∧
      S 0 = 3 / 2 ∧ mulVec3 (Linear.matrix 1 0 (Acon square)) E' 0 = 5 / 8 := by
  refine ⟨_, _, (C116_pointwise_violated 1 0 slack square (curved 1 0) _ _ θ 1 rfl).1 _,
    by simp only [Principal.tftStrain, if_true]; rfl, ?_, ?_⟩
  · simp [Linear.stress, Linear.Sij, Linear.Cval, Linear.Cconst, Linear.lam, Linear.mu,
      square_Acon, membraneStrain, square_Acov, curved_Acov]
    norm_num
  · simp [mulVec3, Fin.sum_univ_three, Linear.matrix, Linear.Cval, Linear.Cconst, Linear.lam,
      Linear.mu, square_Acon, strainVoigt, strainAt, square_Gblock, curved_Gblock]
    norm_num

end Verif.TFTSection
