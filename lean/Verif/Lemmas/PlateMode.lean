import Verif.Lemmas.PlateLaw

/-! # Lemmas: Navier's modes and a layer at an angle -/

namespace Verif.Plate

open V3 Geometry Fields MeasureTheory Verif.Variation Verif.Balance Spec.Balloon Spec.Plate Verif.Balloon
open Verif.Integrate (Rule)

section
variable {a b : ℝ} {S : Surf → Section} {mass : ℝ}

theorem sin_wave {a : ℝ} (ha : 0 < a) (m : ℕ) : Real.sin (m * Real.pi / a * a) = 0 := by
  rw [div_mul_cancel₀ _ ha.ne']; exact Real.sin_nat_mul_pi m

theorem ss_edge (ha : 0 < a) (hb : 0 < b) (m n : ℕ) (q : ℝ × ℝ) (h : Edge a b q) :
    ss (m * Real.pi / a) (n * Real.pi / b) q = 0 := by
  unfold ss
  rcases h with h | h | h | h
  · rw [h]; simp
  · rw [h, sin_wave ha]; simp
  · rw [h]; simp
  · rw [h, sin_wave hb]; simp

theorem mode_pinned (ha : 0 < a) (hb : 0 < b) (m n : ℕ) : Pinned a b (mode a b m n) := by
  refine ⟨⟨?_, ?_, ?_⟩, ?_⟩
  · exact contDiffOn_const
  · exact contDiffOn_const
  · exact (ss_smooth (m * Real.pi / a) (n * Real.pi / b)).contDiffOn
  · intro q hq
    ext
    · rfl
    · rfl
    · exact ss_edge ha hb m n q hq

theorem _root_.Verif.Spec.Plate.Pinned.supported {v : ℝ × ℝ → V3} (h : Pinned a b v) : Supported a b v :=
  ⟨h.1, fun q hq => by rw [h.2 q hq]; rfl⟩

theorem mode_mass (v : ℝ × ℝ → V3) (m n : ℕ) : massForm plate mass (rect a b) (mode a b m n) v
    = mass * ∫ q in rect a b, ss (m * Real.pi / a) (n * Real.pi / b) q * (v q).z := by
  rw [mass_eq, ← integral_const_mul]
  congr 1
  funext q
  simp [mode, dot, ss]

theorem mass_mode (v : ℝ × ℝ → V3) (m n : ℕ) : massForm plate mass (rect a b) v (mode a b m n)
    = mass * ∫ q in rect a b, ss (m * Real.pi / a) (n * Real.pi / b) q * (v q).z := by
  rw [mass_eq, ← integral_const_mul]
  congr 1
  funext q
  simp only [mode, dot, ss]
  ring

theorem stiff_mode (hC : (S flatS).C = fun _ _ => 0) (hD : Uncoupled (S flatS).D) (ha : 0 < a) (hb : 0 < b)
    {u : ℝ × ℝ → V3} (hu : Supported a b u) (m n : ℕ) : stiffForm plate S (rect a b) u (mode a b m n)
      = navier (S flatS).D a b m n
        * ∫ q in rect a b, ss (m * Real.pi / a) (n * Real.pi / b) q * (u q).z := by
  rw [form_right _ hC (fun _ => rfl) (fun _ => rfl)]
  exact navier_right hD ha.le hb.le (sin_wave ha m) (sin_wave hb n) (contDiffOn_univ.1 hu.1.2.2) hu.2

end

section
variable {E ν ρ t : ℝ}

theorem navier_iso {D : T3} (hE : 0 < E) (h1 : -1 < ν) (h2 : ν < 1) (hρ : 0 < ρ) (ht : 0 < t)
    (hD : ∀ i j, D i j = t ^ 3 / 12 * iso E ν i j) (m n : ℕ) :
    navier D 1 1 m n / (t * ρ) = omega E ν ρ t m n ^ 2 := by
  have e : 0 < 1 - ν ^ 2 := by nlinarith
  have s : √(E * t ^ 3 / (12 * (1 - ν ^ 2)) / (ρ * t)) ^ 2 = E * t ^ 3 / (12 * (1 - ν ^ 2)) / (ρ * t) :=
    Real.sq_sqrt (by positivity)
  simp only [omega, navier, hD, mul_pow, s]
  simp only [iso, mk3_zero, mk3_one, mk3_two, vec3_zero, vec3_one, vec3_two, div_one]
  field_simp
  ring

end

/-! ## A layer at an angle -/

theorem int_sc : ∫ x in (0 : ℝ)..1, Real.sin (Real.pi * x) * Real.cos (2 * Real.pi * x)
    = -(2 / (3 * Real.pi)) := by
  have hp := Real.pi_ne_zero
  have d : ∀ x ∈ Set.uIcc (0 : ℝ) 1, HasDerivAt
      (fun x => -(2 / 3 * Real.cos (Real.pi * x) ^ 3 - Real.cos (Real.pi * x)) / Real.pi)
      (Real.sin (Real.pi * x) * Real.cos (2 * Real.pi * x)) x := by
    intro x _
    have c := ((hasDerivAt_id' x).const_mul Real.pi).cos
    have := ((((c.fun_pow 3).const_mul (2 / 3)).fun_sub c).fun_neg).div_const Real.pi
    refine this.congr_deriv ?_
    rw [show 2 * Real.pi * x = 2 * (Real.pi * x) by ring, Real.cos_two_mul]
    field_simp
    norm_num
    ring
  rw [intervalIntegral.integral_eq_sub_of_hasDerivAt d (Continuous.intervalIntegrable (by fun_prop) _ _)]
  simp
  field_simp
  norm_num

theorem int_cs : ∫ x in (0 : ℝ)..1, Real.cos (Real.pi * x) * Real.sin (2 * Real.pi * x)
    = 4 / (3 * Real.pi) := by
  have hp := Real.pi_ne_zero
  have d : ∀ x ∈ Set.uIcc (0 : ℝ) 1, HasDerivAt
      (fun x => -(2 / 3 * Real.cos (Real.pi * x) ^ 3) / Real.pi)
      (Real.cos (Real.pi * x) * Real.sin (2 * Real.pi * x)) x := by
    intro x _
    have c := ((hasDerivAt_id' x).const_mul Real.pi).cos
    have := (((c.fun_pow 3).const_mul (2 / 3)).fun_neg).div_const Real.pi
    refine this.congr_deriv ?_
    rw [show 2 * Real.pi * x = 2 * (Real.pi * x) by ring, Real.sin_two_mul]
    field_simp
    norm_num
    ring
  rw [intervalIntegral.integral_eq_sub_of_hasDerivAt d (Continuous.intervalIntegrable (by fun_prop) _ _)]
  simp
  field_simp
  norm_num

theorem int_ss : ∫ x in (0 : ℝ)..1, Real.sin (Real.pi * x) * Real.sin (2 * Real.pi * x) = 0 := by
  have hp := Real.pi_ne_zero
  have d : ∀ x ∈ Set.uIcc (0 : ℝ) 1, HasDerivAt
      (fun x => 2 / 3 * Real.sin (Real.pi * x) ^ 3 / Real.pi)
      (Real.sin (Real.pi * x) * Real.sin (2 * Real.pi * x)) x := by
    intro x _
    have c := ((hasDerivAt_id' x).const_mul Real.pi).sin
    have := ((c.fun_pow 3).const_mul (2 / 3)).div_const Real.pi
    refine this.congr_deriv ?_
    rw [show 2 * Real.pi * x = 2 * (Real.pi * x) by ring, Real.sin_two_mul]
    field_simp
    norm_num
    ring
  rw [intervalIntegral.integral_eq_sub_of_hasDerivAt d (Continuous.intervalIntegrable (by fun_prop) _ _)]
  simp

theorem int_cc : ∫ x in (0 : ℝ)..1, Real.cos (Real.pi * x) * Real.cos (2 * Real.pi * x) = 0 := by
  have hp := Real.pi_ne_zero
  have d : ∀ x ∈ Set.uIcc (0 : ℝ) 1, HasDerivAt
      (fun x => (Real.sin (Real.pi * x) - 2 / 3 * Real.sin (Real.pi * x) ^ 3) / Real.pi)
      (Real.cos (Real.pi * x) * Real.cos (2 * Real.pi * x)) x := by
    intro x _
    have c := ((hasDerivAt_id' x).const_mul Real.pi).sin
    have := (c.fun_sub ((c.fun_pow 3).const_mul (2 / 3))).div_const Real.pi
    refine this.congr_deriv ?_
    rw [show 2 * Real.pi * x = 2 * (Real.pi * x) by ring, Real.cos_two_mul, Real.cos_sq']
    field_simp
    norm_num
    ring
  rw [intervalIntegral.integral_eq_sub_of_hasDerivAt d (Continuous.intervalIntegrable (by fun_prop) _ _)]
  simp

/-- Product of two integrals. -/
theorem rect_prod {g h : ℝ → ℝ} (hg : Continuous g) (hh : Continuous h) :
    ∫ q in rect 1 1, g q.1 * h q.2 = (∫ x in (0 : ℝ)..1, g x) * ∫ y in (0 : ℝ)..1, h y := by
  rw [rect_xy (by fun_prop) zero_le_one zero_le_one]
  simp only [intervalIntegral.integral_const_mul, intervalIntegral.integral_mul_const]

/-- A layer with fibres at 45 degrees. -/
noncomputable def diagonal : Composite.Layer := ⟨1, mk3 12 0 0 0 4 0 0 0 1, Real.pi / 4, 1⟩

theorem diagonal_D : Composite.abd .D [diagonal] = fun i j => 1 / 12 * mk3 5 3 2 3 5 2 2 2 4 i j := by
  have hp : Composite.plyD diagonal = mk3 5 3 2 3 5 2 2 2 4 := by
    have c2 : Real.cos (Real.pi / 4) ^ 2 = 1 / 2 := by
      rw [Real.cos_pi_div_four, div_pow, Real.sq_sqrt (by norm_num)]; norm_num
    have s2 : Real.sin (Real.pi / 4) ^ 2 = 1 / 2 := by
      rw [Real.sin_pi_div_four, div_pow, Real.sq_sqrt (by norm_num)]; norm_num
    have sc : Real.sin (Real.pi / 4) * Real.cos (Real.pi / 4) = 1 / 2 := by
      rw [Real.sin_pi_div_four, Real.cos_pi_div_four, div_mul_div_comm, Real.mul_self_sqrt (by norm_num)]
      norm_num
    have e : Composite.rot (Real.pi / 4) = mk3 (1 / 2) (1 / 2) (1 / 2) (1 / 2) (1 / 2) (-(1 / 2)) (-1) 1 0 := by
      unfold Composite.rot
      rw [c2, s2, sc]; norm_num
    unfold Composite.plyD diagonal
    simp only [e]
    funext i j
    rcases fin3_cases i with rfl | rfl | rfl <;> rcases fin3_cases j with rfl | rfl | rfl <;>
      norm_num [mul3, transpose3, Fin.sum_univ_three]
  funext i j
  rw [abd_D (G := mk3 5 3 2 3 5 2 2 2 4) (by simpa using hp)]
  simp [Composite.thickness, diagonal]

theorem diagonal_mixed : ∫ q in rect 1 1, bend (fun i j => 1 / 12 * mk3 5 3 2 3 5 2 2 2 4 i j)
    (ss Real.pi Real.pi) (ss (2 * Real.pi) (2 * Real.pi)) q = -(160 / 27) * Real.pi ^ 2 := by
  have hp := Real.pi_ne_zero
  have p1 := rect_prod (g := fun x => Real.sin (Real.pi * x) * Real.sin (2 * Real.pi * x))
    (h := fun x => Real.sin (Real.pi * x) * Real.sin (2 * Real.pi * x)) (by fun_prop) (by fun_prop)
  have p2 := rect_prod (g := fun x => Real.sin (Real.pi * x) * Real.cos (2 * Real.pi * x))
    (h := fun x => Real.sin (Real.pi * x) * Real.cos (2 * Real.pi * x)) (by fun_prop) (by fun_prop)
  have p3 := rect_prod (g := fun x => Real.cos (Real.pi * x) * Real.sin (2 * Real.pi * x))
    (h := fun x => Real.cos (Real.pi * x) * Real.sin (2 * Real.pi * x)) (by fun_prop) (by fun_prop)
  have p4 := rect_prod (g := fun x => Real.cos (Real.pi * x) * Real.cos (2 * Real.pi * x))
    (h := fun x => Real.cos (Real.pi * x) * Real.cos (2 * Real.pi * x)) (by fun_prop) (by fun_prop)
  rw [int_ss] at p1
  rw [int_sc] at p2
  rw [int_cs] at p3
  rw [int_cc] at p4
  have i1 : IntegrableOn (fun q : ℝ × ℝ => 16 / 3 * Real.pi ^ 4 * ((Real.sin (Real.pi * q.1)
      * Real.sin (2 * Real.pi * q.1)) * (Real.sin (Real.pi * q.2) * Real.sin (2 * Real.pi * q.2))))
      (rect 1 1) := rect_integrable (by fun_prop) 1 1
  have i2 : IntegrableOn (fun q : ℝ × ℝ => -(8 / 3) * Real.pi ^ 4 * ((Real.sin (Real.pi * q.1)
      * Real.cos (2 * Real.pi * q.1)) * (Real.sin (Real.pi * q.2) * Real.cos (2 * Real.pi * q.2))))
      (rect 1 1) := rect_integrable (by fun_prop) 1 1
  have i3 : IntegrableOn (fun q : ℝ × ℝ => -(8 / 3) * Real.pi ^ 4 * ((Real.cos (Real.pi * q.1)
      * Real.sin (2 * Real.pi * q.1)) * (Real.cos (Real.pi * q.2) * Real.sin (2 * Real.pi * q.2))))
      (rect 1 1) := rect_integrable (by fun_prop) 1 1
  have i4 : IntegrableOn (fun q : ℝ × ℝ => 16 / 3 * Real.pi ^ 4 * ((Real.cos (Real.pi * q.1)
      * Real.cos (2 * Real.pi * q.1)) * (Real.cos (Real.pi * q.2) * Real.cos (2 * Real.pi * q.2))))
      (rect 1 1) := rect_integrable (by fun_prop) 1 1
  have i12 : IntegrableOn (fun q : ℝ × ℝ => 16 / 3 * Real.pi ^ 4 * ((Real.sin (Real.pi * q.1)
      * Real.sin (2 * Real.pi * q.1)) * (Real.sin (Real.pi * q.2) * Real.sin (2 * Real.pi * q.2)))
      + -(8 / 3) * Real.pi ^ 4 * ((Real.sin (Real.pi * q.1)
      * Real.cos (2 * Real.pi * q.1)) * (Real.sin (Real.pi * q.2) * Real.cos (2 * Real.pi * q.2))))
      (rect 1 1) := i1.add i2
  have i34 : IntegrableOn (fun q : ℝ × ℝ => -(8 / 3) * Real.pi ^ 4 * ((Real.cos (Real.pi * q.1)
      * Real.sin (2 * Real.pi * q.1)) * (Real.cos (Real.pi * q.2) * Real.sin (2 * Real.pi * q.2)))
      + 16 / 3 * Real.pi ^ 4 * ((Real.cos (Real.pi * q.1)
      * Real.cos (2 * Real.pi * q.1)) * (Real.cos (Real.pi * q.2) * Real.cos (2 * Real.pi * q.2))))
      (rect 1 1) := i3.add i4
  have := integral_add i12 i34
  rw [integral_add i1 i2, integral_add i3 i4, integral_const_mul, integral_const_mul, integral_const_mul,
    integral_const_mul, p1, p2, p3, p4] at this
  rw [show -(160 / 27) * Real.pi ^ 2 = 16 / 3 * Real.pi ^ 4 * (0 * 0) + -(8 / 3) * Real.pi ^ 4 *
      (-(2 / (3 * Real.pi)) * -(2 / (3 * Real.pi))) + (-(8 / 3) * Real.pi ^ 4 *
      (4 / (3 * Real.pi) * (4 / (3 * Real.pi))) + 16 / 3 * Real.pi ^ 4 * (0 * 0)) by
    field_simp; norm_num, ← this]
  congr 1
  funext q
  simp only [bend, dotV, rowMul, kap, Fin.sum_univ_three, mk3_zero, mk3_one, mk3_two, vec3_zero, vec3_one,
    vec3_two, ss_00, ss_11, ss_01]
  simp only [ss]
  ring

end Verif.Plate
