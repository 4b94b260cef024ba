import Verif.Lemmas.CylinderLaw

/-! # Lemmas: waves around a pipe -/

namespace Verif.Cylinder

open V3 Geometry Fields MeasureTheory Verif.Variation Verif.Balance Spec.Balloon Spec.Plate Spec.Cylinder
open Verif.Balloon Verif.Plate
open Verif.Integrate (Rule)

section
variable {a b w s : ℝ} {n : ℕ}

theorem pipe_jet (R : ℝ) (q : ℝ × ℝ) : jet (pipe R) q = arcS R 1 1 q := jet_arc q

/-- Frame with coefficients that depend on the angle. -/
theorem vpd0_frame {f h f' h' : ℝ → ℝ} (hf : ∀ x, HasDerivAt f (f' x) x) (hh : ∀ x, HasDerivAt h (h' x) x) :
    vpd 0 (fun q => f q.1 • outward 1 q + h q.1 • around 1 q)
      = fun q => (f' q.1 - h q.1) • outward 1 q + (h' q.1 + f q.1) • around 1 q := by
  have df : Differentiable ℝ f := fun x => (hf x).differentiableAt
  have dh : Differentiable ℝ h := fun x => (hh x).differentiableAt
  funext q
  ext
  · refine (pd_x (f := fun q => f q.1 * Real.sin (1 * q.1) + h q.1 * Real.cos (1 * q.1)) (by fun_prop)
      (((hf q.1).fun_mul (dsin 1 q)).fun_add ((hh q.1).fun_mul (dcos 1 q)))).trans ?_
    simp [around, outward]; ring
  · refine (pd_const 0 0 q : pd 0 (fun _ => (0 : ℝ)) q = 0) |> fun h0 => ?_
    have e : (fun q : ℝ × ℝ => (f q.1 • outward 1 q + h q.1 • around 1 q).y) = fun _ => 0 := by
      funext q; simp [outward, around]
    show pd 0 (fun q : ℝ × ℝ => (f q.1 • outward 1 q + h q.1 • around 1 q).y) q = _
    rw [e, h0]; simp [outward, around]
  · refine (pd_x (f := fun q => f q.1 * Real.cos (1 * q.1) + h q.1 * (-Real.sin (1 * q.1))) (by fun_prop)
      (((hf q.1).fun_mul (dcos 1 q)).fun_add ((hh q.1).fun_mul (dsin 1 q).fun_neg))).trans ?_
    simp [around, outward]; ring

theorem vpd1_frame {f h : ℝ → ℝ} (hf : Differentiable ℝ f) (hh : Differentiable ℝ h) :
    vpd 1 (fun q => f q.1 • outward 1 q + h q.1 • around 1 q) = fun _ => 0 := by
  funext q
  ext
  · exact pd1_fst (g := fun x => f x * Real.sin (1 * x) + h x * Real.cos (1 * x)) (by fun_prop) q
  · have e : (fun q : ℝ × ℝ => (f q.1 • outward 1 q + h q.1 • around 1 q).y) = fun _ => 0 := by
      funext q; simp [outward, around]
    show pd 1 (fun q : ℝ × ℝ => (f q.1 • outward 1 q + h q.1 • around 1 q).y) q = _
    rw [e]; exact pd_const 1 0 q
  · exact pd1_fst (g := fun x => f x * Real.cos (1 * x) + h x * (-Real.sin (1 * x))) (by fun_prop) q

theorem dc (k : ℝ) (x : ℝ) : HasDerivAt (fun x => k * Real.cos (n * x)) (-(n * k) * Real.sin (n * x)) x := by
  have := (dcos (n : ℝ) (x, 0)).const_mul k
  exact this.congr_deriv (by ring)

theorem ds (k : ℝ) (x : ℝ) : HasDerivAt (fun x => k * Real.sin (n * x)) (n * k * Real.cos (n * x)) x := by
  have := (dsin (n : ℝ) (x, 0)).const_mul k
  exact this.congr_deriv (by ring)

theorem ring_0 : vpd 0 (ring n w s)
    = fun q => (-(n * w + s) * Real.sin (n * q.1)) • outward 1 q + ((w + n * s) * Real.cos (n * q.1)) • around 1 q := by
  refine (vpd0_frame (dc w) (ds s)).trans ?_
  funext q
  congr 2 <;> ring

theorem ring_00 : vpd 0 (vpd 0 (ring n w s))
    = fun q => (-((n ^ 2 + 1) * w + 2 * n * s) * Real.cos (n * q.1)) • outward 1 q
        + (-(2 * n * w + (n ^ 2 + 1) * s) * Real.sin (n * q.1)) • around 1 q := by
  rw [ring_0]
  refine (vpd0_frame (ds (-(n * w + s))) (dc (w + n * s))).trans ?_
  funext q
  congr 2 <;> ring

theorem ring_1 : vpd 1 (ring n w s) = fun _ => 0 :=
  vpd1_frame (f := fun x => w * Real.cos (n * x)) (h := fun x => s * Real.sin (n * x)) (by fun_prop) (by fun_prop)

theorem ring_01 : vpd 1 (vpd 0 (ring n w s)) = fun _ => 0 := by
  rw [ring_0]
  exact vpd1_frame (f := fun x => -(n * w + s) * Real.sin (n * x)) (h := fun x => (w + n * s) * Real.cos (n * x))
    (by fun_prop) (by fun_prop)

theorem ring_11 : vpd 1 (vpd 1 (ring n w s)) = fun _ => 0 := by
  rw [ring_1]; funext q; exact vpd_const 1 0 q

theorem ring_dots (f h : ℝ) (q : ℝ × ℝ) : dot (f • outward 1 q + h • around 1 q) (outward 1 q) = f ∧
    dot (f • outward 1 q + h • around 1 q) (around 1 q) = h := by
  have h1 := oo 1 q
  have h2 := aa 1 q
  have h3 := oa 1 q
  constructor
  · rw [dot_add_left, dot_smul_left, dot_smul_left, dot_comm (around 1 q), h1, h3]; ring
  · rw [dot_add_left, dot_smul_left, dot_smul_left, h2, h3]; ring

theorem ring_smooth : SmoothOn 2 (ring n w s) Set.univ := by
  refine ⟨?_, ?_, ?_⟩
  · show ContDiffOn ℝ 2 (fun q : ℝ × ℝ => w * Real.cos (n * q.1) * Real.sin (1 * q.1)
      + s * Real.sin (n * q.1) * Real.cos (1 * q.1)) Set.univ
    fun_prop
  · show ContDiffOn ℝ 2 (fun q : ℝ × ℝ => w * Real.cos (n * q.1) * 0 + s * Real.sin (n * q.1) * 0) Set.univ
    fun_prop
  · show ContDiffOn ℝ 2 (fun q : ℝ × ℝ => w * Real.cos (n * q.1) * Real.cos (1 * q.1)
      + s * Real.sin (n * q.1) * (-Real.sin (1 * q.1))) Set.univ
    fun_prop

/-- Whole waves between the ends. -/
theorem ring_closed (hs : Real.sin (n * a) = 0) : Closed 1 a b (ring n w s) where
  smooth := ring_smooth
  sides := fun x => ⟨by simp [ring, outward, around], by simp [ring_1, dot]⟩
  ends := fun y => by
    simp only [ring_0, (ring_dots _ _ _).1, hs]
    simp
  gap := fun y => by
    simp only [ring, (ring_dots _ _ _).2, hs]
    simp

variable {v : ℝ × ℝ → V3} {R E ν t : ℝ}

/-- Amplitudes of the waves in a displacement. -/
noncomputable def cosP (a b : ℝ) (n : ℕ) (v : ℝ × ℝ → V3) : ℝ :=
  ∫ q in rect a b, Real.cos (n * q.1) * dot (v q) (outward 1 q)

/-- Amplitudes of the waves in a displacement. -/
noncomputable def sinT (a b : ℝ) (n : ℕ) (v : ℝ × ℝ → V3) : ℝ :=
  ∫ q in rect a b, Real.sin (n * q.1) * dot (v q) (around 1 q)

theorem ring_Em (q : ℝ × ℝ) :
    EmDer (arcS R 1 1 q) (jet (ring n w s) q) = vec3 (R * ((w + n * s) * Real.cos (n * q.1))) 0 0 := by
  rw [arc_Em, ring_1, ring_0]
  simp only [(ring_dots _ _ _).2]
  simp [outward, around, dot]

theorem ring_Ef (hR : 0 < R) (q : ℝ × ℝ) :
    EfDer (arcS R 1 1 q) (jet (ring n w s) q) = vec3 (((n ^ 2 + 1) * w + 2 * n * s) * Real.cos (n * q.1)) 0 0 := by
  rw [arc_Ef (by simpa using hR), ring_11, ring_01, ring_00]
  simp only [(ring_dots _ _ _).1]
  simp [dot]
  congr 1
  ring

theorem ring_stiff (r : Rule) (hE : E ≠ 0) (h1 : 1 + ν ≠ 0) (h2 : 1 - 2 * ν ≠ 0) (h3 : 1 - ν ≠ 0) (hR : 0 < R)
    (ha : 0 ≤ a) (hb : 0 ≤ b) (hs : Real.sin (n * a) = 0) (hc : Real.cos (n * a) = 1) (hv : Closed 1 a b v) :
    stiffForm (pipe R) (System.linearModuli r t E ν) (rect a b) (ring n w s) v
      = R * (t * (E / (1 - ν ^ 2)) / R ^ 2 * (w + n * s)
            + t ^ 3 / 12 * (E / (1 - ν ^ 2)) / R ^ 4 * (n ^ 2 + 1) * ((n ^ 2 + 1) * w + 2 * n * s)) * cosP a b n v
        + R * (t * (E / (1 - ν ^ 2)) / R ^ 2 * n * (w + n * s)
            + t ^ 3 / 12 * (E / (1 - ν ^ 2)) / R ^ 4 * (2 * n) * ((n ^ 2 + 1) * w + 2 * n * s)) * sinT a b n v := by
  have h0 : 0 < R * 1 * 1 := by simpa using hR
  have R2 : R ^ 2 ≠ 0 := by positivity
  obtain ⟨m0, m1, m2⟩ : (∀ q, Linear.matrix E ν (Acon (arcS R 1 1 q)) 0 0 = E / (1 - ν ^ 2) / (R ^ 2) ^ 2) ∧
      (∀ q, Linear.matrix E ν (Acon (arcS R 1 1 q)) 0 1 = ν * (E / (1 - ν ^ 2)) / R ^ 2) ∧
      ∀ q, Linear.matrix E ν (Acon (arcS R 1 1 q)) 0 2 = 0 := by
    have := fun q : ℝ × ℝ => diag_moduli hE h1 h2 h3 R2 (s := arcS R 1 1 q) (by rw [arc_Acov]; simp)
    exact ⟨fun q => (this q).1, fun q => (this q).2.1, fun q => (this q).2.2⟩
  generalize E / (1 - ν ^ 2) = E' at *
  have key := work_closed ha hb hv (g := fun x => 1 * Real.cos (n * x)) (g' := fun x => -(n * 1) * Real.sin (n * x))
    (g'' := fun x => n * (-(n * 1)) * Real.cos (n * x)) (dc 1) (ds _) (by fun_prop) (by simp [hc]) (by simp)
    (by simp [hs]) (t * (E' / (R ^ 2) ^ 2) * (R * (w + n * s)) * R) (t * (ν * E' / R ^ 2) * (R * (w + n * s)))
    (t ^ 3 / 12 * (E' / (R ^ 2) ^ 2) * ((n ^ 2 + 1) * w + 2 * n * s))
    (t ^ 3 / 12 * (ν * E' / R ^ 2) * ((n ^ 2 + 1) * w + 2 * n * s))
  have e : stiffForm (pipe R) (System.linearModuli r t E ν) (rect a b) (ring n w s) v
      = R * ∫ q in rect a b, work 1 (fun x => 1 * Real.cos (n * x))
        (t * (E' / (R ^ 2) ^ 2) * (R * (w + n * s)) * R) (t * (ν * E' / R ^ 2) * (R * (w + n * s)))
    (t ^ 3 / 12 * (E' / (R ^ 2) ^ 2) * ((n ^ 2 + 1) * w + 2 * n * s))
    (t ^ 3 / 12 * (ν * E' / R ^ 2) * ((n ^ 2 + 1) * w + 2 * n * s)) v q := by
    rw [← integral_const_mul]
    unfold stiffForm
    refine integral_congr_ae (.of_forall fun q => ?_)
    simp only [pipe_jet, System.integrand, if_true, linStiffness, ring_Em, ring_Ef hR, arc_measure h0]
    simp only [arc_Em, arc_Ef h0, dotV, rowMul, Fin.sum_univ_three, vec3_zero,
      vec3_one, vec3_two, System.linear_A, System.linear_B, System.linear_C, System.linear_D, m0, m1, m2, work]
    ring
  rw [e, key]
  have x1 : ∫ q in rect a b, (n * (-(n * 1)) * Real.cos (n * q.1) - 1 ^ 2 * (1 * Real.cos (n * q.1)))
      * dot (v q) (outward 1 q) = -((n ^ 2 + 1) * cosP a b n v) := by
    rw [cosP, ← integral_const_mul, ← integral_neg]
    exact integral_congr_ae (.of_forall fun q => by simp only; ring)
  have x2 : ∫ q in rect a b, 1 * Real.cos (n * q.1) * dot (v q) (outward 1 q) = cosP a b n v := by
    rw [cosP]
    exact integral_congr_ae (.of_forall fun q => by simp only; ring)
  have x3 : ∫ q in rect a b, -(n * 1) * Real.sin (n * q.1) * dot (v q) (around 1 q) = -(n * sinT a b n v) := by
    rw [sinT, ← integral_const_mul, ← integral_neg]
    exact integral_congr_ae (.of_forall fun q => by simp only; ring)
  simp only [x1, x2, x3]
  field_simp
  ring

theorem ring_mass (hR : 0 < R) (m : ℝ) (hv : SmoothOn 2 v Set.univ) :
    massForm (pipe R) m (rect a b) (ring n w s) v = R * m * w * cosP a b n v + R * m * s * sinT a b n v := by
  have h0 : 0 < R * 1 * 1 := by simpa using hR
  have cP := cdot (smooth1 hv) (outward_smooth 1 1)
  have cT := cdot (smooth1 hv) (around_smooth 1 1)
  rw [cosP, sinT, ← integral_const_mul, ← integral_const_mul, ← int_add (by fun_prop) (by fun_prop)]
  unfold massForm
  refine integral_congr_ae (.of_forall fun q => ?_)
  simp only [pipe_jet, arc_measure h0, ring, dot_comm _ (v q), dot_add_right, dot_smul_right]
  ring

theorem press_pipe (hR : 0 < R) (p : ℝ) : pressForm (pipe R) p (rect a b) v = R * p * cosP a b 0 v := by
  have h0 : 0 < R * 1 * 1 := by simpa using hR
  rw [cosP, ← integral_const_mul]
  unfold pressForm
  refine integral_congr_ae (.of_forall fun q => ?_)
  simp only [pipe_jet, arc_measure h0, WeakForms.pressVec, arc_normal h0]
  simp; ring

theorem wave_a (n : ℕ) : Real.sin (n * (2 * Real.pi)) = 0 ∧ Real.cos (n * (2 * Real.pi)) = 1 := by
  constructor
  · have := Real.sin_nat_mul_pi (2 * n)
    push_cast at this
    rw [← this]; congr 1; ring
  · have := Real.cos_nat_mul_two_pi n
    exact this

theorem int_cos2 (hb : 0 ≤ b) {n : ℕ} (hn : 1 ≤ n) :
    ∫ q in rect (2 * Real.pi) b, Real.cos (n * q.1) * Real.cos (n * q.1) = Real.pi * b := by
  have n0 : (n : ℝ) ≠ 0 := by positivity
  have hp := Real.pi_pos
  rw [rect_xy (by fun_prop) (by positivity) hb]
  simp only [intervalIntegral.integral_const]
  have : ∫ x in (0 : ℝ)..2 * Real.pi, Real.cos (n * x) * Real.cos (n * x) = Real.pi := by
    have := intervalIntegral.integral_comp_mul_left (a := 0) (b := 2 * Real.pi) (fun x => Real.cos x ^ 2) n0
    rw [integral_cos_sq] at this
    simp only [← pow_two, this, (wave_a n).1]
    simp; field_simp
  simp only [smul_eq_mul, sub_zero]
  rw [intervalIntegral.integral_const_mul, this]; ring

theorem int_sin2 (hb : 0 ≤ b) {n : ℕ} (hn : 1 ≤ n) :
    ∫ q in rect (2 * Real.pi) b, Real.sin (n * q.1) * Real.sin (n * q.1) = Real.pi * b := by
  have n0 : (n : ℝ) ≠ 0 := by positivity
  have hp := Real.pi_pos
  rw [rect_xy (by fun_prop) (by positivity) hb]
  simp only [intervalIntegral.integral_const]
  have : ∫ x in (0 : ℝ)..2 * Real.pi, Real.sin (n * x) * Real.sin (n * x) = Real.pi := by
    have := intervalIntegral.integral_comp_mul_left (a := 0) (b := 2 * Real.pi) (fun x => Real.sin x ^ 2) n0
    rw [integral_sin_sq] at this
    simp only [← pow_two, this, (wave_a n).1]
    simp; field_simp
  simp only [smul_eq_mul, sub_zero]
  rw [intervalIntegral.integral_const_mul, this]; ring

theorem cosP_ring (w s : ℝ) (hb : 0 ≤ b) (hn : 1 ≤ n) : cosP (2 * Real.pi) b n (ring n w s) = w * (Real.pi * b) := by
  rw [cosP, ← int_cos2 hb hn, ← integral_const_mul]
  refine integral_congr_ae (.of_forall fun q => ?_)
  simp only [ring, (ring_dots _ _ _).1]; ring

theorem sinT_ring (w s : ℝ) (hb : 0 ≤ b) (hn : 1 ≤ n) : sinT (2 * Real.pi) b n (ring n w s) = s * (Real.pi * b) := by
  rw [sinT, ← int_sin2 hb hn, ← integral_const_mul]
  refine integral_congr_ae (.of_forall fun q => ?_)
  simp only [ring, (ring_dots _ _ _).2]; ring

/-- Boundary terms of a derivative. -/
theorem ends_x (ha : 0 ≤ a) (hb : 0 ≤ b) {f : ℝ × ℝ → ℝ} (hf : ContDiff ℝ 1 f) :
    ∫ q in rect a b, pd 0 f q = ∫ y in (0 : ℝ)..b, (f (a, y) - f (0, y)) := by
  have cd : Continuous (pd 0 f) := (pd_cont (n := 0) hf 0).continuous
  rw [rect_yx (by fun_prop) ha hb]
  congr 1
  funext y
  exact intervalIntegral.integral_eq_sub_of_hasDerivAt (f := fun x => f (x, y))
    (fun x _ => line_x (hf.differentiable (by norm_num)) x y) (Continuous.intervalIntegrable (by fun_prop) _ _)

/-- Smaller root of the characteristic polynomial of a symmetric matrix `α (1,n)(1,n)ᵀ + β (n²+1,2n)(n²+1,2n)ᵀ`. -/
theorem ring_root {α β : ℝ} (hα : 0 < α) (hβ : 0 < β) (n : ℕ) :
    ∃ x, β * (n ^ 2 * ((n : ℝ) ^ 2 - 1) ^ 2 / (n ^ 2 + 1)) / (1 + β / α * ((((n : ℝ) ^ 2 + 1) ^ 2 + 4 * n ^ 2) / (n ^ 2 + 1)))
        ≤ x ∧ x ≤ β * (n ^ 2 * ((n : ℝ) ^ 2 - 1) ^ 2 / (n ^ 2 + 1)) ∧
      x ^ 2 - (α * (1 + n ^ 2) + β * (((n : ℝ) ^ 2 + 1) ^ 2 + 4 * n ^ 2)) * x + α * β * n ^ 2 * ((n : ℝ) ^ 2 - 1) ^ 2 = 0 := by
  have N : (0 : ℝ) ≤ (n : ℝ) ^ 2 := by positivity
  generalize (n : ℝ) ^ 2 = m at *
  have m1 : 0 < m + 1 := by linarith
  have lo : β * (m * (m - 1) ^ 2 / (m + 1)) / (1 + β / α * (((m + 1) ^ 2 + 4 * m) / (m + 1)))
      = α * β * m * (m - 1) ^ 2 / (α * (1 + m) + β * ((m + 1) ^ 2 + 4 * m)) := by
    have : 0 < (m + 1) ^ 2 + 4 * m := by nlinarith
    have : 0 < α * (1 + m) + β * ((m + 1) ^ 2 + 4 * m) := by positivity
    have : 0 < α * (m + 1) + β * ((m + 1) ^ 2 + 4 * m) := by positivity
    field_simp
    ring
  rw [lo]
  set T := α * (1 + m) + β * ((m + 1) ^ 2 + 4 * m) with hT
  set d := α * β * m * (m - 1) ^ 2 with hd
  set u := β * (m * (m - 1) ^ 2 / (m + 1)) with hu
  have dn : 0 ≤ d := by positivity
  have un : 0 ≤ u := by positivity
  have T0 : 0 < T := by
    have : 0 < (m + 1) ^ 2 + 4 * m := by nlinarith
    positivity
  have ud : u * (α * (1 + m)) = d := by
    rw [hu, hd]; field_simp; ring
  have le : d / T ≤ u := by
    rw [div_le_iff₀ T0, ← ud]
    refine mul_le_mul_of_nonneg_left ?_ un
    have : 0 ≤ β * ((m + 1) ^ 2 + 4 * m) := by positivity
    linarith
  have ub : u ≤ β * ((m + 1) ^ 2 + 4 * m) := by
    rw [hu]
    refine mul_le_mul_of_nonneg_left ?_ hβ.le
    rw [div_le_iff₀ m1]
    nlinarith [mul_nonneg N N, mul_nonneg (mul_nonneg N N) N]
  have f : ContinuousOn (fun x => x ^ 2 - T * x + d) (Set.Icc (d / T) u) := by fun_prop
  have := intermediate_value_Icc' le f
  obtain ⟨x, ⟨x1, x2⟩, hx⟩ := this (show (0 : ℝ) ∈ Set.Icc _ _ from by
    constructor
    · have : u ^ 2 - T * u + d = u * (u - β * ((m + 1) ^ 2 + 4 * m)) := by
        rw [← ud, hT]; ring
      show u ^ 2 - T * u + d ≤ 0
      rw [this]
      exact mul_nonpos_of_nonneg_of_nonpos un (by linarith)
    · show 0 ≤ (d / T) ^ 2 - T * (d / T) + d
      have : T * (d / T) = d := by field_simp
      rw [this]; nlinarith [sq_nonneg (d / T)])
  exact ⟨x, x1, x2, hx⟩

end

/-! ## Sections of pipes and rolled strips -/

section
variable {a b R ρ ly lam c t E ν : ℝ}

theorem pipe_section (r : Rule) (hE : 0 < E) (hn1 : -1 < ν) (hn2 : ν < 1 / 2) (hR : 0 < R) (hρ : 0 < ρ) (hl : 0 < ly)
    (q : ℝ × ℝ) :
    (linearSection r t E ν (jet (pipe R) q) (jet (arc ρ 1 ly c) q)).N
      = vec3 (t * (E / (1 - ν ^ 2)) * ((ρ ^ 2 - R ^ 2) / 2 / (R ^ 2) ^ 2 + ν * ((ly ^ 2 - 1) / 2) / R ^ 2))
          (t * (E / (1 - ν ^ 2)) * (ν * ((ρ ^ 2 - R ^ 2) / 2) / R ^ 2 + (ly ^ 2 - 1) / 2)) 0 ∧
    (linearSection r t E ν (jet (pipe R) q) (jet (arc ρ 1 ly c) q)).M
      = vec3 (t ^ 3 / 12 * (E / (1 - ν ^ 2)) * ((ρ - R) / (R ^ 2) ^ 2))
          (t ^ 3 / 12 * (E / (1 - ν ^ 2)) * (ν * (ρ - R) / R ^ 2)) 0 := by
  rw [pipe_jet, jet_arc]
  exact diag_section r hE.ne' (by linarith) (by linarith) (by linarith) t (by positivity)
    (by rw [arc_Acov]; simp) (by rw [arc_Acov]; simp) (by rw [arc_Bcov (by simpa using hR)]; simp)
    (by rw [arc_Bcov (by positivity)]; simp)

theorem rolled_section (r : Rule) (hE : 0 < E) (hn1 : -1 < ν) (hn2 : ν < 1 / 2) (hρ : 0 < ρ) (hl : 0 < lam)
    (q : ℝ × ℝ) :
    (linearSection r t E ν (jet plate q) (arcS ρ (lam / ρ) 1 q)).N
      = vec3 (t * (E / (1 - ν ^ 2)) * ((lam ^ 2 - 1) / 2)) (t * (E / (1 - ν ^ 2)) * (ν * ((lam ^ 2 - 1) / 2))) 0 ∧
    (linearSection r t E ν (jet plate q) (arcS ρ (lam / ρ) 1 q)).M
      = vec3 (t ^ 3 / 12 * (E / (1 - ν ^ 2)) * (lam ^ 2 / ρ)) (t ^ 3 / 12 * (E / (1 - ν ^ 2)) * (ν * (lam ^ 2 / ρ))) 0 := by
  have a0 : Acov flatS = ![![1, 0], ![0, 1]] := by rw [← flatL_one, flatL_Acov]; simp
  have b0 : Bcov flatS = ![![-0, 0], ![0, 0]] := by
    rw [← flatL_one, flatL_Bcov]
    funext i j
    rcases fin2_cases i with rfl | rfl <;> rcases fin2_cases j with rfl | rfl <;> simp
  have e : ρ * (lam / ρ) = lam := by field_simp
  have := diag_section r (s := flatS) (s' := arcS ρ (lam / ρ) 1 q) (x := 1) (x' := lam ^ 2) (y := 1) (β := 0)
    (β' := lam ^ 2 / ρ) (ν := ν) hE.ne' (by linarith) (by linarith) (by linarith) t one_ne_zero a0
    (by rw [arc_Acov, e]; simp) b0 (by
      rw [arc_Bcov (by rw [e]; simpa using hl)]
      have : ρ * (lam / ρ) ^ 2 = lam ^ 2 / ρ := by field_simp
      rw [this])
  rw [jet_plate, this.1, this.2]
  constructor <;> congr 1 <;> ring

theorem rolled_residual (r : Rule) (hE : 0 < E) (hn1 : -1 < ν) (hn2 : ν < 1 / 2) (hρ : 0 < ρ) (hl : 0 < lam)
    {v : ℝ × ℝ → V3} (hv : SmoothOn 2 v Set.univ) :
    residualForm plate (rolled ρ lam) (linearSection r t E ν) 0 (rect a b) v
      = -∫ q in rect a b, work (lam / ρ) (fun _ => 1) (t * (E / (1 - ν ^ 2)) * ((lam ^ 2 - 1) / 2) * lam)
          (t * (E / (1 - ν ^ 2)) * (ν * ((lam ^ 2 - 1) / 2))) (t ^ 3 / 12 * (E / (1 - ν ^ 2)) * (lam ^ 2 / ρ))
          (t ^ 3 / 12 * (E / (1 - ν ^ 2)) * (ν * (lam ^ 2 / ρ))) v q := by
  let S : Surf → Surf → Section := fun o d => ⟨fun _ _ => 0, fun _ _ => 0, fun _ _ => 0, fun _ _ => 0,
    (linearSection r t E ν o d).N, (linearSection r t E ν o d).M⟩
  have hs := rolled_section (t := t) r hE hn1 hn2 hρ hl
  have e : ρ * (lam / ρ) = lam := by field_simp
  have e0 : residualForm plate (rolled ρ lam) (linearSection r t E ν) 0 (rect a b) v
      = residualForm plate (arc ρ (lam / ρ) 1 (-ρ)) S 0 (rect a b) v := rfl
  rw [e0, residual_arc (S := S) (μ := 1) (s := S (jet plate 0) (arcS ρ (lam / ρ) 1 0)) (by rw [e]; simpa using hl)
    (fun q => by simp only [S, (hs q).1, (hs q).2, (hs 0).1, (hs 0).2]) (by simp [S, (hs 0).1]) (by simp [S, (hs 0).2])
    (fun q => by rw [jet_plate, flat_measure]) hv]
  simp only [S, (hs 0).1, (hs 0).2, vec3_zero, vec3_one, e]
  simp

end

end Verif.Cylinder
