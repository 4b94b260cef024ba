import Verif.Lemmas.TFTSearch

/-! # Helper lemmas: the interval of the wrinkling angle -/

namespace Verif.TFTSearch

open Verif.TFT Verif.RootFind Verif.Relaxed Verif.Spec.Relaxed

theorem atan2_polar {r t : ℝ} (hr : 0 < r) (ht : t ∈ Set.Ioc (-Real.pi) Real.pi) :
    atan2 (r * Real.sin t) (r * Real.cos t) = t := by
  have e : (⟨r * Real.cos t, r * Real.sin t⟩ : ℂ)
      = r * (Complex.cos t + Complex.sin t * Complex.I) := by
    apply Complex.ext <;> simp [← Complex.ofReal_cos, ← Complex.ofReal_sin]
  unfold atan2
  rw [e, Complex.arg_mul_cos_add_sin_mul_I hr ht]

theorem atan2_mem (y x : ℝ) : atan2 y x ∈ Set.Ioc (-Real.pi) Real.pi := Complex.arg_mem_Ioc _

theorem atan2_form {y x : ℝ} (h : x ^ 2 + y ^ 2 = 1) :
    Real.cos (atan2 y x) = x ∧ Real.sin (atan2 y x) = y := by
  have hn : ‖(⟨x, y⟩ : ℂ)‖ = 1 := by
    rw [Complex.norm_eq_sqrt_sq_add_sq]; simp [h]
  have a := Complex.norm_mul_cos_arg ⟨x, y⟩
  have b := Complex.norm_mul_sin_arg ⟨x, y⟩
  rw [hn, one_mul] at a b
  exact ⟨a, b⟩

theorem atan2_half {y : ℝ} (x : ℝ) (hy : 0 < y) :
    0 < atan2 y x ∧ atan2 y x < Real.pi ∧ atan2 (-y) x = -atan2 y x := by
  have hz : (⟨x, y⟩ : ℂ) ≠ 0 := by
    intro h
    have := congrArg Complex.im h
    exact hy.ne' this
  have hn : 0 < ‖(⟨x, y⟩ : ℂ)‖ := norm_pos_iff.2 hz
  have a := Complex.norm_mul_cos_arg ⟨x, y⟩
  have b := Complex.norm_mul_sin_arg ⟨x, y⟩
  obtain ⟨m1, m2⟩ := atan2_mem y x
  have hs : 0 < Real.sin (atan2 y x) := by
    refine (mul_pos_iff_of_pos_left hn).1 ?_
    have : ‖(⟨x, y⟩ : ℂ)‖ * Real.sin (atan2 y x) = y := b
    rw [this]; exact hy
  have h0 : 0 < atan2 y x := by
    by_contra h
    have := Real.sin_nonpos_of_nonpos_of_neg_pi_le (not_lt.1 h) m1.le
    linarith
  have h1 : atan2 y x < Real.pi := by
    refine lt_of_le_of_ne m2 fun e => ?_
    rw [e, Real.sin_pi] at hs
    exact lt_irrefl _ hs
  refine ⟨h0, h1, ?_⟩
  have := atan2_polar hn (t := -atan2 y x) ⟨by linarith, by linarith⟩
  rw [Real.sin_neg, Real.cos_neg, mul_neg] at this
  rwa [show ‖(⟨x, y⟩ : ℂ)‖ * Real.sin (atan2 y x) = y from b,
    show ‖(⟨x, y⟩ : ℂ)‖ * Real.cos (atan2 y x) = x from a] at this

theorem modR_of {x t : ℝ} (k : ℤ) (h0 : 0 ≤ t) (h1 : t < 2 * Real.pi) (h : x = t + k * (2 * Real.pi)) :
    modR x (2 * Real.pi) = t := by
  have hp : 0 < 2 * Real.pi := by have := Real.pi_pos; linarith
  have e : ⌊x / (2 * Real.pi)⌋ = k := by
    rw [Int.floor_eq_iff, le_div_iff₀ hp, div_lt_iff₀ hp]
    constructor <;> rw [h] <;> nlinarith
  unfold modR
  rw [e, h]; ring

/-- The interval from its ingredients. -/
theorem interval_eq (C : T3) (N E : Voigt) {RE RN t0E t0N α ε t1 t2 : ℝ}
    (hRE : Real.sqrt (((E 0 - E 1) / 2) ^ 2 + 0.5 * E 2 * (0.5 * E 2)) = RE) (hRE0 : RE ≠ 0)
    (hRN : Real.sqrt (((N 0 - N 1) / 2) ^ 2 + N 2 * N 2) = RN) (hRN0 : RN ≠ 0)
    (h0E : atan2 (0.5 * E 2 / RE) ((E 1 - E 0) / (2 * RE)) = t0E)
    (h0N : atan2 (-N 2 / RN) ((N 0 - N 1) / RN) = t0N)
    (hε : atan2 (Real.sqrt (0.5 * E 2 * (0.5 * E 2) - E 0 * E 1) / RE) (-(E 0 + E 1) / (2 * RE)) = ε)
    (hε' : atan2 (-Real.sqrt (0.5 * E 2 * (0.5 * E 2) - E 0 * E 1) / RE) (-(E 0 + E 1) / (2 * RE)) = -ε)
    (hα : atan2 (Real.sqrt (N 2 * N 2 - N 0 * N 1) / RN) (-(N 0 + N 1) / (2 * RN)) = α)
    (hα' : atan2 (-Real.sqrt (N 2 * N 2 - N 0 * N 1) / RN) (-(N 0 + N 1) / (2 * RN)) = -α)
    (h1 : modR (α - t0N + t0E + Real.pi) (2 * Real.pi) = t1)
    (h2 : modR (-α - t0N + t0E + Real.pi) (2 * Real.pi) = t2) (h12 : t1 < t2) :
    thetaInterval C N E = (max (-ε - t0E) (t1 - Real.pi - t0E) / 2,
      min (ε - t0E) (t2 - Real.pi - t0E) / 2) := by
  unfold thetaInterval
  dsimp only
  rw [hRE, if_neg hRE0, hRN, if_neg hRN0, h0E, h0N, hε, hε', hα, hα', h1, h2, if_pos h12]

/-- Sizes of the isotropic material: principal strains and what the code computes from them. -/
structure Iso (c m : ℝ) (E : Voigt) (R t : ℝ) : Prop where
  pos : 0 < R
  cos : (E 1 - E 0) = 2 * R * Real.cos t
  sin : E 2 = 2 * R * Real.sin t
  mem : t ∈ Set.Ioc (-Real.pi) Real.pi
  root : Real.sqrt (((E 0 - E 1) / 2) ^ 2 + 0.5 * E 2 * (0.5 * E 2)) = R
  ang : atan2 (0.5 * E 2 / R) ((E 1 - E 0) / (2 * R)) = t

theorem iso_exists (c m : ℝ) (E : Voigt) (h : E 0 ≠ E 1 ∨ E 2 ≠ 0) : ∃ R t, Iso c m E R t := by
  set R := Real.sqrt (((E 0 - E 1) / 2) ^ 2 + 0.5 * E 2 * (0.5 * E 2)) with hR
  have hp : 0 < ((E 0 - E 1) / 2) ^ 2 + 0.5 * E 2 * (0.5 * E 2) := by
    have a := sq_nonneg ((E 0 - E 1) / 2)
    have b := mul_self_nonneg (0.5 * E 2)
    rcases h with h | h
    · have : 0 < ((E 0 - E 1) / 2) ^ 2 := by
        have : (E 0 - E 1) / 2 ≠ 0 := div_ne_zero (sub_ne_zero.2 h) two_ne_zero
        positivity
      linarith
    · have : 0 < 0.5 * E 2 * (0.5 * E 2) := by
        have : 0.5 * E 2 ≠ 0 := mul_ne_zero (by norm_num) h
        exact mul_self_pos.2 this
      linarith
  have hR0 : 0 < R := Real.sqrt_pos.2 hp
  have hsq : R * R = ((E 0 - E 1) / 2) ^ 2 + 0.5 * E 2 * (0.5 * E 2) := Real.mul_self_sqrt hp.le
  have hf : ((E 1 - E 0) / (2 * R)) ^ 2 + (0.5 * E 2 / R) ^ 2 = 1 := by
    have : ((E 1 - E 0) / (2 * R)) ^ 2 + (0.5 * E 2 / R) ^ 2
        = (((E 0 - E 1) / 2) ^ 2 + 0.5 * E 2 * (0.5 * E 2)) / (R * R) := by
      field_simp; ring
    rw [this, ← hsq, div_self (mul_pos hR0 hR0).ne']
  obtain ⟨a, b⟩ := atan2_form hf
  refine ⟨R, _, hR0, ?_, ?_, atan2_mem _ _, rfl, rfl⟩
  · rw [a]; field_simp
  · rw [b]; field_simp; ring

theorem Iso.objective {c m R t : ℝ} {E : Voigt} (h : Iso c m E R t) (θ : ℝ) :
    objective (mk3 (c + 2 * m) c 0 c (c + 2 * m) 0 0 0 m)
      (mulVec3 (mk3 (c + 2 * m) c 0 c (c + 2 * m) 0 0 0 m) E) θ
      = 2 * m * R * Real.sin (2 * θ + t) := by
  rw [iso_objective, h.cos, h.sin, Real.sin_add, Real.sin_two_mul, Real.cos_two_mul']
  ring

theorem iso_stress (c m : ℝ) (E : Voigt) :
    mulVec3 (mk3 (c + 2 * m) c 0 c (c + 2 * m) 0 0 0 m) E
      = vec3 (c * (E 0 + E 1) + 2 * m * E 0) (c * (E 0 + E 1) + 2 * m * E 1) (m * E 2) := by
  funext i
  rcases fin3_cases i with rfl | rfl | rfl <;>
  · simp only [mulVec3, Fin.sum_univ_three, mk3_zero, mk3_one, mk3_two, vec3_zero, vec3_one,
      vec3_two]
    ring

/-- The components at the angle in question. -/
theorem Iso.axes {c m R t : ℝ} {E : Voigt} (h : Iso c m E R t) :
    dotV (n1 (-t / 2)) (mulVec3 (mk3 (c + 2 * m) c 0 c (c + 2 * m) 0 0 0 m) E)
      = c * (E 0 + E 1) + 2 * m * ((E 0 + E 1) / 2 - R) ∧
    comp (strainTensor E) (dirM (-t / 2)) (dirM (-t / 2)) = (E 0 + E 1) / 2 + R := by
  have h2 : Real.cos t = Real.cos (-t / 2) ^ 2 - Real.sin (-t / 2) ^ 2 := by
    rw [← Real.cos_two_mul', show 2 * (-t / 2) = -t by ring, Real.cos_neg]
  have h3 : Real.sin t = -(2 * Real.sin (-t / 2) * Real.cos (-t / 2)) := by
    rw [← Real.sin_two_mul, show 2 * (-t / 2) = -t by ring, Real.sin_neg, neg_neg]
  have hcs := Real.cos_sq_add_sin_sq (-t / 2)
  have h4 : (Real.cos (-t / 2) ^ 2 + Real.sin (-t / 2) ^ 2) ^ 2 = 1 := by rw [hcs]; norm_num
  have hc := h.cos
  have hs := h.sin
  rw [h2] at hc
  rw [h3] at hs
  have e1 : E 1 = (E 0 + E 1) / 2 + R * (Real.cos (-t / 2) ^ 2 - Real.sin (-t / 2) ^ 2) := by
    linarith
  have e0 : E 0 = (E 0 + E 1) / 2 - R * (Real.cos (-t / 2) ^ 2 - Real.sin (-t / 2) ^ 2) := by
    linarith
  generalize (E 0 + E 1) / 2 = k at *
  constructor
  · rw [iso_stress]
    simp only [dotV, n1, Fin.sum_univ_three, vec3_zero, vec3_one, vec3_two]
    rw [e0, e1, hs]
    linear_combination (2 * k * (c + m)) * hcs - 2 * m * R * h4
  · rw [comp_strain]
    simp only [dirM, Matrix.cons_val_zero, Matrix.cons_val_one]
    rw [e0, e1, hs]
    linear_combination k * hcs + R * h4

/-- The principal stresses of opposite sign. -/
theorem Iso.signs {c m R t : ℝ} {E : Voigt} (h : Iso c m E R t) (hm : 0 < m) (hc : 0 ≤ c)
    (hd : 0 < (m * E 2) * (m * E 2)
      - (c * (E 0 + E 1) + 2 * m * E 0) * (c * (E 0 + E 1) + 2 * m * E 1)) :
    c * (E 0 + E 1) + 2 * m * ((E 0 + E 1) / 2 - R) < 0 ∧ 0 < (E 0 + E 1) / 2 + R ∧
      0 < 0.5 * E 2 * (0.5 * E 2) - E 0 * E 1 := by
  have hR := h.pos
  have hsq : (E 1 - E 0) ^ 2 + E 2 ^ 2 = 4 * R ^ 2 := by
    rw [h.cos, h.sin]
    linear_combination 4 * R ^ 2 * Real.cos_sq_add_sin_sq t
  have key : (m * E 2) * (m * E 2)
      - (c * (E 0 + E 1) + 2 * m * E 0) * (c * (E 0 + E 1) + 2 * m * E 1)
      = -((c * (E 0 + E 1) + 2 * m * ((E 0 + E 1) / 2 - R))
        * (c * (E 0 + E 1) + 2 * m * ((E 0 + E 1) / 2 + R))) := by
    linear_combination m ^ 2 * hsq
  rw [key] at hd
  have hlt : c * (E 0 + E 1) + 2 * m * ((E 0 + E 1) / 2 - R)
      < c * (E 0 + E 1) + 2 * m * ((E 0 + E 1) / 2 + R) := by
    have := mul_pos hm hR
    linarith
  have hprod : (c * (E 0 + E 1) + 2 * m * ((E 0 + E 1) / 2 - R))
        * (c * (E 0 + E 1) + 2 * m * ((E 0 + E 1) / 2 + R)) < 0 := by linarith
  obtain ⟨hlo, hhi⟩ : c * (E 0 + E 1) + 2 * m * ((E 0 + E 1) / 2 - R) < 0 ∧
      0 < c * (E 0 + E 1) + 2 * m * ((E 0 + E 1) / 2 + R) := by
    rcases mul_neg_iff.1 hprod with ⟨a, b⟩ | ⟨a, b⟩
    · linarith
    · exact ⟨a, b⟩
  have h1 : 0 < (E 0 + E 1) / 2 + R := by
    by_contra hn
    have hn := not_lt.1 hn
    have : E 0 + E 1 ≤ 0 := by linarith
    have a := mul_nonneg hc (neg_nonneg.2 this)
    have b := mul_nonneg hm.le (neg_nonneg.2 hn)
    linarith
  have h0 : (E 0 + E 1) / 2 - R < 0 := by
    by_contra hn
    have hn := not_lt.1 hn
    have : 0 ≤ E 0 + E 1 := by linarith
    have a := mul_nonneg hc this
    have b := mul_nonneg hm.le hn
    linarith
  refine ⟨hlo, h1, ?_⟩
  have := mul_pos h1 (neg_pos.2 h0)
  norm_num
  nlinarith

/-- The interval of the isotropic material; `t0N` is the angle which the code takes for the
stress. -/
theorem Iso.interval {c m R t : ℝ} {E : Voigt} (h : Iso c m E R t) (hm : 0 < m) (hc : 0 ≤ c)
    (hd : 0 < (m * E 2) * (m * E 2)
      - (c * (E 0 + E 1) + 2 * m * E 0) * (c * (E 0 + E 1) + 2 * m * E 1)) (C : T3) :
    ∃ α ε : ℝ, 0 < α ∧ α < Real.pi ∧ 0 < ε ∧ ε < Real.pi ∧
      α = atan2 (Real.sqrt ((m * E 2) * (m * E 2)
        - (c * (E 0 + E 1) + 2 * m * E 0) * (c * (E 0 + E 1) + 2 * m * E 1)) / (2 * m * R))
        (-(c * (E 0 + E 1) + 2 * m * E 0 + (c * (E 0 + E 1) + 2 * m * E 1)) / (2 * (2 * m * R))) ∧
      ε = atan2 (Real.sqrt (0.5 * E 2 * (0.5 * E 2) - E 0 * E 1) / R) (-(E 0 + E 1) / (2 * R)) ∧
      ∀ t0N t1 t2 : ℝ, atan2 (-Real.sin t) (-2 * Real.cos t) = t0N →
        modR (α - t0N + t + Real.pi) (2 * Real.pi) = t1 →
        modR (-α - t0N + t + Real.pi) (2 * Real.pi) = t2 → t1 < t2 →
        thetaInterval C (vec3 (c * (E 0 + E 1) + 2 * m * E 0) (c * (E 0 + E 1) + 2 * m * E 1)
          (m * E 2)) E = (max (-ε - t) (t1 - Real.pi - t) / 2, min (ε - t) (t2 - Real.pi - t) / 2) := by
  have hR := h.pos
  have hmR : 0 < 2 * m * R := by positivity
  have hw := (h.signs hm hc hd).2.2
  have hα := atan2_half (-(c * (E 0 + E 1) + 2 * m * E 0 + (c * (E 0 + E 1) + 2 * m * E 1))
    / (2 * (2 * m * R))) (div_pos (Real.sqrt_pos.2 hd) hmR)
  have hε := atan2_half (-(E 0 + E 1) / (2 * R)) (div_pos (Real.sqrt_pos.2 hw) hR)
  refine ⟨_, _, hα.1, hα.2.1, hε.1, hε.2.1, rfl, rfl, ?_⟩
  intro t0N t1 t2 h0 h1 h2 h12
  have hsq : (E 1 - E 0) ^ 2 + E 2 ^ 2 = 4 * R ^ 2 := by
    rw [h.cos, h.sin]
    linear_combination 4 * R ^ 2 * Real.cos_sq_add_sin_sq t
  refine interval_eq C _ E (RN := 2 * m * R) h.root hR.ne' ?_ hmR.ne' h.ang ?_ rfl ?_ rfl ?_ h1 h2 h12
  · simp only [vec3_zero, vec3_one, vec3_two]
    rw [← Real.sqrt_sq hmR.le]
    congr 1
    linear_combination m ^ 2 * hsq
  · simp only [vec3_zero, vec3_one, vec3_two]
    rw [← h0]
    congr 1
    · rw [h.sin]; field_simp
    · have : c * (E 0 + E 1) + 2 * m * E 0 - (c * (E 0 + E 1) + 2 * m * E 1)
          = -(2 * m * (2 * R * Real.cos t)) := by rw [← h.cos]; ring
      rw [this]; field_simp
  · rw [neg_div]; exact hε.2.2
  · simp only [vec3_zero, vec3_one, vec3_two]
    rw [neg_div]; exact hα.2.2

/-- Axes along the coordinate lines or along their diagonals. -/
theorem Iso.aligned {c m R t : ℝ} {E : Voigt} (h : Iso c m E R t) (ha : E 2 = 0 ∨ E 0 = E 1) :
    atan2 (-Real.sin t) (-2 * Real.cos t) = t - Real.pi ∨
      atan2 (-Real.sin t) (-2 * Real.cos t) = t + Real.pi := by
  have hR := h.pos
  have hpi := Real.pi_pos
  have hcs := Real.cos_sq_add_sin_sq t
  obtain ⟨m1, m2⟩ := h.mem
  have h0 : Real.sin t = 0 ∨ Real.cos t = 0 := by
    rcases ha with g | g
    · left
      have := h.sin
      rw [g] at this
      exact (mul_eq_zero.1 this.symm).resolve_left (by positivity)
    · right
      have := h.cos
      rw [g, sub_self] at this
      exact (mul_eq_zero.1 this.symm).resolve_left (by positivity)
  -- the scaled point lies on the same ray as the turned one
  have key : ∃ r : ℝ, 0 < r ∧ -Real.sin t = r * -Real.sin t ∧ -2 * Real.cos t = r * -Real.cos t := by
    rcases h0 with g | g
    · exact ⟨2, by norm_num, by rw [g]; norm_num, by ring⟩
    · exact ⟨1, by norm_num, by ring, by rw [g]; norm_num⟩
  obtain ⟨r, hr, e1, e2⟩ := key
  rw [e1, e2]
  rcases le_or_gt t 0 with g | g
  · right
    rw [← Real.sin_add_pi, ← Real.cos_add_pi]
    exact atan2_polar hr ⟨by linarith, by linarith⟩
  · left
    rw [← Real.sin_sub_pi, ← Real.cos_sub_pi]
    exact atan2_polar hr ⟨by linarith, by linarith⟩

theorem Iso.interval_aligned {c m R t : ℝ} {E : Voigt} (h : Iso c m E R t) (hm : 0 < m)
    (hc : 0 ≤ c) (hd : 0 < (m * E 2) * (m * E 2)
      - (c * (E 0 + E 1) + 2 * m * E 0) * (c * (E 0 + E 1) + 2 * m * E 1))
    (ha : E 2 = 0 ∨ E 0 = E 1) (C : T3) :
    ∃ lo hi : ℝ, -Real.pi < lo ∧ lo < 0 ∧ 0 < hi ∧ hi < Real.pi ∧
      thetaInterval C (vec3 (c * (E 0 + E 1) + 2 * m * E 0) (c * (E 0 + E 1) + 2 * m * E 1)
        (m * E 2)) E = ((lo - t) / 2, (hi - t) / 2) := by
  obtain ⟨α, ε, a0, a1, e0, e1, -, -, hiv⟩ := h.interval hm hc hd C
  refine ⟨max (-ε) (α - Real.pi), min ε (Real.pi - α), ?_, ?_, ?_, ?_, ?_⟩
  · exact lt_of_lt_of_le (by linarith) (le_max_left _ _)
  · exact max_lt (by linarith) (by linarith)
  · exact lt_min e0 (by linarith)
  · exact lt_of_le_of_lt (min_le_left _ _) e1
  have r1 : modR (α - atan2 (-Real.sin t) (-2 * Real.cos t) + t + Real.pi) (2 * Real.pi) = α := by
    rcases h.aligned ha with g | g
    · exact modR_of 1 a0.le (by linarith) (by rw [g]; push_cast; ring)
    · exact modR_of 0 a0.le (by linarith) (by rw [g]; push_cast; ring)
  have r2 : modR (-α - atan2 (-Real.sin t) (-2 * Real.cos t) + t + Real.pi) (2 * Real.pi)
      = 2 * Real.pi - α := by
    rcases h.aligned ha with g | g
    · exact modR_of 0 (by linarith) (by linarith) (by rw [g]; push_cast; ring)
    · exact modR_of (-1) (by linarith) (by linarith) (by rw [g]; push_cast; ring)
  rw [hiv _ _ _ rfl r1 r2 (by linarith), max_sub_sub_right, min_sub_sub_right,
    show 2 * Real.pi - α - Real.pi = Real.pi - α by ring]

/-! ## A turned state -/

/-- Strain of the witness: principal axes turned by an eighth of π against the diagonals. -/
noncomputable def turnE : Voigt := vec3 (17 / 20) (-3 / 20) 1

theorem turn_iso : Iso 1 1 turnE (Real.sqrt (1 / 2)) (3 * Real.pi / 4) := by
  have hpi := Real.pi_pos
  have hr : 0 < Real.sqrt (1 / 2) := Real.sqrt_pos.2 (by norm_num)
  have hsq : Real.sqrt (1 / 2) * Real.sqrt (1 / 2) = 1 / 2 := Real.mul_self_sqrt (by norm_num)
  have h2 : Real.sqrt 2 = 2 * Real.sqrt (1 / 2) := by
    rw [Real.sqrt_eq_iff_mul_self_eq (by norm_num) (by positivity)]
    linear_combination -4 * hsq
  have hc : Real.cos (3 * Real.pi / 4) = -Real.sqrt (1 / 2) := by
    rw [show 3 * Real.pi / 4 = Real.pi - Real.pi / 4 by ring, Real.cos_pi_sub,
      Real.cos_pi_div_four, h2]
    ring
  have hs : Real.sin (3 * Real.pi / 4) = Real.sqrt (1 / 2) := by
    rw [show 3 * Real.pi / 4 = Real.pi - Real.pi / 4 by ring, Real.sin_pi_sub,
      Real.sin_pi_div_four, h2]
    ring
  have t0 : turnE 0 = 17 / 20 := rfl
  have t1 : turnE 1 = -3 / 20 := rfl
  have t2 : turnE 2 = 1 := rfl
  have hroot : Real.sqrt (((turnE 0 - turnE 1) / 2) ^ 2 + 0.5 * turnE 2 * (0.5 * turnE 2))
      = Real.sqrt (1 / 2) := by
    rw [t0, t1, t2]; norm_num
  have hpol := atan2_polar one_pos (t := 3 * Real.pi / 4) ⟨by linarith, by linarith⟩
  rw [hc, hs, one_mul, one_mul] at hpol
  refine ⟨hr, ?_, ?_, ⟨by linarith, by linarith⟩, hroot, ?_⟩
  · rw [hc, t0, t1]; linear_combination 2 * hsq
  · rw [hs, t2]; linear_combination -2 * hsq
  · rw [← hpol, t0, t1, t2]
    generalize Real.sqrt (1 / 2) = R at *
    congr 1
    · rw [div_eq_iff hr.ne']; linear_combination -hsq
    · rw [div_eq_iff (by positivity)]; linear_combination 2 * hsq

theorem turn_stress : mulVec3 (mk3 3 1 0 1 3 0 0 0 1) turnE = vec3 (12 / 5) (2 / 5) 1 := by
  funext i
  rcases fin3_cases i with rfl | rfl | rfl <;> norm_num [mulVec3, turnE, Fin.sum_univ_three]

theorem turn_objective (θ : ℝ) : objective (mk3 3 1 0 1 3 0 0 0 1) (vec3 (12 / 5) (2 / 5) 1) θ
    = 2 * Real.sqrt (1 / 2) * Real.sin (2 * θ + 3 * Real.pi / 4) := by
  have h := turn_iso.objective θ
  have hM : mk3 (1 + 2 * 1) 1 0 1 (1 + 2 * 1) 0 0 0 1 = mk3 3 1 0 1 3 0 0 0 1 := by norm_num
  rw [hM, turn_stress] at h
  rw [h]; ring

theorem atan2_obtuse {y x : ℝ} (hy : 0 < y) (hx : x < 0) : Real.pi / 2 < atan2 y x := by
  have hz : (⟨x, y⟩ : ℂ) ≠ 0 := by
    intro h
    have := congrArg Complex.im h
    exact hy.ne' this
  have hn : 0 < ‖(⟨x, y⟩ : ℂ)‖ := norm_pos_iff.2 hz
  have a : ‖(⟨x, y⟩ : ℂ)‖ * Real.cos (atan2 y x) = x := Complex.norm_mul_cos_arg ⟨x, y⟩
  by_contra h
  have h0 := (atan2_half x hy).1
  have := Real.cos_nonneg_of_neg_pi_div_two_le_of_le
    (by have := Real.pi_pos; linarith : -(Real.pi / 2) ≤ atan2 y x) (not_lt.1 h)
  have := mul_nonneg hn.le this
  linarith

theorem small_angle : 1 / 1000000 < Real.arctan (1 / 7) ∧
    Real.arctan (1 / 2) + Real.arctan (1 / 7) < Real.pi / 4 ∧ 0 < Real.arctan (1 / 2) := by
  refine ⟨?_, ?_, Real.arctan_pos.2 (by norm_num)⟩
  · have h0 : 0 ≤ Real.arctan (1 / 7) := Real.arctan_nonneg.2 (by norm_num)
    have h := Real.sin_le h0
    rw [Real.sin_arctan] at h
    have hs : Real.sqrt (1 + (1 / 7) ^ 2) ≤ 2 := by
      rw [Real.sqrt_le_left (by norm_num)]; norm_num
    have hs0 : 0 < Real.sqrt (1 + (1 / 7) ^ 2) := Real.sqrt_pos.2 (by norm_num)
    refine lt_of_lt_of_le ?_ h
    rw [lt_div_iff₀ hs0]
    linarith
  · have h := Real.arctan_inv_2_add_arctan_inv_3
    have m : Real.arctan (1 / 7) < Real.arctan 3⁻¹ := Real.arctan_strictMono (by norm_num)
    rw [show (1 / 2 : ℝ) = 2⁻¹ by norm_num]
    linarith

theorem turn_interval (C : T3) : thetaInterval C (vec3 (12 / 5) (2 / 5) 1) turnE
    = ((Real.arctan (1 / 2) - Real.arctan (1 / 7) - Real.pi) / 2,
      (Real.arctan (1 / 2) + Real.arctan (1 / 7) - Real.pi) / 2) := by
  obtain ⟨k1, k2, k3⟩ := small_angle
  have hpi := Real.pi_pos
  have hr : 0 < Real.sqrt (1 / 2) := Real.sqrt_pos.2 (by norm_num)
  have hsq : Real.sqrt (1 / 2) * Real.sqrt (1 / 2) = 1 / 2 := Real.mul_self_sqrt (by norm_num)
  have h2 : Real.sqrt 2 = 2 * Real.sqrt (1 / 2) := by
    rw [Real.sqrt_eq_iff_mul_self_eq (by norm_num) (by positivity)]
    linear_combination -4 * hsq
  have hN : vec3 (1 * (turnE 0 + turnE 1) + 2 * 1 * turnE 0)
      (1 * (turnE 0 + turnE 1) + 2 * 1 * turnE 1) (1 * turnE 2) = vec3 (12 / 5) (2 / 5) 1 := by
    norm_num [turnE]
  obtain ⟨α, ε, a0, a1, e0, e1, hα, hε, hiv⟩ := turn_iso.interval one_pos zero_le_one
    (by norm_num [turnE]) C
  rw [hN] at hiv
  have hαv : α = Real.pi - Real.arctan (1 / 7) := by
    set w := Real.sqrt (1 + (1 / 7) ^ 2) with hw
    have hw0 : 0 < w := Real.sqrt_pos.2 (by norm_num)
    have := atan2_polar (r := 7 / 5 / (2 * Real.sqrt (1 / 2)) * w)
      (t := Real.pi - Real.arctan (1 / 7)) (by positivity) ⟨by linarith, by linarith⟩
    rw [← this, hα, Real.sin_pi_sub, Real.cos_pi_sub, Real.sin_arctan, Real.cos_arctan, ← hw]
    have hq : Real.sqrt (1 * turnE 2 * (1 * turnE 2) - (1 * (turnE 0 + turnE 1) + 2 * 1 * turnE 0)
        * (1 * (turnE 0 + turnE 1) + 2 * 1 * turnE 1)) = 1 / 5 := by
      rw [Real.sqrt_eq_iff_mul_self_eq (by norm_num [turnE]) (by norm_num)]
      norm_num [turnE]
    rw [hq]
    congr 1
    · field_simp
    · have : -(1 * (turnE 0 + turnE 1) + 2 * 1 * turnE 0 + (1 * (turnE 0 + turnE 1)
          + 2 * 1 * turnE 1)) = -14 / 5 := by norm_num [turnE]
      rw [this]
      field_simp; norm_num
  have h0N : atan2 (-Real.sin (3 * Real.pi / 4)) (-2 * Real.cos (3 * Real.pi / 4))
      = -Real.arctan (1 / 2) := by
    set w := Real.sqrt (1 + (1 / 2) ^ 2) with hw
    have hw0 : 0 < w := Real.sqrt_pos.2 (by norm_num)
    have := atan2_polar (r := 2 * Real.sqrt (1 / 2) * w)
      (t := -Real.arctan (1 / 2)) (by positivity) ⟨by linarith, by linarith⟩
    rw [← this, Real.sin_neg, Real.cos_neg, Real.sin_arctan, Real.cos_arctan, ← hw,
      show 3 * Real.pi / 4 = Real.pi - Real.pi / 4 by ring, Real.cos_pi_sub, Real.sin_pi_sub,
      Real.cos_pi_div_four, Real.sin_pi_div_four, h2]
    congr 1
    · field_simp
    · field_simp
  have hε2 : Real.pi / 2 < ε := by
    rw [hε]
    apply atan2_obtuse
    · apply div_pos _ hr
      rw [Real.sqrt_pos]; norm_num [turnE]
    · apply div_neg_of_neg_of_pos
      · norm_num [turnE]
      · positivity
  have r1 : modR (α - -Real.arctan (1 / 2) + 3 * Real.pi / 4 + Real.pi) (2 * Real.pi)
      = 3 * Real.pi / 4 + Real.arctan (1 / 2) - Real.arctan (1 / 7) :=
    modR_of 1 (by linarith) (by linarith) (by rw [hαv]; push_cast; ring)
  have r2 : modR (-α - -Real.arctan (1 / 2) + 3 * Real.pi / 4 + Real.pi) (2 * Real.pi)
      = 3 * Real.pi / 4 + Real.arctan (1 / 2) + Real.arctan (1 / 7) :=
    modR_of 0 (by linarith) (by linarith) (by rw [hαv]; push_cast; ring)
  rw [hiv _ _ _ h0N r1 r2 (by linarith), max_eq_right (by linarith), min_eq_right (by linarith)]
  congr 1 <;> ring

end Verif.TFTSearch
