import Verif.Lemmas.SpectralAgree
import Verif.Spec.Benchmark
import Mathlib.Topology.Order.IntermediateValue
import Mathlib.Analysis.SpecialFunctions.Pow.Continuity

/-! # Helper lemmas: closed-form solutions of the unit tests -/

namespace Verif.Benchmark

open Verif.Hyper Verif.Spectral Spec.Benchmark

/-- Terms with a positive product. -/
def Admissible (terms : List (ℝ × ℝ)) : Prop := terms ≠ [] ∧ ∀ t ∈ terms, 0 < t.1 * t.2

theorem sum_pos_terms {terms : List (ℝ × ℝ)} (h0 : terms ≠ []) {f : ℝ × ℝ → ℝ}
    (h : ∀ t ∈ terms, 0 < f t) : 0 < (terms.map f).sum := by
  induction terms with
  | nil => exact absurd rfl h0
  | cons t ts ih =>
    rw [List.map_cons, List.sum_cons]
    have ht := h t (by simp)
    by_cases hts : ts = []
    · rw [hts]; simpa using ht
    · have := ih hts fun s hs => h s (by simp [hs])
      linarith

theorem sum_nonneg_terms {terms : List (ℝ × ℝ)} {f : ℝ × ℝ → ℝ}
    (h : ∀ t ∈ terms, 0 ≤ f t) : 0 ≤ (terms.map f).sum := by
  induction terms with
  | nil => simp
  | cons t ts ih =>
    rw [List.map_cons, List.sum_cons]
    have ht := h t (by simp)
    have := ih fun s hs => h s (by simp [hs])
    linarith

theorem sum_sub_terms (terms : List (ℝ × ℝ)) (f g : ℝ × ℝ → ℝ) :
    (terms.map f).sum - (terms.map g).sum = (terms.map fun t => f t - g t).sum := by
  induction terms with
  | nil => simp
  | cons t ts ih => simp only [List.map_cons, List.sum_cons]; linarith

theorem sum_mul_terms (terms : List (ℝ × ℝ)) (f : ℝ × ℝ → ℝ) (c : ℝ) :
    c * (terms.map f).sum = (terms.map fun t => c * f t).sum := by
  induction terms with
  | nil => simp
  | cons t ts ih => simp only [List.map_cons, List.sum_cons, mul_add]; rw [ih]

/-- A power times a coefficient of the same sign as the exponent is increasing. -/
theorem pow_inc {m a x y : ℝ} (h : 0 < m * a) (hx : 0 < x) (hxy : x < y) :
    m * x ^ a < m * y ^ a := by
  rcases lt_or_ge 0 a with ha | ha
  · have hm : 0 < m := pos_of_mul_pos_left h ha.le
    exact mul_lt_mul_of_pos_left (Real.rpow_lt_rpow hx.le hxy ha) hm
  · have hm : m < 0 := by nlinarith
    have ha' : a < 0 := by
      rcases ha.lt_or_eq with h' | h'
      · exact h'
      · rw [h'] at h; simp at h
    exact mul_lt_mul_of_neg_left (Real.rpow_lt_rpow_of_neg hx hxy ha') hm

/-- The sum over the terms is injective on positive numbers. -/
theorem terms_inj {terms : List (ℝ × ℝ)} (ht : Admissible terms) {c : ℝ × ℝ → ℝ}
    (hc : ∀ t, 0 < c t) {x y : ℝ} (hx : 0 < x) (hy : 0 < y)
    (h : (terms.map fun t => t.1 * c t * (x ^ t.2 - y ^ t.2)).sum = 0) : x = y := by
  rcases lt_trichotomy x y with hxy | hxy | hxy
  · exfalso
    have := sum_pos_terms ht.1 (f := fun t => -(t.1 * c t * (x ^ t.2 - y ^ t.2))) fun t hm => by
      have := mul_lt_mul_of_pos_left (pow_inc (ht.2 t hm) hx hxy) (hc t)
      nlinarith
    have e := sum_mul_terms terms (fun t => t.1 * c t * (x ^ t.2 - y ^ t.2)) (-1)
    rw [h] at e
    have e' : (terms.map fun t => -(t.1 * c t * (x ^ t.2 - y ^ t.2)))
        = (terms.map fun t => -1 * (t.1 * c t * (x ^ t.2 - y ^ t.2))) := by
      congr 1; funext t; ring
    rw [e', ← e] at this
    linarith
  · exact hxy
  · exfalso
    have := sum_pos_terms ht.1 (f := fun t => t.1 * c t * (x ^ t.2 - y ^ t.2)) fun t hm => by
      have := mul_lt_mul_of_pos_left (pow_inc (ht.2 t hm) hy hxy) (hc t)
      nlinarith
    rw [h] at this
    exact lt_irrefl _ this

/-! ## Stresses in the axes of the rectangle -/

/-- Coordinate frame. -/
def idP : T2 := ![![1, 0], ![0, 1]]

theorem frame_rect (x y z : ℝ) : Frame unit (rect x y) idP (sqs (vec3 x y z)) := by
  refine ⟨fun i j => ?_, ?_, ?_, ?_, ?_⟩
  · rcases fin2_cases i with rfl | rfl <;> rcases fin2_cases j with rfl | rfl <;>
      simp [inv2, det2, unit, idP]
  all_goals simp [idP, rect, sqs, vec3]

theorem det_unit : det2 unit = 1 := by simp [det2, unit]

theorem sProj_id (S : Fin 3 → ℝ) :
    sProj S idP 0 0 = S 0 ∧ sProj S idP 1 1 = S 1 ∧ sProj S idP 0 1 = 0 := by
  simp [sProj, idP]

/-- Whatever the principal frame of the rectangle, the stress of an isotropic law is diagonal in its
axes. -/
theorem sProj_rect {x y : ℝ} {P : T2} {e : Fin 2 → ℝ} (f : Frame unit (rect x y) P e)
    (h : ℝ → ℝ) (S : Fin 3 → ℝ) (h0 : S 0 = h (e 0)) (h1 : S 1 = h (e 1)) :
    sProj S P 0 0 = h (x ^ 2) ∧ sProj S P 1 1 = h (y ^ 2) ∧ sProj S P 0 1 = 0 := by
  have g00 := f.G 0 0
  have g01 := f.G 0 1
  have g11 := f.G 1 1
  have i00 : inv2 unit 0 0 = 1 := by simp [inv2, det2, unit]
  have i01 : inv2 unit 0 1 = 0 := by simp [inv2, det2, unit]
  have i11 : inv2 unit 1 1 = 1 := by simp [inv2, det2, unit]
  rw [i00] at g00
  rw [i01] at g01
  rw [i11] at g11
  have d00 := f.d00
  have d11 := f.d11
  have d01 := f.d01
  have d10 := f.d10
  have r00 : rect x y 0 0 = x ^ 2 := rfl
  have r01 : rect x y 0 1 = 0 := rfl
  have r10 : rect x y 1 0 = 0 := rfl
  have r11 : rect x y 1 1 = y ^ 2 := rfl
  rw [r00, r01, r10, r11] at d00 d11 d01 d10
  have q00 : (x ^ 2 - e 0) * P 0 0 = 0 := by
    linear_combination P 0 0 * d00 + P 0 1 * d10 + x ^ 2 * P 0 0 * g00 + y ^ 2 * P 1 0 * g01
  have q01 : (x ^ 2 - e 1) * P 0 1 = 0 := by
    linear_combination P 0 0 * d01 + P 0 1 * d11 + x ^ 2 * P 0 1 * g00 + y ^ 2 * P 1 1 * g01
  have q10 : (y ^ 2 - e 0) * P 1 0 = 0 := by
    linear_combination P 1 0 * d00 + P 1 1 * d10 + x ^ 2 * P 0 0 * g01 + y ^ 2 * P 1 0 * g11
  have q11 : (y ^ 2 - e 1) * P 1 1 = 0 := by
    linear_combination P 1 0 * d01 + P 1 1 * d11 + x ^ 2 * P 0 1 * g01 + y ^ 2 * P 1 1 * g11
  have key : ∀ u v w : ℝ, (u - v) * w = 0 → h v * w = h u * w := by
    intro u v w hw
    rcases mul_eq_zero.1 hw with h' | h'
    · rw [sub_eq_zero.1 h']
    · rw [h', mul_zero, mul_zero]
  have k00 := key _ _ _ q00
  have k01 := key _ _ _ q01
  have k10 := key _ _ _ q10
  have k11 := key _ _ _ q11
  simp only [sProj, h0, h1]
  refine ⟨?_, ?_, ?_⟩
  · linear_combination P 0 0 * k00 + P 0 1 * k01 - h (x ^ 2) * g00
  · linear_combination P 1 0 * k10 + P 1 1 * k11 - h (y ^ 2) * g11
  · linear_combination P 1 0 * k00 + P 1 1 * k01 - h (x ^ 2) * g01

/-! ## Ogden form of the laws -/

/-- Principal stress times squared stretch of the compressible Ogden law. -/
noncomputable def kir (terms : List (ℝ × ℝ)) (K : ℝ) (l : Stretch) (a : Fin 3) : ℝ :=
  (terms.map fun t => t.1 * Jsq l ^ (-t.2 / 6) * (l a ^ t.2 - 1 / 3 * Lam l t.2)).sum
    + K / 2 * (Jsq l - 1)

theorem rpow_split {x : ℝ} (hx : 0 < x) (a : ℝ) : x * x ^ (a - 1) = x ^ a := by
  rw [Real.rpow_sub_one hx.ne']; field_simp

theorem kir_OGc (p : Par) (terms : List (ℝ × ℝ)) {l : Stretch} (hp : ∀ a, 0 < l a) (a : Fin 3) :
    l a * (potOGc p terms).d1 l a = kir terms p.K l a := by
  have h := (hp a).ne'
  simp only [potOGc, kir, vol1]
  rw [mul_add, sum_mul_terms]
  congr 1
  · congr 1
    apply List.map_congr_left
    intro t _
    rw [← rpow_split (hp a) t.2]
    field_simp
  · field_simp
    ring

theorem Jsq_pos {l : Stretch} (hp : ∀ a, 0 < l a) : 0 < Jsq l := by
  have h0 := hp 0
  have h1 := hp 1
  have h2 := hp 2
  simp only [Jsq]; positivity

theorem NHc_ogden (p : Par) {l : Stretch} (hp : ∀ a, 0 < l a) (a : Fin 3) :
    (potNHc p).d1 l a = (potOGc p [(p.mu, 2)]).d1 l a := by
  have h := (hp a).ne'
  simp only [potNHc, potOGc, List.map_cons, List.map_nil, List.sum_cons, List.sum_nil,
    Spectral.dI1]
  have e1 : (-2 / 6 : ℝ) = -1 / 3 := by norm_num
  have e2 : l a ^ ((2 : ℝ) - 1) = l a := by norm_num
  have e3 : Lam l 2 = Spectral.I1 l := by
    simp only [Lam, Spectral.I1, Real.rpow_two]; ring
  rw [e1, e2, e3]
  generalize Jsq l ^ (-1 / 3 : ℝ) = q
  field_simp
  ring

theorem rpow_neg_two {x : ℝ} (hx : 0 < x) : x ^ (-2 : ℝ) = 1 / x ^ 2 := by
  rw [Real.rpow_neg hx.le, Real.rpow_two, one_div]

theorem MRc_ogden (p : Par) {l : Stretch} (hp : ∀ a, 0 < l a) (a : Fin 3) :
    (potMRc p).d1 l a = (potOGc p [(p.c1, 2), (-p.c2, -2)]).d1 l a := by
  have h := (hp a).ne'
  have h0 := (hp 0).ne'
  have h1 := (hp 1).ne'
  have h2 := (hp 2).ne'
  simp only [potMRc, potOGc, List.map_cons, List.map_nil, List.sum_cons, List.sum_nil, Spectral.dI1,
    Spectral.dI2]
  have e1 : (-2 / 6 : ℝ) = -1 / 3 := by norm_num
  have e1' : (- -2 / 6 : ℝ) = 1 / 3 := by norm_num
  have e2 : l a ^ ((2 : ℝ) - 1) = l a := by norm_num
  have e2' : l a ^ ((-2 : ℝ) - 1) = 1 / l a ^ 3 := by
    rw [Real.rpow_sub_one h, rpow_neg_two (hp a)]; field_simp
  have e3 : Lam l 2 = Spectral.I1 l := by
    simp only [Lam, Spectral.I1, Real.rpow_two]; ring
  have e3' : Jsq l * Lam l (-2) = Spectral.I2 l := by
    simp only [Lam, Spectral.I2, Jsq, rpow_neg_two (hp 0), rpow_neg_two (hp 1),
      rpow_neg_two (hp 2)]
    field_simp
    ring
  have e4 : Jsq l ^ (1 / 3 : ℝ) = Jsq l * Jsq l ^ (-2 / 3 : ℝ) := by
    rw [show (-2 / 3 : ℝ) = 1 / 3 - 1 by norm_num, rpow_split (Jsq_pos hp)]
  have e5 : l a ^ 2 * (Spectral.I1 l - l a ^ 2) = Spectral.I2 l - Jsq l / l a ^ 2 := by
    rcases fin3_cases a with rfl | rfl | rfl <;>
      (simp only [Spectral.I1, Spectral.I2, Jsq]; field_simp; ring)
  have e6 : Spectral.I1 l - l a ^ 2 = (Spectral.I2 l - Jsq l / l a ^ 2) / l a ^ 2 := by
    rw [← e5]; field_simp
  rw [e1, e1', e2, e2', e3, e4, e6, ← e3']
  generalize Jsq l ^ (-1 / 3 : ℝ) = q
  generalize Jsq l ^ (-2 / 3 : ℝ) = r
  field_simp
  ring

theorem NH_ogden (p : Par) {l : Stretch} (_hp : ∀ a, 0 < l a) (a : Fin 3) :
    SaI (potNH p) l a = SaI (potOG [(p.mu, 2)]) l a := by
  have e2 : ∀ b, l b ^ ((2 : ℝ) - 1) = l b := fun b => by norm_num
  simp only [SaI, pr, dJ, potNH, potOG, List.map_cons, List.map_nil, List.sum_cons, List.sum_nil,
    Spectral.dI1, e2]
  ring

theorem MR_ogden (p : Par) {l : Stretch} (hp : ∀ a, 0 < l a) (hJ : l 2 = 1 / (l 0 * l 1))
    (a : Fin 3) : SaI (potMR p) l a = SaI (potOG [(p.c1, 2), (-p.c2, -2)]) l a := by
  have h0 := (hp 0).ne'
  have h1 := (hp 1).ne'
  have e2 : ∀ b, l b ^ ((2 : ℝ) - 1) = l b := fun b => by norm_num
  have e2' : ∀ b, l b ^ ((-2 : ℝ) - 1) = 1 / l b ^ 3 := by
    intro b
    have := (hp b).ne'
    rw [Real.rpow_sub_one this, rpow_neg_two (hp b)]; field_simp
  simp only [SaI, pr, dJ, potMR, potOG, List.map_cons, List.map_nil, List.sum_cons, List.sum_nil,
    Spectral.dI1, Spectral.dI2, Spectral.I1, e2, e2']
  rcases fin3_cases a with rfl | rfl | rfl <;> rw [hJ] <;> field_simp <;> ring

/-- Incompressible Ogden: squared stretch times principal stress. -/
theorem SaI_OG (terms : List (ℝ × ℝ)) {l : Stretch} (hp : ∀ a, 0 < l a) (a : Fin 3) :
    l a ^ 2 * SaI (potOG terms) l a = (terms.map fun t => t.1 * 1 * (l a ^ t.2 - l 2 ^ t.2)).sum := by
  have h := (hp a).ne'
  have e : ∀ b, l b * (potOG terms).d1 l b = (terms.map fun t => t.1 * l b ^ t.2).sum := by
    intro b
    simp only [potOG]
    rw [sum_mul_terms]
    congr 1
    apply List.map_congr_left
    intro t _
    rw [← rpow_split (hp b) t.2]; ring
  have : l a ^ 2 * SaI (potOG terms) l a
      = l a * (potOG terms).d1 l a - l 2 * (potOG terms).d1 l 2 := by
    simp only [SaI, pr, dJ]; field_simp
  rw [this, e, e, sum_sub_terms]
  congr 1
  apply List.map_congr_left
  intro t _
  ring

/-! ## The lateral stretch of the compressible law -/

/-- Lateral stress times the squared lateral stretch `y`, for equal lateral and thickness
stretches. -/
noncomputable def lat (terms : List (ℝ × ℝ)) (K lam y : ℝ) : ℝ :=
  (terms.map fun t => t.1 / 3 * ((y / lam) ^ (t.2 / 3) - (lam / y) ^ (2 * t.2 / 3))).sum
    + K / 2 * ((lam * y ^ 2) ^ 2 - 1)

theorem Jsq_split {x y : ℝ} (hx : 0 < x) (hy : 0 < y) (a : ℝ) :
    Jsq (vec3 x y y) ^ (-a / 6) = (x ^ (a / 3))⁻¹ * ((y ^ (a / 3))⁻¹) ^ 2 := by
  have e : Jsq (vec3 x y y) = x ^ 2 * y ^ 4 := by
    simp only [Jsq, vec3_zero, vec3_one, vec3_two]; ring
  rw [e, Real.mul_rpow (by positivity) (by positivity), ← Real.rpow_natCast x 2,
    ← Real.rpow_natCast y 4, ← Real.rpow_mul hx.le, ← Real.rpow_mul hy.le, ← Real.rpow_neg hx.le,
    ← Real.rpow_neg hy.le, ← Real.rpow_natCast _ 2, ← Real.rpow_mul hy.le]
  congr 2 <;> (push_cast; ring)

theorem cube_split {y : ℝ} (hy : 0 < y) (a : ℝ) : y ^ a = (y ^ (a / 3)) ^ 3 := by
  rw [← Real.rpow_natCast _ 3, ← Real.rpow_mul hy.le]; congr 1; push_cast; ring

theorem kir_lat (terms : List (ℝ × ℝ)) (K : ℝ) {x y : ℝ} (hx : 0 < x) (hy : 0 < y) :
    kir terms K (vec3 x y y) 1 = lat terms K x y := by
  simp only [kir, lat]
  congr 1
  · congr 1
    apply List.map_congr_left
    intro t _
    rw [Jsq_split hx hy, Lam]
    simp only [vec3_zero, vec3_one, vec3_two]
    rw [Real.div_rpow hy.le hx.le, Real.div_rpow hx.le hy.le, cube_split hx t.2,
      cube_split hy t.2, show 2 * t.2 / 3 = t.2 / 3 * (2 : ℕ) by push_cast; ring,
      Real.rpow_mul hx.le, Real.rpow_mul hy.le, Real.rpow_natCast, Real.rpow_natCast]
    have hu : x ^ (t.2 / 3) ≠ 0 := (Real.rpow_pos_of_pos hx _).ne'
    have hv : y ^ (t.2 / 3) ≠ 0 := (Real.rpow_pos_of_pos hy _).ne'
    generalize x ^ (t.2 / 3) = u at *
    generalize y ^ (t.2 / 3) = v at *
    field_simp
    ring
  · simp only [Jsq, vec3_zero, vec3_one, vec3_two]; ring

/-- Axial counterpart. -/
theorem kir_axial (terms : List (ℝ × ℝ)) (K : ℝ) {x y : ℝ} (hx : 0 < x) (hy : 0 < y) :
    kir terms K (vec3 x y y) 0
      = (terms.map fun t => t.1 * (2 / 3 * ((x / y) ^ (2 * t.2 / 3) - (y / x) ^ (t.2 / 3)))).sum
        + K / 2 * ((x * y ^ 2) ^ 2 - 1) := by
  simp only [kir]
  congr 1
  · congr 1
    apply List.map_congr_left
    intro t _
    rw [Jsq_split hx hy, Lam]
    simp only [vec3_zero, vec3_one, vec3_two]
    rw [Real.div_rpow hy.le hx.le, Real.div_rpow hx.le hy.le, cube_split hx t.2,
      cube_split hy t.2, show 2 * t.2 / 3 = t.2 / 3 * (2 : ℕ) by push_cast; ring,
      Real.rpow_mul hx.le, Real.rpow_mul hy.le, Real.rpow_natCast, Real.rpow_natCast]
    have hu : x ^ (t.2 / 3) ≠ 0 := (Real.rpow_pos_of_pos hx _).ne'
    have hv : y ^ (t.2 / 3) ≠ 0 := (Real.rpow_pos_of_pos hy _).ne'
    generalize x ^ (t.2 / 3) = u at *
    generalize y ^ (t.2 / 3) = v at *
    field_simp
    ring
  · simp only [Jsq, vec3_zero, vec3_one, vec3_two]; ring

theorem lat_mono {terms : List (ℝ × ℝ)} (ht : ∀ t ∈ terms, 0 < t.1 * t.2) {K lam : ℝ} (hK : 0 < K)
    (hl : 0 < lam) {x y : ℝ} (hx : 0 < x) (hxy : x < y) : lat terms K lam x < lat terms K lam y := by
  have hy := hx.trans hxy
  have h1 : (terms.map fun t => t.1 / 3 * ((x / lam) ^ (t.2 / 3) - (lam / x) ^ (2 * t.2 / 3))).sum
      ≤ (terms.map fun t => t.1 / 3 * ((y / lam) ^ (t.2 / 3) - (lam / y) ^ (2 * t.2 / 3))).sum := by
    rw [← sub_nonneg, sum_sub_terms]
    refine sum_nonneg_terms fun t hm => ?_
    have p := ht t hm
    have i1 := pow_inc (m := t.1) (a := t.2 / 3) (by linarith) (div_pos hx hl)
      (div_lt_div_of_pos_right hxy hl)
    have i2 := pow_inc (m := t.1) (a := 2 * t.2 / 3) (by linarith) (div_pos hl hy)
      (div_lt_div_of_pos_left hl hx hxy)
    nlinarith
  have h2 : (lam * x ^ 2) ^ 2 < (lam * y ^ 2) ^ 2 := by
    have : lam * x ^ 2 < lam * y ^ 2 := mul_lt_mul_of_pos_left (by nlinarith) hl
    exact pow_lt_pow_left₀ this (by positivity) (by norm_num)
  have h3 := mul_lt_mul_of_pos_left h2 (by positivity : 0 < K / 2)
  unfold lat
  linarith

theorem lat_cont (terms : List (ℝ × ℝ)) (K lam : ℝ) (hl : 0 < lam) :
    ContinuousOn (lat terms K lam) (Set.Ioi 0) := by
  have hs : ContinuousOn (fun y : ℝ => (terms.map fun t =>
      t.1 / 3 * ((y / lam) ^ (t.2 / 3) - (lam / y) ^ (2 * t.2 / 3))).sum) (Set.Ioi 0) := by
    induction terms with
    | nil => simpa using continuousOn_const
    | cons t ts ih =>
      simp only [List.map_cons, List.sum_cons]
      refine ContinuousOn.add (continuousOn_const.mul (ContinuousOn.sub ?_ ?_)) ih
      · exact (continuousOn_id.div_const lam).rpow_const fun x hx =>
          Or.inl (div_pos hx hl).ne'
      · exact (continuousOn_const.div continuousOn_id fun x hx => ne_of_gt hx).rpow_const
          fun x hx => Or.inl (div_pos hl hx).ne'
  unfold lat
  exact hs.add (continuousOn_const.mul (((continuousOn_const.mul (continuousOn_id.pow 2)).pow 2).sub
    continuousOn_const))

/-- `lat` at equal stretches and at constant volume. -/
theorem lat_self (terms : List (ℝ × ℝ)) (K : ℝ) {lam : ℝ} (hl : 0 < lam) :
    lat terms K lam lam = K / 2 * ((lam ^ 3) ^ 2 - 1) := by
  simp only [lat, div_self hl.ne', Real.one_rpow, sub_self, mul_zero]
  have : (terms.map fun _ => (0 : ℝ)).sum = 0 := by
    induction terms with
    | nil => simp
    | cons t ts ih => simp
  rw [this]; ring

theorem lat_vol (terms : List (ℝ × ℝ)) (K : ℝ) {lam y : ℝ} (h : lam * y ^ 2 = 1) :
    lat terms K lam y
      = (terms.map fun t => t.1 / 3 * ((y / lam) ^ (t.2 / 3) - (lam / y) ^ (2 * t.2 / 3))).sum := by
  simp only [lat, h]; ring

/-- Sign of the deviatoric part. -/
theorem dev_sign {terms : List (ℝ × ℝ)} (ht : ∀ t ∈ terms, 0 < t.1 * t.2) {lam y : ℝ} (hl : 0 < lam)
    (hy : 0 < y) :
    (y ≤ lam → (terms.map fun t =>
      t.1 / 3 * ((y / lam) ^ (t.2 / 3) - (lam / y) ^ (2 * t.2 / 3))).sum ≤ 0) ∧
    (lam ≤ y → 0 ≤ (terms.map fun t =>
      t.1 / 3 * ((y / lam) ^ (t.2 / 3) - (lam / y) ^ (2 * t.2 / 3))).sum) := by
  constructor
  · intro h
    have e : ∀ t : ℝ × ℝ, -1 * (t.1 / 3 * ((y / lam) ^ (t.2 / 3) - (lam / y) ^ (2 * t.2 / 3)))
        = t.1 / 3 * ((lam / y) ^ (2 * t.2 / 3) - (y / lam) ^ (t.2 / 3)) := fun t => by ring
    have := sum_nonneg_terms (terms := terms)
      (f := fun t => t.1 / 3 * ((lam / y) ^ (2 * t.2 / 3) - (y / lam) ^ (t.2 / 3))) fun t hm => by
        have p := ht t hm
        have hle : y / lam ≤ 1 := (div_le_one hl).2 h
        have hge : 1 ≤ lam / y := (one_le_div hy).2 h
        have i1 : t.1 * (y / lam) ^ (t.2 / 3) ≤ t.1 * 1 ^ (t.2 / 3) := by
          rcases hle.lt_or_eq with h' | h'
          · exact (pow_inc (by linarith) (div_pos hy hl) h').le
          · rw [h']
        have i2 : t.1 * 1 ^ (2 * t.2 / 3) ≤ t.1 * (lam / y) ^ (2 * t.2 / 3) := by
          rcases hge.lt_or_eq with h' | h'
          · exact (pow_inc (by linarith) one_pos h').le
          · rw [h']
        rw [Real.one_rpow] at i1 i2
        nlinarith
    simp only [← e] at this
    rw [← sum_mul_terms] at this
    linarith
  · intro h
    refine sum_nonneg_terms fun t hm => ?_
    have p := ht t hm
    have hge : 1 ≤ y / lam := (one_le_div hl).2 h
    have hle : lam / y ≤ 1 := (div_le_one hy).2 h
    have i1 : t.1 * 1 ^ (t.2 / 3) ≤ t.1 * (y / lam) ^ (t.2 / 3) := by
      rcases hge.lt_or_eq with h' | h'
      · exact (pow_inc (by linarith) one_pos h').le
      · rw [h']
    have i2 : t.1 * (lam / y) ^ (2 * t.2 / 3) ≤ t.1 * 1 ^ (2 * t.2 / 3) := by
      rcases hle.lt_or_eq with h' | h'
      · exact (pow_inc (by linarith) (div_pos hl hy) h').le
      · rw [h']
    rw [Real.one_rpow] at i1 i2
    nlinarith

/-- Existence of the lateral stretch, between equal stretches and constant volume. -/
theorem lat_root {terms : List (ℝ × ℝ)} (ht : ∀ t ∈ terms, 0 < t.1 * t.2) {K lam : ℝ} (hK : 0 < K)
    (hl : 0 < lam) : ∃ y, 0 < y ∧ lat terms K lam y = 0 ∧
      (1 ≤ lam → 1 ≤ lam * y ^ 2 ∧ y ≤ lam) ∧ (lam ≤ 1 → lam * y ^ 2 ≤ 1 ∧ lam ≤ y) := by
  set z := Real.sqrt (1 / lam) with hz
  have hz0 : 0 < z := Real.sqrt_pos.2 (by positivity)
  have hz2 : z ^ 2 = 1 / lam := Real.sq_sqrt (by positivity)
  have hvol : lam * z ^ 2 = 1 := by rw [hz2]; field_simp
  rcases le_total 1 lam with h | h
  · have hzl : z ≤ lam := by
      have : z ^ 2 ≤ lam ^ 2 := by
        rw [hz2, div_le_iff₀ hl]; nlinarith [mul_pos hl hl]
      exact (pow_le_pow_iff_left₀ hz0.le hl.le (by norm_num)).1 this
    have lo : lat terms K lam z ≤ 0 := by
      rw [lat_vol terms K hvol]; exact (dev_sign ht hl hz0).1 hzl
    have hi : 0 ≤ lat terms K lam lam := by
      rw [lat_self terms K hl]
      have : 1 ≤ lam ^ 3 := one_le_pow₀ h
      have : 1 ≤ (lam ^ 3) ^ 2 := one_le_pow₀ this
      exact mul_nonneg (by positivity) (by linarith)
    obtain ⟨y, hy, h0⟩ := intermediate_value_Icc hzl
      ((lat_cont terms K lam hl).mono fun w hw => lt_of_lt_of_le hz0 hw.1) ⟨lo, hi⟩
    have hy0 := lt_of_lt_of_le hz0 hy.1
    have hge : 1 ≤ lam * y ^ 2 := by
      rw [← hvol]
      exact mul_le_mul_of_nonneg_left (pow_le_pow_left₀ hz0.le hy.1 2) hl.le
    refine ⟨y, hy0, h0, fun _ => ⟨hge, hy.2⟩, fun h' => ?_⟩
    have e : lam = 1 := le_antisymm h' h
    have ez : z = 1 := by rw [hz, e]; simp
    have : y = 1 := le_antisymm (by rw [← e]; exact hy.2) (by rw [← ez]; exact hy.1)
    rw [e, this]; norm_num
  · have hzl : lam ≤ z := by
      have : lam ^ 2 ≤ z ^ 2 := by
        rw [hz2, le_div_iff₀ hl]
        have : lam ^ 3 ≤ 1 := pow_le_one₀ hl.le h
        calc lam ^ 2 * lam = lam ^ 3 := by ring
          _ ≤ 1 := this
      exact (pow_le_pow_iff_left₀ hl.le hz0.le (by norm_num)).1 this
    have hi : 0 ≤ lat terms K lam z := by
      rw [lat_vol terms K hvol]; exact (dev_sign ht hl hz0).2 hzl
    have lo : lat terms K lam lam ≤ 0 := by
      rw [lat_self terms K hl]
      have : lam ^ 3 ≤ 1 := pow_le_one₀ hl.le h
      have : (lam ^ 3) ^ 2 ≤ 1 := pow_le_one₀ (by positivity) this
      exact mul_nonpos_of_nonneg_of_nonpos (by positivity) (by linarith)
    obtain ⟨y, hy, h0⟩ := intermediate_value_Icc hzl
      ((lat_cont terms K lam hl).mono fun w hw => lt_of_lt_of_le hl hw.1) ⟨lo, hi⟩
    have hy0 := lt_of_lt_of_le hl hy.1
    have hge : lam * y ^ 2 ≤ 1 := by
      rw [← hvol]
      exact mul_le_mul_of_nonneg_left (pow_le_pow_left₀ hy0.le hy.2 2) hl.le
    refine ⟨y, hy0, h0, fun h' => ?_, fun _ => ⟨hge, hy.1⟩⟩
    have e : lam = 1 := le_antisymm h h'
    have ez : z = 1 := by rw [hz, e]; simp
    have : y = 1 := le_antisymm (by rw [← ez]; exact hy.2) (by rw [← e]; exact hy.1)
    rw [e, this]; norm_num

end Verif.Benchmark
