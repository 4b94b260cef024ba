import Verif.Lemmas.Benchmark
import Verif.Props.SpectralAgree

/-! # Helper lemmas: states of uniaxial tension -/

set_option linter.unusedVariables false

namespace Verif.Benchmark

open Verif.Hyper Verif.Spectral Spec.Benchmark Spec.Spectral

theorem lateralI_iff {x y : ℝ} (hx : 0 < x) (hy : 0 < y) : y = lateralI x ↔ x * y ^ 2 = 1 := by
  have e : lateralI x = Real.sqrt (1 / x) := by
    rw [lateralI, Real.sqrt_eq_rpow]; norm_num
  rw [e]
  constructor
  · intro h
    rw [h, Real.sq_sqrt (by positivity)]; field_simp
  · intro h
    rw [← Real.sqrt_sq hy.le]
    congr 1
    field_simp
    linarith

/-- Stress of an incompressible law in Ogden form, in the axes of the rectangle. -/
theorem incompressible {terms : List (ℝ × ℝ)} (ht : Admissible terms) {x y : ℝ} (hx : 0 < x)
    (hy : 0 < y) {S0 S1 : ℝ} (h0 : S0 = SaI (potOG terms) (vec3 x y (1 / (x * y))) 0)
    (h1 : S1 = SaI (potOG terms) (vec3 x y (1 / (x * y))) 1) :
    (S1 = 0 ↔ y = lateralI x) ∧ (y = lateralI x → cauchy x 1 S0 = uatOG terms x) := by
  set l : Stretch := vec3 x y (1 / (x * y)) with hl
  have hp : ∀ a, 0 < l a := by
    intro a
    rcases fin3_cases a with rfl | rfl | rfl
    · exact hx
    · exact hy
    · exact (by positivity : 0 < 1 / (x * y))
  have l0 : l 0 = x := rfl
  have l1 : l 1 = y := rfl
  have l2 : l 2 = 1 / (x * y) := rfl
  have e0 := SaI_OG terms hp 0
  have e1 := SaI_OG terms hp 1
  rw [← h0] at e0
  rw [← h1] at e1
  rw [l0, l2] at e0
  rw [l1, l2] at e1
  have eq : y = lateralI x ↔ y = 1 / (x * y) := by
    rw [lateralI_iff hx hy, eq_div_iff (by positivity)]
    constructor <;> intro h <;> linarith
  refine ⟨⟨fun h => ?_, fun h => ?_⟩, fun h => ?_⟩
  · rw [eq]
    rw [h, mul_zero] at e1
    exact terms_inj ht (c := fun _ => 1) (fun _ => one_pos) hy (by positivity) e1.symm
  · have h' := eq.1 h
    rw [← h'] at e1
    have z : (terms.map fun t : ℝ × ℝ => t.1 * 1 * (y ^ t.2 - y ^ t.2)).sum = 0 := by
      simp
    rw [z] at e1
    exact (mul_eq_zero.1 e1).resolve_left (by positivity)
  · have h' := eq.1 h
    rw [← h'] at e0
    rw [cauchy, div_one, e0, uatOG, add_comm,
      show (terms.map fun t : ℝ × ℝ => -t.1 * (1 / x) ^ (0.5 * t.2)).sum
        = -(terms.map fun t : ℝ × ℝ => t.1 * (1 / x) ^ (0.5 * t.2)).sum by
        rw [← neg_one_mul, sum_mul_terms]; congr 1; apply List.map_congr_left; intro t _; ring,
      ← sub_eq_add_neg, sum_sub_terms]
    congr 1
    apply List.map_congr_left
    intro t _
    rw [Real.rpow_mul (by positivity), ← lateralI, ← h]
    ring

/-- The function of the eigenvalue giving the principal stresses of the incompressible Ogden law. -/
noncomputable def lawI (terms : List (ℝ × ℝ)) (z e : ℝ) : ℝ :=
  1 / Real.sqrt e * ((terms.map fun t => t.1 * Real.sqrt e ^ (t.2 - 1)).sum
    - z * (terms.map fun t => t.1 * z ^ (t.2 - 1)).sum * (1 / Real.sqrt e))

theorem lawI_eq (terms : List (ℝ × ℝ)) (l : Stretch) (a : Fin 3) (h : 0 < l a) :
    SaI (potOG terms) l a = lawI terms (l 2) (l a ^ 2) := by
  simp only [lawI, Real.sqrt_sq h.le, SaI, pr, dJ, potOG]

/-! ## Compressible materials -/

/-- Stress of a compressible law in Ogden form; `S0`, `S1` and `S2` are the stresses of the rectangle
`x`, `y` with the thickness stretch `c`. -/
theorem compressible {terms : List (ℝ × ℝ)} (ht : Admissible terms) {K x y0 : ℝ} (hK : 0 < K)
    (hx : 0 < x) (hy0 : 0 < y0) (hr : lat terms K x y0 = 0) {y c : ℝ} (hy : 0 < y) (hc : 0 < c)
    {S : Fin 3 → ℝ}
    (hS : ∀ a, vec3 x y (Real.sqrt c) a ^ 2 * S a = kir terms K (vec3 x y (Real.sqrt c)) a) :
    (S 1 = 0 ∧ S 2 = 0 ↔ y = y0 ∧ c = y0 ^ 2) := by
  have hs : 0 < Real.sqrt c := Real.sqrt_pos.2 hc
  have hp : ∀ a, 0 < vec3 x y (Real.sqrt c) a := by
    intro a
    rcases fin3_cases a with rfl | rfl | rfl
    · exact hx
    · exact hy
    · exact hs
  have s1 := hS 1
  have s2 := hS 2
  constructor
  · rintro ⟨z1, z2⟩
    rw [z1, mul_zero] at s1
    rw [z2, mul_zero] at s2
    have e : (terms.map fun t => t.1 * Jsq (vec3 x y (Real.sqrt c)) ^ (-t.2 / 6)
        * (y ^ t.2 - Real.sqrt c ^ t.2)).sum = 0 := by
      have d : kir terms K (vec3 x y (Real.sqrt c)) 1 - kir terms K (vec3 x y (Real.sqrt c)) 2
          = 0 := by rw [← s1, ← s2]; ring
      simp only [kir, add_sub_add_right_eq_sub, vec3_one, vec3_two] at d
      rw [sum_sub_terms] at d
      rw [← d]
      congr 1
      apply List.map_congr_left
      intro t _
      ring
    have hyc := terms_inj ht (c := fun t => Jsq (vec3 x y (Real.sqrt c)) ^ (-t.2 / 6))
      (fun t => Real.rpow_pos_of_pos (Jsq_pos hp) _) hy hs e
    rw [← hyc, kir_lat terms K hx hy] at s1
    have : y = y0 := by
      rcases lt_trichotomy y y0 with h | h | h
      · have := lat_mono ht.2 hK hx hy h; linarith
      · exact h
      · have := lat_mono ht.2 hK hx hy0 h; linarith
    refine ⟨this, ?_⟩
    rw [← this, hyc, Real.sq_sqrt hc.le]
  · rintro ⟨rfl, rfl⟩
    have es : Real.sqrt (y ^ 2) = y := Real.sqrt_sq hy.le
    rw [es] at s1 s2
    have k2 : kir terms K (vec3 x y y) 2 = kir terms K (vec3 x y y) 1 := rfl
    rw [k2, kir_lat terms K hx hy, hr] at s2
    rw [kir_lat terms K hx hy, hr] at s1
    simp only [vec3_one, vec3_two] at s1 s2
    exact ⟨(mul_eq_zero.1 s1).resolve_left (by positivity),
      (mul_eq_zero.1 s2).resolve_left (by positivity)⟩

theorem lateralC_self {x y : ℝ} (hx : 0 < x) (hy : 0 < y) : y = lateralC x (x * y ^ 2) := by
  rw [lateralC, mul_div_cancel_left₀ _ hx.ne', show (0.5 : ℝ) = 1 / 2 by norm_num,
    ← Real.sqrt_eq_rpow, Real.sqrt_sq hy.le]

/-- Axial stress in Ogden form. -/
theorem axial {terms : List (ℝ × ℝ)} (ht : Admissible terms) (K : ℝ) {x y S0 : ℝ} (hx : 0 < x)
    (hy : 0 < y) (h : x ^ 2 * S0 = kir terms K (vec3 x y y) 0) :
    cauchy x (x * y ^ 2) S0 = uatOGc terms K x (x * y ^ 2) := by
  have hlat := lateralC_self hx hy
  rw [lateralC] at hlat
  have c3 : (x * y ^ 2) ^ (1 / 3 : ℝ) = x ^ (1 / 3 : ℝ) * (y ^ (1 / 3 : ℝ)) ^ 2 := by
    rw [Real.mul_rpow hx.le (by positivity), ← Real.rpow_natCast y 2, ← Real.rpow_natCast _ 2,
      ← Real.rpow_mul hy.le, ← Real.rpow_mul hy.le]
    congr 2; ring
  have hx3 : (x ^ (1 / 3 : ℝ)) ^ 3 = x := by
    rw [← Real.rpow_natCast _ 3, ← Real.rpow_mul hx.le]; norm_num
  have hy3 : (y ^ (1 / 3 : ℝ)) ^ 3 = y := by
    rw [← Real.rpow_natCast _ 3, ← Real.rpow_mul hy.le]; norm_num
  have pu : 0 < x ^ (1 / 3 : ℝ) := Real.rpow_pos_of_pos hx _
  have pv : 0 < y ^ (1 / 3 : ℝ) := Real.rpow_pos_of_pos hy _
  have t1 : x / (x * y ^ 2) ^ (1 / 3 : ℝ) = (x / y) ^ (2 / 3 : ℝ) := by
    rw [c3, show (2 / 3 : ℝ) = 1 / 3 * (2 : ℕ) by norm_num,
      Real.rpow_mul (by positivity), Real.div_rpow hx.le hy.le, Real.rpow_natCast]
    nth_rw 1 [← hx3]
    field_simp
  have t2 : y / (x * y ^ 2) ^ (1 / 3 : ℝ) = (y / x) ^ (1 / 3 : ℝ) := by
    rw [c3, Real.div_rpow hy.le hx.le]
    nth_rw 1 [← hy3]
    field_simp
  rw [cauchy, h, kir_axial terms K hx hy, uatOGc, ← hlat, t1, t2, mul_add, sum_mul_terms]
  have e : (terms.map fun t => x * (t.1 * (2 * ((x / y) ^ (2 / 3 : ℝ)) ^ t.2 * t.2 / (3 * x)
      - 2 * ((y / x) ^ (1 / 3 : ℝ)) ^ t.2 * t.2 / (3 * x)) / t.2)).sum
      = (terms.map fun t => t.1 * (2 / 3 * ((x / y) ^ (2 * t.2 / 3) - (y / x) ^ (t.2 / 3)))).sum := by
    congr 1
    apply List.map_congr_left
    intro t hm
    have ha : t.2 ≠ 0 := by
      intro h0
      have := ht.2 t hm
      rw [h0, mul_zero] at this
      exact lt_irrefl _ this
    rw [← Real.rpow_mul (by positivity), ← Real.rpow_mul (by positivity),
      show 2 / 3 * t.2 = 2 * t.2 / 3 by ring, show 1 / 3 * t.2 = t.2 / 3 by ring]
    field_simp
  rw [e]
  have hJ : 1 / 4 * K * (2 * (x * y ^ 2) ^ 2 / x - 2 / x) * x = K / 2 * ((x * y ^ 2) ^ 2 - 1) := by
    field_simp
    ring
  rw [← hJ]
  norm_num
  ring

theorem bulk_eq (p : Par) (h : 1 + p.ν ≠ 0) : bulk p.mu p.ν = p.K := by
  simp only [bulk, Par.mu, Par.K]
  congr 1
  field_simp

/-- Frames of the rectangle for the compressible laws. -/
theorem tension_of {terms : List (ℝ × ℝ)} (ht : Admissible terms) {K x : ℝ} (hK : 0 < K)
    (hx : 0 < x) (S : ℝ → ℝ → Fin 3 → Fin 3 → ℝ) (sigma : ℝ → ℝ)
    (hS : ∀ y c, 0 < y → 0 < c → ∀ a,
      vec3 x y (Real.sqrt c) a ^ 2 * S y c a a = kir terms K (vec3 x y (Real.sqrt c)) a)
    (h01 : ∀ y c, 0 < y → 0 < c → S y c 0 1 = 0)
    (hs : ∀ J, 0 < J → uatOGc terms K x J = sigma J) : Tension S x sigma := by
  obtain ⟨y0, hy0, hr, b1, b2⟩ := lat_root ht.2 hK hx
  have hc0 : 0 < y0 ^ 2 := by positivity
  refine ⟨y0, hy0, fun y c hy hc => ?_, h01 _ _ hy0 hc0, lateralC_self hx hy0, ?_, b1, b2⟩
  · exact compressible ht hK hx hy0 hr hy hc (S := fun a => S y c a a) (hS y c hy hc)
  · rw [← hs _ (by positivity)]
    refine axial ht K hx hy0 ?_
    have := hS y0 (y0 ^ 2) hy0 hc0 0
    rwa [Real.sqrt_sq hy0.le] at this

theorem SaC_kir (p : Par) (terms : List (ℝ × ℝ)) (w : Pot) {l : Stretch} (hp : ∀ a, 0 < l a)
    (a : Fin 3) (h : w.d1 l a = (potOGc p terms).d1 l a) : l a ^ 2 * SaC w l a = kir terms p.K l a := by
  have := (hp a).ne'
  rw [← kir_OGc p terms hp, ← h, SaC]
  field_simp

theorem pos_rect {x y c : ℝ} (hx : 0 < x) (hy : 0 < y) (hc : 0 < c) :
    ∀ a, 0 < vec3 x y (Real.sqrt c) a := by
  intro a
  rcases fin3_cases a with rfl | rfl | rfl
  · exact hx
  · exact hy
  · exact Real.sqrt_pos.2 hc

/-- The function of the eigenvalue giving the principal stresses of the compressible Ogden law. -/
noncomputable def lawC (terms : List (ℝ × ℝ)) (K J : ℝ) (L : ℝ → ℝ) (e : ℝ) : ℝ :=
  1 / Real.sqrt e * ((terms.map fun t => t.1 * J ^ (-t.2 / 6)
      * (Real.sqrt e ^ (t.2 - 1) - 1 / 3 * 1 / Real.sqrt e * L t.2)).sum
    + K / (Real.sqrt e * (-2)) * (1 - J))

theorem lawC_eq (p : Par) (terms : List (ℝ × ℝ)) (l : Stretch) (a : Fin 3) (h : 0 < l a) :
    SaC (potOGc p terms) l a = lawC terms p.K (Jsq l) (Lam l) (l a ^ 2) := by
  simp only [lawC, Real.sqrt_sq h.le, SaC, potOGc, vol1]

/-- Stresses of the spectral implementation in the axes of the rectangle. -/
theorem spectral_rect (p : Par) (terms : List (ℝ × ℝ)) {x y c : ℝ} (hx : 0 < x) (hy : 0 < y)
    (hc : 0 < c) {g : Cols} {solver : T3 → Eig}
    (r : Regular unit (rect x y) g (eigOf solver (Bmat (rect x y) g))) :
    sSpecC solver (potOGc p terms) (rect x y) c g 0 0
      = SaC (potOGc p terms) (vec3 x y (Real.sqrt c)) 0 ∧
    sSpecC solver (potOGc p terms) (rect x y) c g 1 1
      = SaC (potOGc p terms) (vec3 x y (Real.sqrt c)) 1 ∧
    sSpecC solver (potOGc p terms) (rect x y) c g 0 1 = 0 ∧
    SaC (potOGc p terms) (stretches solver (rect x y) c g) 2
      = SaC (potOGc p terms) (vec3 x y (Real.sqrt c)) 2 := by
  obtain ⟨f, hp, h2⟩ := regular_frame r hc
  set l := stretches solver (rect x y) c g with hl
  have l2 : l 2 = Real.sqrt c := rfl
  -- the in-plane stretches are the sides in some order
  have hev := f.eigenvalues (by rw [det_unit]; norm_num) rfl
  have ev : ∀ t, (x ^ 2 - t) * (y ^ 2 - t) = (t - l 0 ^ 2) * (t - l 1 ^ 2) := by
    intro t
    have := hev t
    have u00 : unit 0 0 = 1 := rfl
    have u01 : unit 0 1 = 0 := rfl
    have u10 : unit 1 0 = 0 := rfl
    have u11 : unit 1 1 = 1 := rfl
    have r00 : rect x y 0 0 = x ^ 2 := rfl
    have r01 : rect x y 0 1 = 0 := rfl
    have r10 : rect x y 1 0 = 0 := rfl
    have r11 : rect x y 1 1 = y ^ 2 := rfl
    simp only [u00, u01, u10, u11, r00, r01, r10, r11, sqs, up_zero, up_one] at this
    linear_combination this
  have sqeq : ∀ {u v : ℝ}, 0 < u → 0 < v → u ^ 2 = v ^ 2 → u = v := fun hu hv h =>
    (pow_left_inj₀ hu.le hv.le (by norm_num)).1 h
  have hcase : (l 0 = x ∧ l 1 = y) ∨ (l 0 = y ∧ l 1 = x) := by
    have e0 := ev (l 0 ^ 2)
    rw [sub_self, zero_mul] at e0
    have es := ev 0
    have e1 := ev 1
    rcases mul_eq_zero.1 e0 with h | h
    · have h0 : l 0 = x := sqeq (hp 0) hx (by linarith)
      refine Or.inl ⟨h0, sqeq (hp 1) hy ?_⟩
      rw [h0] at es e1
      linarith
    · have h0 : l 0 = y := sqeq (hp 0) hy (by linarith)
      refine Or.inr ⟨h0, sqeq (hp 1) hx ?_⟩
      rw [h0] at es e1
      linarith
  have hJ : Jsq l = Jsq (vec3 x y (Real.sqrt c)) := by
    rcases hcase with ⟨a, b⟩ | ⟨a, b⟩
    · simp only [Jsq, a, b, l2, vec3_zero, vec3_one, vec3_two]
    · simp only [Jsq, a, b, l2, vec3_zero, vec3_one, vec3_two]; ring
  have hL : Lam l = Lam (vec3 x y (Real.sqrt c)) := by
    funext al
    rcases hcase with ⟨a, b⟩ | ⟨a, b⟩
    · simp only [Lam, a, b, l2, vec3_zero, vec3_one, vec3_two]
    · simp only [Lam, a, b, l2, vec3_zero, vec3_one, vec3_two]; ring
  have hv := pos_rect hx hy hc
  obtain ⟨a0, a1, a2⟩ := sProj_rect f (lawC terms p.K (Jsq l) (Lam l)) (SaC (potOGc p terms) l)
    (by rw [lawC_eq p terms l 0 (hp 0)]; rfl) (by rw [lawC_eq p terms l 1 (hp 1)]; rfl)
  refine ⟨?_, ?_, a2, ?_⟩
  · rw [lawC_eq p terms _ 0 (hv 0), ← hJ, ← hL]; exact a0
  · rw [lawC_eq p terms _ 1 (hv 1), ← hJ, ← hL]; exact a1
  · rw [lawC_eq p terms _ 2 (hv 2), lawC_eq p terms _ 2 (hp 2), ← hJ, ← hL]; rfl

/-! ## The volume ratios of the unit test -/

/-- The lateral equation at the stretch 2. -/
theorem lat_two (terms : List (ℝ × ℝ)) (K : ℝ) {y : ℝ} (hy : 0 < y) :
    lat terms K 2 y = (terms.map fun t => t.1 / 3 * ((y / 2) ^ (t.2 / 3)
      - 1 / ((y / 2) ^ (t.2 / 3)) ^ 2)).sum + K / 2 * ((2 * y ^ 2) ^ 2 - 1) := by
  unfold lat
  congr 2
  apply List.map_congr_left
  intro t _
  congr 2
  rw [← Real.rpow_natCast _ 2, ← Real.rpow_mul (by positivity), one_div, ← Real.rpow_neg
    (by positivity), show (2 : ℝ) / y = (y / 2)⁻¹ by rw [inv_div], Real.inv_rpow (by positivity),
    ← Real.rpow_neg (by positivity)]
  congr 1
  push_cast
  ring

theorem phi_mono {u v : ℝ} (hu : 0 < u) (h : u ≤ v) : u - 1 / u ^ 2 ≤ v - 1 / v ^ 2 := by
  have : 1 / v ^ 2 ≤ 1 / u ^ 2 :=
    one_div_le_one_div_of_le (by positivity) (pow_le_pow_left₀ hu.le h 2)
  linarith

/-- From the volume ratio to the lateral stretch. -/
theorem lateral_close {y J : ℝ} (hy : 0 < y) (hJ : 1 < J) (h : |2 * y ^ 2 - J| < 2e-10) :
    |y / lateralC 2 J - 1| < 1e-9 := by
  have e : lateralC 2 J = Real.sqrt (J / 2) := by
    rw [lateralC, Real.sqrt_eq_rpow]; norm_num
  have hL : 0 < lateralC 2 J := by rw [e]; exact Real.sqrt_pos.2 (by linarith)
  have hL2 : lateralC 2 J ^ 2 = J / 2 := by rw [e]; exact Real.sq_sqrt (by linarith)
  set q := y / lateralC 2 J with hq
  have hq0 : 0 < q := div_pos hy hL
  have hq2 : q ^ 2 - 1 = (2 * y ^ 2 - J) / J := by
    rw [hq, div_pow, hL2]; field_simp
  have h1 : |q ^ 2 - 1| < 2e-10 := by
    rw [hq2, abs_div, abs_of_pos (by linarith : 0 < J), div_lt_iff₀ (by linarith)]
    nlinarith
  have h2 : |q - 1| ≤ |q ^ 2 - 1| := by
    rw [show q ^ 2 - 1 = (q - 1) * (q + 1) by ring, abs_mul, abs_of_pos (by linarith : 0 < q + 1)]
    nlinarith [abs_nonneg (q - 1)]
  calc |q - 1| ≤ |q ^ 2 - 1| := h2
    _ < 2e-10 := h1
    _ < 1e-9 := by norm_num

theorem root_le {n : ℕ} (hn : n ≠ 0) {u w : ℝ} (hu : 0 ≤ u) (hw : 0 ≤ w) (h : u ^ n ≤ w ^ n) :
    u ≤ w := (pow_le_pow_iff_left₀ hu hw hn).1 h

theorem power_id {b : ℝ} (hb : 0 < b) (a : ℝ) (n m : ℕ) (h : a * n = 2 * m) :
    (b ^ a) ^ n = (b ^ 2) ^ m := by
  rw [← Real.rpow_natCast _ n, ← Real.rpow_mul hb.le, h, ← pow_mul, ← Real.rpow_natCast b]
  push_cast; ring_nf

/-- Volume ratio of the neo-Hookean law. -/
theorem oracle_NH {m y : ℝ} (hm : 0 < m) (hy : 0 < y) (h : lat [(m, 2)] (29 / 3 * m) 2 y = 0) :
    |2 * y ^ 2 - 1.105598565| < 2e-10 := by
  rw [lat_two _ _ hy] at h
  simp only [List.map_cons, List.map_nil, List.sum_cons, List.sum_nil] at h
  have hb : 0 < y / 2 := by positivity
  have hs : 0 < (y / 2) ^ ((2 : ℝ) / 3) := Real.rpow_pos_of_pos hb _
  have s3 := power_id hb (2 / 3) 3 1 (by norm_num)
  rw [pow_one] at s3
  set s := (y / 2) ^ ((2 : ℝ) / 3) with hsd
  have h' : (s - 1 / s ^ 2) / 3 + 29 / 6 * ((2 * y ^ 2) ^ 2 - 1) = 0 := by
    have : m * ((s - 1 / s ^ 2) / 3 + 29 / 6 * ((2 * y ^ 2) ^ 2 - 1)) = 0 := by linarith
    exact (mul_eq_zero.1 this).resolve_left hm.ne'
  have hw : (y / 2) ^ 2 = (2 * y ^ 2) / 8 := by ring
  rw [hw] at s3
  generalize 2 * y ^ 2 = J at *
  rw [abs_lt]
  constructor
  · by_contra hcon
    have hJ : J ≤ 1.1055985648 := by linarith
    have hJ0 : 0 < J := by nlinarith [pow_pos hs 3]
    have b1 : s ≤ 0.51701422591 := root_le (n := 3) (by norm_num) hs.le (by norm_num) (by
      rw [s3]; calc J / 8 ≤ 1.1055985648 / 8 := by linarith
        _ ≤ _ := by norm_num)
    have b2 := phi_mono hs b1
    have b3 : J ^ 2 ≤ 1.1055985648 ^ 2 := pow_le_pow_left₀ hJ0.le hJ 2
    have b4 : ((0.51701422591 : ℝ) - 1 / 0.51701422591 ^ 2) / 3 + 29 / 6 * (1.1055985648 ^ 2 - 1)
        < 0 := by norm_num
    linarith
  · by_contra hcon
    have hJ : 1.1055985652 ≤ J := by linarith
    have b1 : 0.51701422597 ≤ s := root_le (n := 3) (by norm_num) (by norm_num) hs.le (by
      rw [s3]; calc _ ≤ (1.1055985652 : ℝ) / 8 := by norm_num
        _ ≤ _ := by linarith)
    have b2 := phi_mono (by norm_num) b1
    have b3 : 1.1055985652 ^ 2 ≤ J ^ 2 := pow_le_pow_left₀ (by norm_num) hJ 2
    have b4 : 0 < ((0.51701422597 : ℝ) - 1 / 0.51701422597 ^ 2) / 3
        + 29 / 6 * (1.1055985652 ^ 2 - 1) := by norm_num
    linarith

theorem oracle_MR {m y : ℝ} (hm : 0 < m) (hy : 0 < y)
    (h : lat [(7 / 8 * m, 2), (-(1 / 8 * m), -2)] (29 / 3 * m) 2 y = 0) :
    |2 * y ^ 2 - 1.099905842| < 2e-10 := by
  rw [lat_two _ _ hy] at h
  simp only [List.map_cons, List.map_nil, List.sum_cons, List.sum_nil] at h
  have hb : 0 < y / 2 := by positivity
  have hs : 0 < (y / 2) ^ ((2 : ℝ) / 3) := Real.rpow_pos_of_pos hb _
  have s3 := power_id hb (2 / 3) 3 1 (by norm_num)
  have hn : (y / 2) ^ ((-2 : ℝ) / 3) = 1 / (y / 2) ^ ((2 : ℝ) / 3) := by
    rw [show (-2 : ℝ) / 3 = -(2 / 3) by norm_num, Real.rpow_neg hb.le, one_div]
  rw [pow_one] at s3
  rw [hn] at h
  set s := (y / 2) ^ ((2 : ℝ) / 3) with hsd
  have h' : 7 / 8 * ((s - 1 / s ^ 2) / 3) + 1 / 8 * ((s ^ 2 - 1 / s) / 3)
      + 29 / 6 * ((2 * y ^ 2) ^ 2 - 1) = 0 := by
    have i : 1 / (1 / s) ^ 2 = s ^ 2 := by field_simp
    rw [i] at h
    have : m * (7 / 8 * ((s - 1 / s ^ 2) / 3) + 1 / 8 * ((s ^ 2 - 1 / s) / 3)
      + 29 / 6 * ((2 * y ^ 2) ^ 2 - 1)) = 0 := by linarith
    exact (mul_eq_zero.1 this).resolve_left hm.ne'
  have hw : (y / 2) ^ 2 = (2 * y ^ 2) / 8 := by ring
  rw [hw] at s3
  generalize 2 * y ^ 2 = J at *
  rw [abs_lt]
  constructor
  · by_contra hcon
    have hJ : J ≤ 1.0999058418 := by linarith
    have hJ0 : 0 < J := by nlinarith [pow_pos hs 3]
    have b1 : s ≤ 0.516125330394 := root_le (n := 3) (by norm_num) hs.le (by norm_num) (by
      rw [s3]; calc J / 8 ≤ 1.0999058418 / 8 := by linarith
        _ ≤ _ := by norm_num)
    have b2 := phi_mono hs b1
    have b5 : s ^ 2 ≤ 0.516125330394 ^ 2 := pow_le_pow_left₀ hs.le b1 2
    have b6 : 1 / 0.516125330394 ≤ 1 / s := one_div_le_one_div_of_le hs b1
    have b3 : J ^ 2 ≤ 1.0999058418 ^ 2 := pow_le_pow_left₀ hJ0.le hJ 2
    have b4 : 7 / 8 * (((0.516125330394 : ℝ) - 1 / 0.516125330394 ^ 2) / 3)
        + 1 / 8 * ((0.516125330394 ^ 2 - 1 / 0.516125330394) / 3)
        + 29 / 6 * (1.0999058418 ^ 2 - 1) < 0 := by norm_num
    linarith
  · by_contra hcon
    have hJ : 1.0999058422 ≤ J := by linarith
    have b1 : 0.516125330455 ≤ s := root_le (n := 3) (by norm_num) (by norm_num) hs.le (by
      rw [s3]; calc _ ≤ (1.0999058422 : ℝ) / 8 := by norm_num
        _ ≤ _ := by linarith)
    have b2 := phi_mono (by norm_num) b1
    have b5 : 0.516125330455 ^ 2 ≤ s ^ 2 := pow_le_pow_left₀ (by norm_num) b1 2
    have b6 : 1 / s ≤ 1 / 0.516125330455 := one_div_le_one_div_of_le (by norm_num) b1
    have b3 : 1.0999058422 ^ 2 ≤ J ^ 2 := pow_le_pow_left₀ (by norm_num) hJ 2
    have b4 : 0 < 7 / 8 * (((0.516125330455 : ℝ) - 1 / 0.516125330455 ^ 2) / 3)
        + 1 / 8 * ((0.516125330455 ^ 2 - 1 / 0.516125330455) / 3)
        + 29 / 6 * (1.0999058422 ^ 2 - 1) := by norm_num
    linarith

/-- The Ogden terms of the unit test (l.677-682). -/
noncomputable def testTerms (m : ℝ) : List (ℝ × ℝ) :=
  [(6.3e5 / 4.225e5 * m, 1.3), (0.012e5 / 4.225e5 * m, 5), (-0.1e5 / 4.225e5 * m, -2)]

theorem oracle_OG {m y : ℝ} (hm : 0 < m) (hy : 0 < y)
    (h : lat (testTerms m) (29 / 3 * m) 2 y = 0) : |2 * y ^ 2 - 1.088778638| < 2e-10 := by
  rw [lat_two _ _ hy] at h
  simp only [testTerms, List.map_cons, List.map_nil, List.sum_cons, List.sum_nil] at h
  have hb : 0 < y / 2 := by positivity
  have hs : 0 < (y / 2) ^ ((2 : ℝ) / 3) := Real.rpow_pos_of_pos hb _
  have ha : 0 < (y / 2) ^ ((1.3 : ℝ) / 3) := Real.rpow_pos_of_pos hb _
  have he : 0 < (y / 2) ^ ((5 : ℝ) / 3) := Real.rpow_pos_of_pos hb _
  have s3 := power_id hb (2 / 3) 3 1 (by norm_num)
  have a60 := power_id hb (1.3 / 3) 60 13 (by norm_num)
  have e6 := power_id hb (5 / 3) 6 5 (by norm_num)
  have hn : (y / 2) ^ ((-2 : ℝ) / 3) = 1 / (y / 2) ^ ((2 : ℝ) / 3) := by
    rw [show (-2 : ℝ) / 3 = -(2 / 3) by norm_num, Real.rpow_neg hb.le, one_div]
  rw [pow_one] at s3
  rw [hn] at h
  set s := (y / 2) ^ ((2 : ℝ) / 3) with hsd
  set a := (y / 2) ^ ((1.3 : ℝ) / 3) with had
  set e := (y / 2) ^ ((5 : ℝ) / 3) with hed
  have h' : 63 / 42.25 * ((a - 1 / a ^ 2) / 3) + 0.12 / 42.25 * ((e - 1 / e ^ 2) / 3)
      + 1 / 42.25 * ((s ^ 2 - 1 / s) / 3) + 29 / 6 * ((2 * y ^ 2) ^ 2 - 1) = 0 := by
    have i : 1 / (1 / s) ^ 2 = s ^ 2 := by field_simp
    rw [i] at h
    have : m * (63 / 42.25 * ((a - 1 / a ^ 2) / 3) + 0.12 / 42.25 * ((e - 1 / e ^ 2) / 3)
      + 1 / 42.25 * ((s ^ 2 - 1 / s) / 3) + 29 / 6 * ((2 * y ^ 2) ^ 2 - 1)) = 0 := by
      linear_combination h
    exact (mul_eq_zero.1 this).resolve_left hm.ne'
  have hw : (y / 2) ^ 2 = (2 * y ^ 2) / 8 := by ring
  rw [hw] at s3 a60 e6
  generalize 2 * y ^ 2 = J at *
  rw [abs_lt]
  constructor
  · by_contra hcon
    have hJ : J ≤ 1.0887786378 := by linarith
    have hJ0 : 0 < J := by nlinarith [pow_pos hs 3]
    have b1 : s ≤ 0.514378966393 := root_le (n := 3) (by norm_num) hs.le (by norm_num) (by
      rw [s3]; calc J / 8 ≤ 1.0887786378 / 8 := by linarith
        _ ≤ _ := by norm_num)
    have a1 : a ≤ 0.649133587397 := root_le (n := 60) (by norm_num) ha.le (by norm_num) (by
      rw [a60]; calc (J / 8) ^ 13 ≤ (1.0887786378 / 8) ^ 13 :=
          pow_le_pow_left₀ (by positivity) (by linarith) 13
        _ ≤ _ := by norm_num)
    have e1 : e ≤ 0.189761455836 := root_le (n := 6) (by norm_num) he.le (by norm_num) (by
      rw [e6]; calc (J / 8) ^ 5 ≤ (1.0887786378 / 8) ^ 5 :=
          pow_le_pow_left₀ (by positivity) (by linarith) 5
        _ ≤ _ := by norm_num)
    have b2 := phi_mono ha a1
    have b7 := phi_mono he e1
    have b5 : s ^ 2 ≤ 0.514378966393 ^ 2 := pow_le_pow_left₀ hs.le b1 2
    have b6 : 1 / 0.514378966393 ≤ 1 / s := one_div_le_one_div_of_le hs b1
    have b3 : J ^ 2 ≤ 1.0887786378 ^ 2 := pow_le_pow_left₀ hJ0.le hJ 2
    have b4 : 63 / 42.25 * (((0.649133587397 : ℝ) - 1 / 0.649133587397 ^ 2) / 3)
        + 0.12 / 42.25 * ((0.189761455836 - 1 / 0.189761455836 ^ 2) / 3)
        + 1 / 42.25 * ((0.514378966393 ^ 2 - 1 / 0.514378966393) / 3)
        + 29 / 6 * (1.0887786378 ^ 2 - 1) < 0 := by norm_num
    linarith
  · by_contra hcon
    have hJ : 1.0887786382 ≤ J := by linarith
    have b1 : 0.514378966455 ≤ s := root_le (n := 3) (by norm_num) (by norm_num) hs.le (by
      rw [s3]; calc _ ≤ (1.0887786382 : ℝ) / 8 := by norm_num
        _ ≤ _ := by linarith)
    have a1 : 0.649133587448 ≤ a := root_le (n := 60) (by norm_num) (by norm_num) ha.le (by
      rw [a60]; calc _ ≤ ((1.0887786382 : ℝ) / 8) ^ 13 := by norm_num
        _ ≤ _ := pow_le_pow_left₀ (by norm_num) (by linarith) 13)
    have e1 : 0.189761455893 ≤ e := root_le (n := 6) (by norm_num) (by norm_num) he.le (by
      rw [e6]; calc _ ≤ ((1.0887786382 : ℝ) / 8) ^ 5 := by norm_num
        _ ≤ _ := pow_le_pow_left₀ (by norm_num) (by linarith) 5)
    have b2 := phi_mono (by norm_num) a1
    have b7 := phi_mono (by norm_num) e1
    have b5 : 0.514378966455 ^ 2 ≤ s ^ 2 := pow_le_pow_left₀ (by norm_num) b1 2
    have b6 : 1 / s ≤ 1 / 0.514378966455 := one_div_le_one_div_of_le (by norm_num) b1
    have b3 : 1.0887786382 ^ 2 ≤ J ^ 2 := pow_le_pow_left₀ (by norm_num) hJ 2
    have b4 : 0 < 63 / 42.25 * (((0.649133587448 : ℝ) - 1 / 0.649133587448 ^ 2) / 3)
        + 0.12 / 42.25 * ((0.189761455893 - 1 / 0.189761455893 ^ 2) / 3)
        + 1 / 42.25 * ((0.514378966455 ^ 2 - 1 / 0.514378966455) / 3)
        + 29 / 6 * (1.0887786382 ^ 2 - 1) := by norm_num
    linarith

theorem NHc_kir (p : Par) {x y c : ℝ} (hx : 0 < x) (hy : 0 < y) (hc : 0 < c) (a : Fin 3) :
    vec3 x y (Real.sqrt c) a ^ 2 * sNHc p (cdata (data unit (rect x y)) c) a a
      = kir [(p.mu, 2)] p.K (vec3 x y (Real.sqrt c)) a := by
  have hA : det2 unit ≠ 0 := by rw [det_unit]; norm_num
  have hp := pos_rect hx hy hc
  have q := sProj_id (SaC (potNHc p) (vec3 x y (Real.sqrt c)))
  have sq : vec3 x y (Real.sqrt c) 2 ^ 2 = c := Real.sq_sqrt hc.le
  have fr := sNHc_frame p (frame_rect x y (Real.sqrt c)) hA rfl hp sq
  have fr2 := sNHc_frame2 p (frame_rect x y (Real.sqrt c)) hA rfl hp sq
  rw [← SaC_kir p _ (potNHc p) hp a (NHc_ogden p hp a)]
  congr 1
  rcases fin3_cases a with rfl | rfl | rfl
  · exact (fr 0 0).symm.trans q.1
  · exact (fr 1 1).symm.trans q.2.1
  · exact fr2.symm

theorem MRc_kir (p : Par) {x y c : ℝ} (hx : 0 < x) (hy : 0 < y) (hc : 0 < c) (a : Fin 3) :
    vec3 x y (Real.sqrt c) a ^ 2 * sMRc p (cdata (data unit (rect x y)) c) a a
      = kir [(p.c1, 2), (-p.c2, -2)] p.K (vec3 x y (Real.sqrt c)) a := by
  have hA : det2 unit ≠ 0 := by rw [det_unit]; norm_num
  have hp := pos_rect hx hy hc
  have q := sProj_id (SaC (potMRc p) (vec3 x y (Real.sqrt c)))
  have sq : vec3 x y (Real.sqrt c) 2 ^ 2 = c := Real.sq_sqrt hc.le
  have fr := sMRc_frame p (frame_rect x y (Real.sqrt c)) hA rfl hp sq
  have fr2 := sMRc_frame2 p (frame_rect x y (Real.sqrt c)) hA rfl hp sq
  rw [← SaC_kir p _ (potMRc p) hp a (MRc_ogden p hp a)]
  congr 1
  rcases fin3_cases a with rfl | rfl | rfl
  · exact (fr 0 0).symm.trans q.1
  · exact (fr 1 1).symm.trans q.2.1
  · exact fr2.symm

theorem state_lat {terms : List (ℝ × ℝ)} (ht : Admissible terms) {K x : ℝ} (hK : 0 < K)
    (hx : 0 < x) {y c : ℝ} (hy : 0 < y) (hc : 0 < c) {S : Fin 3 → ℝ}
    (hS : ∀ a, vec3 x y (Real.sqrt c) a ^ 2 * S a = kir terms K (vec3 x y (Real.sqrt c)) a)
    (h : S 1 = 0 ∧ S 2 = 0) : lat terms K x y = 0 := by
  obtain ⟨y0, hy0, hr, _⟩ := lat_root ht.2 hK hx
  rw [((compressible ht hK hx hy0 hr hy hc hS).1 h).1]
  exact hr

end Verif.Benchmark
