import Verif.Lemmas.ParamText

/-! # Property C171: parameters passed as text -/

namespace Verif.ParamText

open V3 Verif.Examples Verif.Spec.ParamText Verif.Spec.Examples Verif.Plate Verif.Balance
open Spec.Plate (Supported mode flexural freq2)
open Verif.Integrate (Rule)

/-- **C171** `std::to_string`: the text exists; a number with six decimals is unchanged, any other moves by at most
`5e-7`. -/
theorem C171_fixed (x : ℝ) :
    (∃ y, Fixed x y) ∧ ∀ y, Fixed x y → |y - x| ≤ 5 / 10 ^ 7 ∧ (Micro x → y = x) ∧ (y = x → Micro x) := by
  refine ⟨⟨round (10 ^ 6 * x) / 10 ^ 6, round (10 ^ 6 * x), rfl, fun l => ?_⟩, fun y h =>
    ⟨fixed_error h, fun hx => fixed_exact hx h, ?_⟩⟩
  · have := round_le (10 ^ 6 * x) l
    have e : ∀ k : ℤ, |x - k / 10 ^ 6| = |10 ^ 6 * x - k| / 10 ^ 6 := by
      intro k
      rw [← abs_of_pos (by norm_num : (0 : ℝ) < 10 ^ 6), ← abs_div, abs_of_pos (by norm_num : (0 : ℝ) < 10 ^ 6)]
      congr 1; ring
    rw [e, e]
    gcongr
  · rintro rfl
    obtain ⟨k, hk, -⟩ := h
    exact ⟨k, by rw [hk]; ring⟩

/-- Steel in MPa. -/
example (y : ℝ) (h : Fixed 210000 y) : y = 210000 :=
  ((C171_fixed 210000).2 y h).2.1 ⟨210000000000, by norm_num⟩

/-- **C171** `%e`: the text exists; a number with seven digits is unchanged, any other changes by the fraction `5e-7` of
it at most. -/
theorem C171_scientific (x : ℝ) :
    (∃ y, Scientific x y) ∧ ∀ y, Scientific x y → |y - x| ≤ 5 / 10 ^ 7 * |x| ∧ (Seven x ↔ y = x) := by
  refine ⟨sci_exists x, fun y h => ⟨sci_error h, fun hx => sci_exact hx h, ?_⟩⟩
  rintro rfl
  rcases h with ⟨h, -⟩ | ⟨-, k, p, -, h2, hk, -⟩
  · exact ⟨0, 0, by norm_num, by rw [h]; simp⟩
  · exact ⟨k, p - 6, h2, hk⟩

example (y : ℝ) (h : Scientific (78.5 / 10 ^ 10) y) : y = 78.5 / 10 ^ 10 :=
  ((C171_scientific _).2 y h).2.1 ⟨785, -11, by norm_num, by norm_num⟩

section
variable {E ν ρ t E' ν' ρ' t' Es νs ts ampl a h : ℝ}

/-- **C171** Static example: for a modulus and a thickness of at least `h` the only solution is the deflection given as
exact, up to a factor that differs from 1 by at most `7.5e-6 / h`; parameters with six decimals and seven digits give
the factor 1. -/
theorem C171_static_partial (r : Rule) (h5 : 5 / 10 ^ 6 ≤ h) (h1 : h ≤ 1) (hE : h ≤ E) (ht : h ≤ t) (hν : -1 < ν)
    (hν' : ν < 1 / 2) (m : Micro ν) (s : Seven ν) (fE : Fixed E E') (fν : Fixed ν ν') (ft : Fixed t t')
    (sE : Scientific E Es) (sν : Scientific ν νs) (st : Scientific t ts) :
    ∃ f, |f - 1| ≤ 75 / 10 ^ 7 / h ∧ (Micro E → Micro t → Seven E → Seven t → f = 1) ∧ ∀ a,
      (Clamped (staticExact (f * a)) ∧ ∀ v, Clamped v →
        stiffForm plate (System.linearModuli r t' E' ν') square (staticExact (f * a)) v
          = loadForm plate (staticLoad a ts Es νs) square v) ∧
      ∀ u, Clamped u → (∀ v, Clamped v → stiffForm plate (System.linearModuli r t' E' ν') square u v
          = loadForm plate (staticLoad a ts Es νs) square v) →
        ∀ q ∈ square, u q = staticExact (f * a) q := by
  have h0 : 0 < h := lt_of_lt_of_le (by norm_num) h5
  rw [fixed_exact m fν, sci_exact s sν]
  obtain ⟨e1, e2⟩ := fixed_rel h0 hE fE
  obtain ⟨t1, t2⟩ := fixed_rel h0 ht ft
  obtain ⟨e3, e4⟩ := sci_rel (h0.trans_le hE) sE
  obtain ⟨t3, t4⟩ := sci_rel (h0.trans_le ht) st
  have hd : 5 / 10 ^ 7 / h ≤ 1 / 10 := by rw [div_le_iff₀ h0]; linarith
  have hd' : 5 / 10 ^ 7 ≤ 5 / 10 ^ 7 / h := by rw [le_div_iff₀ h0]; nlinarith
  have d75 : 75 / 10 ^ 7 / h = 15 * (5 / 10 ^ 7 / h) := by ring
  have xE : 0 < E := h0.trans_le hE
  have xt : 0 < t := h0.trans_le ht
  rw [d75]
  generalize hδ : 5 / 10 ^ 7 / h = δ at *
  have δ0 : 0 < δ := lt_of_lt_of_le (by norm_num) hd'
  have E0 : 0 < E' := lt_of_lt_of_le (by nlinarith) e1
  have t0 : 0 < t' := lt_of_lt_of_le (by nlinarith) t1
  have w : 0 < 1 - ν ^ 2 := by nlinarith
  have F0 : flexural E' ν t' ≠ 0 := by unfold flexural; positivity
  have fe : flexural Es ν ts / flexural E' ν t' = Es * ts ^ 3 / (E' * t' ^ 3) := by
    unfold flexural; field_simp
  refine ⟨flexural Es ν ts / flexural E' ν t', ?_, fun mE mt sE7 st7 => ?_, fun a => ?_⟩
  · have n1 : (1 - δ) * E ≤ Es := le_trans (by gcongr) e3
    have n2 : Es ≤ (1 + δ) * E := e4.trans (by gcongr)
    have n3 : (1 - δ) * t ≤ ts := le_trans (by gcongr) t3
    have n4 : ts ≤ (1 + δ) * t := t4.trans (by gcongr)
    obtain ⟨p1, p2⟩ := cubed_near δ0.le hd xE xt n1 n2 n3 n4
    obtain ⟨q1, q2⟩ := cubed_near δ0.le hd xE xt e1 e2 t1 t2
    rw [fe]
    exact ratio_near δ0.le hd (by positivity) p1 p2 q1 q2
  · rw [fe, fixed_exact mE fE, fixed_exact mt ft, sci_exact sE7 sE, sci_exact st7 st]
    exact div_self (by positivity)
  · have l : staticLoad a ts Es ν = staticLoad (flexural Es ν ts / flexural E' ν t' * a) t' E' ν := by
      funext q; rw [load_scale F0 q, mul_comm]
    rw [l]
    exact ⟨C140_static_solves r E0 hν hν' _, fun u hu => C140_static r E0 hν hν' t0 _ hu⟩

/-- **C171** Modal example: for a modulus, a thickness and a density of at least `h` the eigenvalue of the computed
problem with an index up to 68 differs from the reference by the fraction `2.5e-6 / h + 2e-10` of the exact eigenvalue
at most, and by `2e-10` for parameters with six decimals. -/
theorem C171_modal_partial (r : Rule) (h5 : 5 / 10 ^ 6 ≤ h) (hE : h ≤ E) (ht : h ≤ t) (hρ : h ≤ ρ) (hν : -1 < ν)
    (hν' : ν < 1 / 2) (m : Micro ν) (fE : Fixed E E') (fν : Fixed ν ν') (ft : Fixed t t') (fρ : Fixed ρ ρ')
    {i : ℕ} (hi : i < 69) :
    ∃ m n : ℕ, 1 ≤ m ∧ 1 ≤ n ∧ Kth i (m ^ 2 + n ^ 2) ∧ ∃ lam x, modalReference E ν ρ t i = .ok x ∧
      (∀ v, Supported 1 1 v → stiffForm plate (System.linearModuli r t' E' ν') square (mode 1 1 m n) v
        = lam * massForm plate (areaMass t' ρ') square (mode 1 1 m n) v) ∧
      |lam - x| ≤ (25 / 10 ^ 7 / h + 2e-10) * freq2 E ν ρ t 1 1 m n ∧
      (Micro E → Micro t → Micro ρ → |lam - x| ≤ 2e-10 * lam) := by
  have h0 : 0 < h := lt_of_lt_of_le (by norm_num) h5
  rw [fixed_exact m fν]
  obtain ⟨e1, e2⟩ := fixed_rel h0 hE fE
  obtain ⟨t1, t2⟩ := fixed_rel h0 ht ft
  obtain ⟨r1, r2⟩ := fixed_rel h0 hρ fρ
  have hd : 5 / 10 ^ 7 / h ≤ 1 / 10 := by rw [div_le_iff₀ h0]; linarith
  have d25 : 25 / 10 ^ 7 / h = 5 * (5 / 10 ^ 7 / h) := by ring
  have xE : 0 < E := h0.trans_le hE
  have xt : 0 < t := h0.trans_le ht
  have xρ : 0 < ρ := h0.trans_le hρ
  have δ0 : 0 < 5 / 10 ^ 7 / h := by positivity
  rw [d25]
  generalize 5 / 10 ^ 7 / h = δ at *
  have E0 : 0 < E' := lt_of_lt_of_le (by nlinarith) e1
  have t0 : 0 < t' := lt_of_lt_of_le (by nlinarith) t1
  have ρ0 : 0 < ρ' := lt_of_lt_of_le (by nlinarith) r1
  have w : 0 < 1 - ν ^ 2 := by nlinarith
  obtain ⟨m, n, hm, hn, hk, -, x, hx, x1, x2⟩ := C140_modal r xE hν hν' xρ xt hi
  refine ⟨m, n, hm, hn, hk, freq2 E' ν ρ' t' 1 1 m n, x, hx, fun v hv => ?_, ?_, fun mE mt mρ => ?_⟩
  · rw [freq2_omega E0 hν (by linarith) ρ0 t0]
    exact (C134_isotropic r E0 hν hν' ρ0 t0).1 m n v hv
  · set c : ℝ := ((m * Real.pi / 1) ^ 2 + (n * Real.pi / 1) ^ 2) ^ 2 / (12 * (1 - ν ^ 2)) with hc
    have c0 : 0 ≤ c := by positivity
    have f : ∀ {E t ρ : ℝ}, 0 < t → 0 < ρ → freq2 E ν ρ t 1 1 m n = c * (E * t ^ 2 / ρ) := by
      intro E t ρ a b
      simp only [freq2, flexural, hc]
      field_simp
    rw [f xt xρ] at x1 x2 ⊢
    rw [f t0 ρ0]
    have P : 0 < E * t ^ 2 / ρ := by positivity
    obtain ⟨lo, up⟩ := squared_near δ0.le hd xE xt xρ e1 e2 t1 t2 r1 r2
    have up' := mul_le_mul_of_nonneg_left up c0
    have lo' := mul_le_mul_of_nonneg_left lo c0
    clear_value c
    generalize E' * t' ^ 2 / ρ' = y at *
    generalize E * t ^ 2 / ρ = z at *
    rw [abs_le]
    have z0 : 0 ≤ c * z := mul_nonneg c0 P.le
    constructor <;> nlinarith only [x1, x2, up', lo', z0]
  · rw [fixed_exact mE fE, fixed_exact mt ft, fixed_exact mρ fρ, abs_le]
    constructor <;> nlinarith

/-- **C171** Buckling example, both directions: for a modulus and a thickness of at least `h` the eigenvalue of the
computed problem that belongs to the index of the reference, times `1 + ε/2` (C140), differs from the reference by the
fraction `2.5e-6 / h + 3e-19` of it at most. -/
theorem C171_buckling_partial (r : Rule) (h5 : 5 / 10 ^ 6 ≤ h) (hE : h ≤ E) (ht : h ≤ t) (hν : -1 < ν)
    (hν' : ν < 1 / 2) (m : Micro ν) (fE : Fixed E E') (fν : Fixed ν ν') (ft : Fixed t t') {load : ℝ} (hl : 0 < load)
    {i : ℕ} (hi : i < 69) :
    ∃ m n : ℕ, 1 ≤ m ∧ 1 ≤ n ∧ Kth i (m ^ 2 + n ^ 2) ∧ ∃ lam ε x, ε = load * (1 - ν') / (E' * t') ∧
      (∃ u, Supported 1 1 u ∧ (∃ q ∈ square, (u q).z ≠ 0) ∧
        Eigen (stiffForm plate (System.linearModuli r t' E' ν') square) (kDiff r t' E' ν' (uniform ε ε)) lam u) ∧
      biaxialReference E ν t load i = .ok x ∧ |(1 + ε / 2) * lam - x| ≤ (25 / 10 ^ 7 / h + 3e-19) * x := by
  have h0 : 0 < h := lt_of_lt_of_le (by norm_num) h5
  rw [fixed_exact m fν]
  obtain ⟨e1, e2⟩ := fixed_rel h0 hE fE
  obtain ⟨t1, t2⟩ := fixed_rel h0 ht ft
  have hd : 5 / 10 ^ 7 / h ≤ 1 / 10 := by rw [div_le_iff₀ h0]; linarith
  have d25 : 25 / 10 ^ 7 / h = 5 * (5 / 10 ^ 7 / h) := by ring
  have xE : 0 < E := h0.trans_le hE
  have xt : 0 < t := h0.trans_le ht
  have δ0 : 0 < 5 / 10 ^ 7 / h := by positivity
  rw [d25]
  generalize 5 / 10 ^ 7 / h = δ at *
  have g : 0 < 1 - δ := by linarith
  have E0 : 0 < E' := lt_of_lt_of_le (by positivity) e1
  have t0 : 0 < t' := lt_of_lt_of_le (by positivity) t1
  have w : 0 < 1 - ν ^ 2 := by nlinarith
  have n1 : 0 < 1 - ν := by linarith
  obtain ⟨m, n, hm, hn, hk, x, hx, bx⟩ := C140_biaxial_reference xE hν hν' xt hl hi
  refine ⟨m, n, hm, hn, hk, biaxialTrue E' ν t' load m n, _, x, rfl,
    (C140_biaxial r E0 hν hν' t0 hl _).2 ⟨m, n, hm, hn, rfl⟩, hx, ?_⟩
  set c : ℝ := Real.pi ^ 2 * ((m : ℝ) ^ 2 + n ^ 2) / (load * (12 * (1 - ν ^ 2))) with hc
  have c0 : 0 ≤ c := by positivity
  have f : ∀ {E t : ℝ}, 0 < E → 0 < t →
      (1 + load * (1 - ν) / (2 * E * t)) * biaxialTrue E ν t load m n = c * (E * t ^ 3) := by
    intro E t a b
    have : 0 < 1 + load * (1 - ν) / (2 * E * t) := by positivity
    simp only [biaxialTrue, flexural, hc]
    generalize 1 + load * (1 - ν) / (2 * E * t) = k at *
    field_simp
  rw [f xE xt] at bx
  rw [show load * (1 - ν) / (E' * t') / 2 = load * (1 - ν) / (2 * E' * t') by ring, f E0 t0]
  obtain ⟨lo, up⟩ := fifth_near δ0.le hd xE xt e1 e2 t1 t2
  have lo' := mul_le_mul_of_nonneg_left lo c0
  have up' := mul_le_mul_of_nonneg_left up c0
  have P : 0 ≤ c * (E * t ^ 3) := by positivity
  clear_value c
  generalize E' * t' ^ 3 = y at *
  generalize E * t ^ 3 = z at *
  rw [show c * ((1 - 5 * δ) * z) = (1 - 5 * δ) * (c * z) by ring] at lo'
  rw [show c * ((1 + 5 * δ) * z) = (1 + 5 * δ) * (c * z) by ring] at up'
  generalize c * y = Y at *
  generalize c * z = Z at *
  obtain ⟨b1, b2⟩ := abs_le.1 bx
  have x0 : 0 ≤ x := by
    by_contra hx0
    push Not at hx0
    have := (abs_nonneg (x - Z)).trans bx
    linarith
  have Zx : Z ≤ (1 + 2e-19) * x := by linarith
  have dz : δ * Z ≤ δ * ((1 + 2e-19) * x) := mul_le_mul_of_nonneg_left Zx δ0.le
  have dx : δ * x ≤ 1 / 10 * x := mul_le_mul_of_nonneg_right hd x0
  rw [abs_le]
  constructor <;> linarith

/-- Buckling example, test case 0. -/
example (r : Rule) (E' ν' t' : ℝ) (fE : Fixed 1000000 E') (fν : Fixed (3 / 10) ν') (ft : Fixed (1 / 100) t') :
    ∃ m n : ℕ, 1 ≤ m ∧ 1 ≤ n ∧ Kth 0 (m ^ 2 + n ^ 2) ∧ ∃ lam ε x, ε = 1 * (1 - ν') / (E' * t') ∧
      (∃ u, Supported 1 1 u ∧ (∃ q ∈ square, (u q).z ≠ 0) ∧
        Eigen (stiffForm plate (System.linearModuli r t' E' ν') square) (kDiff r t' E' ν' (uniform ε ε)) lam u) ∧
      biaxialReference 1000000 (3 / 10) (1 / 100) 1 (0 : ℕ) = .ok x ∧
      |(1 + ε / 2) * lam - x| ≤ (25 / 10 ^ 7 / (1 / 100) + 3e-19) * x :=
  C171_buckling_partial r (by norm_num) (by norm_num) le_rfl (by norm_num) (by norm_num) ⟨300000, by norm_num⟩ fE fν ft
    one_pos (by norm_num)

/-- **C171** A thickness below `5e-7`: the program computes with the thickness 0, and no clamped displacement is in
equilibrium with the load. -/
theorem C171_thin_violated (r : Rule) (hE : 0 < E) (hν : -1 < ν) (hν' : ν < 1 / 2) (s : Seven ν) (ht : 0 < t)
    (ht' : t < 5 / 10 ^ 7) (ha : ampl ≠ 0) (ft : Fixed t t') (E' ν' : ℝ) (sa : Scientific ampl a)
    (sE : Scientific E Es) (sν : Scientific ν νs) (st : Scientific t ts) :
    ¬∃ u, ∀ v, Clamped v → stiffForm plate (System.linearModuli r t' E' ν') square u v
      = loadForm plate (staticLoad a ts Es νs) square v := by
  rintro ⟨u, hu⟩
  rw [fixed_zero (by rwa [abs_of_pos ht]) ft, sci_exact s sν] at hu
  have Es0 : 0 < Es := lt_of_lt_of_le (by norm_num; exact hE) (sci_rel hE sE).1
  have ts0 : 0 < ts := lt_of_lt_of_le (by norm_num; exact ht) (sci_rel ht st).1
  have z : ∀ v, loadForm plate (staticLoad 0 ts Es ν) square v = 0 := by
    intro v
    have : ∀ q, staticLoad 0 ts Es ν q = 0 := by intro q; ext <;> simp [staticLoad]
    simp [loadForm, this, dot]
  have := C140_static r Es0 hν hν' ts0 a (exact_clamped 0) (fun v hv => by
    rw [(C140_static_solves r Es0 hν hν' 0).2 v hv, z, ← hu v hv, stiff_zero]) (1 / 2, 1 / 2)
    ⟨⟨by norm_num, by norm_num⟩, ⟨by norm_num, by norm_num⟩⟩
  have hz := congrArg V3.z this
  simp only [staticExact] at hz
  norm_num at hz
  have e := sci_error sa
  rw [hz] at e
  simp at e
  have := abs_pos.2 ha
  norm_num at e
  linarith

example (r : Rule) (t' a Es νs ts : ℝ) (ft : Fixed (4 / 10 ^ 7) t') (sa : Scientific 100 a) (sE : Scientific 1 Es)
    (sν : Scientific (3 / 10) νs) (st : Scientific (4 / 10 ^ 7) ts) :
    ¬∃ u, ∀ v, Clamped v → stiffForm plate (System.linearModuli r t' 1 (3 / 10)) square u v
      = loadForm plate (staticLoad a ts Es νs) square v :=
  C171_thin_violated r one_pos (by norm_num) (by norm_num) ⟨3, -1, by norm_num, by norm_num⟩ (by norm_num)
    (by norm_num) (by norm_num) ft 1 (3 / 10) sa sE sν st

/-- **C171** A density below `5e-7`, as of steel in tonnes and millimetres: the mass matrix of the modal example is zero,
so it has no eigenvalue with a mode that has stiffness, while the reference is a positive number. -/
theorem C171_density_violated (hE : 0 < E) (hν : -1 < ν) (hν' : ν < 1 / 2) (ht : 0 < t) (hρ : 0 < ρ)
    (hρ' : ρ < 5 / 10 ^ 7) (fρ : Fixed ρ ρ') (t' : ℝ) {i : ℕ} (hi : i < 69) :
    (∀ u v, massForm plate (areaMass t' ρ') square u v = 0) ∧ ∃ x, modalReference E ν ρ t i = .ok x ∧ 0 < x := by
  refine ⟨fun u v => ?_, ?_⟩
  · rw [fixed_zero (by rwa [abs_of_pos hρ]) fρ]
    simp [massForm, areaMass]
  · obtain ⟨m, n, hm, hn, -, -, x, hx, x1, -⟩ := C140_modal ⟨1, fun _ => 0, fun _ => 1⟩ hE hν hν' hρ ht hi
    refine ⟨x, hx, lt_of_lt_of_le ?_ x1⟩
    have w : 0 < 1 - ν ^ 2 := by nlinarith
    have : (0 : ℝ) < m := by exact_mod_cast hm
    have : 0 < freq2 E ν ρ t 1 1 m n := by unfold freq2 flexural; positivity
    norm_num
    exact this

example (ρ' : ℝ) (h : Fixed (7.85 / 10 ^ 9) ρ') :
    (∀ u v, massForm plate (areaMass 1 ρ') square u v = 0) ∧
      ∃ x, modalReference 210000 (3 / 10) (7.85 / 10 ^ 9) 1 (0 : ℕ) = .ok x ∧ 0 < x :=
  C171_density_violated (by norm_num) (by norm_num) (by norm_num) one_pos (by norm_num) (by norm_num) h 1
    (by norm_num)

/-- Modal example, test case 0. -/
example (r : Rule) (E' ν' t' ρ' : ℝ) (fE : Fixed 1 E') (fν : Fixed (3 / 10) ν') (ft : Fixed (1 / 100) t')
    (fρ : Fixed 1 ρ') :
    ∃ m n : ℕ, 1 ≤ m ∧ 1 ≤ n ∧ Kth 0 (m ^ 2 + n ^ 2) ∧ ∃ lam x, modalReference 1 (3 / 10) 1 (1 / 100) (0 : ℕ) = .ok x ∧
      (∀ v, Supported 1 1 v → stiffForm plate (System.linearModuli r t' E' ν') square (mode 1 1 m n) v
        = lam * massForm plate (areaMass t' ρ') square (mode 1 1 m n) v) ∧ |lam - x| ≤ 2e-10 * lam := by
  obtain ⟨m, n, a, b, c, lam, x, d, e, -, f⟩ := C171_modal_partial r (h := 1 / 100) (by norm_num) (by norm_num) le_rfl
    (by norm_num) (by norm_num) (by norm_num) ⟨300000, by norm_num⟩ fE fν ft fρ (i := 0) (by norm_num)
  exact ⟨m, n, a, b, c, lam, x, d, e, f ⟨1000000, by norm_num⟩ ⟨10000, by norm_num⟩ ⟨1000000, by norm_num⟩⟩

/-- Static example, test case 0. -/
example (r : Rule) (E' ν' t' Es νs ts : ℝ) (fE : Fixed 1 E') (fν : Fixed (3 / 10) ν') (ft : Fixed (1 / 100) t')
    (sE : Scientific 1 Es) (sν : Scientific (3 / 10) νs) (st : Scientific (1 / 100) ts) (u : ℝ × ℝ → V3) (hu : Clamped u)
    (he : ∀ v, Clamped v → stiffForm plate (System.linearModuli r t' E' ν') square u v
      = loadForm plate (staticLoad 100 ts Es νs) square v) : ∀ q ∈ square, u q = staticExact 100 q := by
  obtain ⟨f, -, h1, h⟩ := C171_static_partial r (h := 1 / 100) (by norm_num) (by norm_num) (by norm_num) le_rfl
    (by norm_num) (by norm_num) ⟨300000, by norm_num⟩ ⟨3, -1, by norm_num, by norm_num⟩ fE fν ft sE sν st
  have := (h 100).2 u hu he
  rwa [h1 ⟨1000000, by norm_num⟩ ⟨10000, by norm_num⟩ ⟨1, 0, by norm_num, by norm_num⟩ ⟨1, -2, by norm_num, by norm_num⟩,
    one_mul] at this

end

end Verif.ParamText
