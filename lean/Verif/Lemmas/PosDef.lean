import Verif.Spec.PosDef
import Verif.Lemmas.Reparam
import Verif.Props.HyperReference

/-! # Helper lemmas: positive definite tensors -/

set_option linter.unusedSimpArgs false

namespace Verif.PosDef

open Verif.Geometry Verif.Hyper Spec.Reparam Spec.PosDef Spec.Hyper Verif.Reparam

/-- In-plane part. -/
def plane (T : Fin 3 → Fin 3 → Fin 3 → Fin 3 → ℝ) : Fin 2 → Fin 2 → Fin 2 → Fin 2 → ℝ :=
  fun i j k l => T (up i) (up j) (up k) (up l)

theorem ne_zero_of {e : T2} (he : e 0 1 = e 1 0) (h : e ≠ 0) :
    ¬ (e 0 0 = 0 ∧ e 0 1 = 0 ∧ e 1 1 = 0) := by
  rintro ⟨a, b, c⟩
  apply h
  funext i j
  rcases fin2_cases i with rfl | rfl <;> rcases fin2_cases j with rfl | rfl
  · exact a
  · exact b
  · exact he ▸ b
  · exact c

/-- The form in terms of the six entries of the matrix. -/
theorem form_fill (T : Fin 3 → Fin 3 → Fin 3 → Fin 3 → ℝ) (h : ElasticSymm T) (e : T2)
    (he : e 0 1 = e 1 0) (v : Voigt) (h0 : v 0 = e 0 0) (h1 : v 1 = e 1 1) (h2 : v 2 = 2 * e 0 1) :
    form (plane T) e = ∑ i, ∑ j, v i * fillMatrix T i j * v j := by
  have a1 := (h 0 0 0 1).2.1
  have a2 := (h 1 1 0 1).2.1
  have a3 := (h 0 1 0 1).2.1
  have a4 := (h 0 0 1 1).2.2
  have a5 := (h 0 1 0 0).2.2
  have a6 := (h 0 1 1 1).2.2
  have b1 := (h 0 1 0 0).1
  have b2 := (h 0 1 1 1).1
  have b3 := (h 0 1 0 1).1
  have b4 := (h 0 1 1 0).1
  simp only [form, plane, fillMatrix, Fin.sum_univ_two, Fin.sum_univ_three, up_zero, up_one, mk3_zero,
    mk3_one, mk3_two, vec3_zero, vec3_one, vec3_two, h0, h1, h2, ← he, ← b1, ← b2, ← b3, ← b4,
    ← a1, ← a2, ← a3, a4, a5, a6]
  ring

/-- The 3×3 matrix is positive definite exactly if the tensor is. -/
theorem posMat_iff (T : Fin 3 → Fin 3 → Fin 3 → Fin 3 → ℝ) (h : ElasticSymm T) :
    PosMat (fillMatrix T) ↔ Positive (plane T) := by
  constructor
  · intro hp e he hne
    rw [form_fill T h e he (vec3 (e 0 0) (e 1 1) (2 * e 0 1)) (by simp) (by simp) (by simp)]
    apply hp
    intro h0
    apply ne_zero_of he hne
    have c0 := congrFun h0 0
    have c1 := congrFun h0 1
    have c2 := congrFun h0 2
    simp at c0 c1 c2
    exact ⟨c0, c2, c1⟩
  · intro hp v hne
    have he : (![![v 0, v 2 / 2], ![v 2 / 2, v 1]] : T2) 0 1
        = (![![v 0, v 2 / 2], ![v 2 / 2, v 1]] : T2) 1 0 := by simp
    rw [← form_fill T h _ he v (by simp) (by simp) (by simp; ring)]
    apply hp _ he
    intro h0
    apply hne
    have c0 := congrFun (congrFun h0 0) 0
    have c1 := congrFun (congrFun h0 1) 1
    have c2 := congrFun (congrFun h0 0) 1
    simp at c0 c1 c2
    funext i
    rcases fin3_cases i with rfl | rfl | rfl
    · exact c0
    · exact c1
    · exact c2

/-! ## Change of parameters -/

theorem co_inv (P e : T2) (hP : det2 P ≠ 0) : co (inv2 P) (co P e) = e := by
  funext i j
  rcases fin2_cases i with rfl | rfl <;> rcases fin2_cases j with rfl | rfl <;>
    simp only [co, Fin.sum_univ_two, inv2, Matrix.cons_val_zero, Matrix.cons_val_one] <;>
    field_simp <;> simp only [det2] <;> ring

theorem co_inv' (P e : T2) (hP : det2 P ≠ 0) : co P (co (inv2 P) e) = e := by
  funext i j
  rcases fin2_cases i with rfl | rfl <;> rcases fin2_cases j with rfl | rfl <;>
    simp only [co, Fin.sum_univ_two, inv2, Matrix.cons_val_zero, Matrix.cons_val_one] <;>
    field_simp <;> simp only [det2] <;> ring

theorem co_zero (P : T2) : co P 0 = 0 := by
  funext i j; simp [co]

theorem form_contra (P : T2) (T : Fin 2 → Fin 2 → Fin 2 → Fin 2 → ℝ) (e : T2) :
    form (contra4 P T) e = form T (co (fun a i => inv2 P a i) e) := by
  simp only [form, contra4, co]
  generalize inv2 P = X
  simp only [Fin.sum_univ_two]
  ring

theorem positive_contra (P : T2) (hP : det2 P ≠ 0) (T : Fin 2 → Fin 2 → Fin 2 → Fin 2 → ℝ) :
    Positive (contra4 P T) ↔ Positive T := by
  constructor
  · intro h e he hne
    have := h (co P e) (co_symm P e he) (fun h0 => hne (by
      rw [← co_inv P e hP, h0, co_zero]))
    rw [form_contra] at this
    rwa [show co (fun a i => inv2 P a i) (co P e) = e from co_inv P e hP] at this
  · intro h e he hne
    rw [form_contra]
    refine h _ (co_symm (inv2 P) e he) fun h0 => hne ?_
    rw [← co_inv' P e hP, show co (inv2 P) e = 0 from h0, co_zero]

/-- The three-dimensional form of a tensor on strains without transverse shear. -/
def full (T : Fin 3 → Fin 3 → Fin 3 → Fin 3 → ℝ) (e : T2) (y : ℝ) : ℝ :=
  form3 (plane T) (fun i j => T 2 2 (up i) (up j)) (T 2 2 2 2) e y

theorem full_co (P : T2) (hP : det2 P ≠ 0) (T' T : Fin 3 → Fin 3 → Fin 3 → Fin 3 → ℝ)
    (h : Tangent3 P T' T) (e : T2) (y : ℝ) : full T' (co P e) y = full T e y := by
  obtain ⟨h1, -, h3, h4⟩ := h
  have e1 : plane T' = contra4 P (plane T) := by
    funext i j k l; exact h1 i j k l
  have e3 := contra_co P (fun a b => T 2 2 (up a) (up b)) e hP
  have e2 : ∑ i, ∑ j, T' 2 2 (up i) (up j) * co P e i j = ∑ i, ∑ j, T 2 2 (up i) (up j) * e i j := by
    rw [← e3]; simp only [h3]
  simp only [full, form3]
  rw [e2, e1, form_contra, show co (fun a i => inv2 P a i) (co P e) = e from co_inv P e hP, h4]

/-- Completing the square. -/
theorem full_square (T : Fin 3 → Fin 3 → Fin 3 → Fin 3 → ℝ) (h : ElasticSymm T)
    (hd : T 2 2 2 2 ≠ 0) (e : T2) (y : ℝ) :
    full T e y = form (plane (condense T)) e
      + T 2 2 2 2 * (y + (∑ i, ∑ j, T 2 2 (up i) (up j) * e i j) / T 2 2 2 2) ^ 2 := by
  have hs : ∀ i j : Fin 2, T (up i) (up j) 2 2 = T 2 2 (up i) (up j) := fun i j =>
    (h (up i) (up j) 2 2).2.2
  have e1 : form (plane (condense T)) e = form (plane T) e
      - (∑ i, ∑ j, T 2 2 (up i) (up j) * e i j) ^ 2 / T 2 2 2 2 := by
    simp only [form, plane, condense, hs, Fin.sum_univ_two]
    ring
  rw [e1]
  simp only [full, form3]
  field_simp
  ring

/-- Positive thickness stiffness and a positive condensed tensor together say that the
three-dimensional form is positive. -/
theorem schur (T : Fin 3 → Fin 3 → Fin 3 → Fin 3 → ℝ) (h : ElasticSymm T) :
    (0 < T 2 2 2 2 ∧ Positive (plane (condense T))) ↔
      ∀ (e : T2) (y : ℝ), e 0 1 = e 1 0 → (e ≠ 0 ∨ y ≠ 0) → 0 < full T e y := by
  constructor
  · rintro ⟨hd, hp⟩ e y he hne
    rw [full_square T h hd.ne']
    by_cases h0 : e = 0
    · have hy : y ≠ 0 := hne.resolve_left (not_not.2 h0)
      have : form (plane (condense T)) e = 0 := by rw [h0]; simp [form]
      rw [this, h0]
      simp only [Pi.zero_apply, mul_zero, Finset.sum_const_zero, zero_div, add_zero, zero_add]
      positivity
    · have := hp e he h0
      positivity
  · intro hf
    have hd : 0 < T 2 2 2 2 := by
      have := hf 0 1 rfl (Or.inr one_ne_zero)
      simpa [full, form3, form] using this
    refine ⟨hd, fun e he hne => ?_⟩
    have := hf e (-((∑ i, ∑ j, T 2 2 (up i) (up j) * e i j) / T 2 2 2 2)) he (Or.inl hne)
    rw [full_square T h hd.ne'] at this
    simpa using this

/-! ## Principal directions -/

/-- A symmetric matrix is diagonal after a rotation. -/
theorem rotate (a b d : ℝ) : ∃ c s : ℝ, c ^ 2 + s ^ 2 = 1 ∧
    (d - a) * (c * s) + b * (c ^ 2 - s ^ 2) = 0 := by
  by_cases hb : b = 0
  · exact ⟨1, 0, by norm_num, by rw [hb]; ring⟩
  set q := Real.sqrt ((d - a) ^ 2 + 4 * b ^ 2) with hq
  have hq2 : q ^ 2 = (d - a) ^ 2 + 4 * b ^ 2 := Real.sq_sqrt (by positivity)
  set l := (d - a + q) / 2 with hl
  have hl2 : l ^ 2 - (d - a) * l - b ^ 2 = 0 := by rw [hl]; linear_combination 1 / 4 * hq2
  have hn : 0 < b ^ 2 + l ^ 2 := by positivity
  set n := Real.sqrt (b ^ 2 + l ^ 2) with hn'
  have hn2 : n ^ 2 = b ^ 2 + l ^ 2 := Real.sq_sqrt hn.le
  have hnp : 0 < n := Real.sqrt_pos.2 hn
  refine ⟨b / n, l / n, ?_, ?_⟩
  · field_simp; linarith
  · field_simp
    linear_combination (-b) * hl2

/-- Two metrics are the identity and a diagonal matrix in suitable parameters. -/
theorem principal {A C : T2} (hA : Metric A) (hC : Metric C) : ∃ P : T2, det2 P ≠ 0 ∧
    ∃ x y : ℝ, 0 < x ∧ 0 < y ∧ co P C = ![![1, 0], ![0, 1]] ∧ co P A = ![![x, 0], ![0, y]] := by
  obtain ⟨hsA, hA0, hAd⟩ := hA
  obtain ⟨hsC, hC0, hCd⟩ := hC
  rw [← hsA] at hAd
  rw [← hsC] at hCd
  set u := Real.sqrt (C 0 0) with hu
  have hu2 : u ^ 2 = C 0 0 := Real.sq_sqrt hC0.le
  have hup : 0 < u := Real.sqrt_pos.2 hC0
  set w := Real.sqrt (C 0 0 * C 1 1 - C 0 1 * C 0 1) with hw
  have hw2 : w ^ 2 = C 0 0 * C 1 1 - C 0 1 * C 0 1 := Real.sq_sqrt hCd.le
  have hwp : 0 < w := Real.sqrt_pos.2 hCd
  -- Gram–Schmidt
  set g00 := 1 / u with h00
  set g10 := -C 0 1 / (u * w) with h10
  set g11 := u / w with h11
  set M00 := g00 ^ 2 * A 0 0 with hM00
  set M01 := g00 * (g10 * A 0 0 + g11 * A 0 1) with hM01
  set M11 := g10 ^ 2 * A 0 0 + 2 * g10 * g11 * A 0 1 + g11 ^ 2 * A 1 1 with hM11
  obtain ⟨c, s, hcs, hoff⟩ := rotate M00 M01 M11
  set P : T2 := ![![c * g00 + s * g10, s * g11], ![-s * g00 + c * g10, c * g11]] with hP
  have hdetP : det2 P = g00 * g11 := by
    simp [det2, hP]; linear_combination g00 * g11 * hcs
  have hdet0 : det2 P ≠ 0 := by rw [hdetP, h00, h11]; positivity
  have k00 : g00 ^ 2 * C 0 0 = 1 := by rw [h00, ← hu2]; field_simp
  have k01 : g00 * (g10 * C 0 0 + g11 * C 0 1) = 0 := by
    rw [h00, h10, h11, ← hu2]; field_simp; ring
  have k11 : g10 ^ 2 * C 0 0 + 2 * g10 * g11 * C 0 1 + g11 ^ 2 * C 1 1 = 1 := by
    have hw3 : w ^ 2 = u ^ 2 * C 1 1 - C 0 1 ^ 2 := by rw [hw2, hu2]; ring
    rw [h10, h11, ← hu2]; field_simp
    linear_combination (-1) * hw3
  have quad : ∀ p q : ℝ, (p ≠ 0 ∨ q ≠ 0) → 0 < p * p * A 0 0 + 2 * (p * q) * A 0 1 + q * q * A 1 1 := by
    intro p q hpq
    have e : A 0 0 * (p * p * A 0 0 + 2 * (p * q) * A 0 1 + q * q * A 1 1)
        = (p * A 0 0 + q * A 0 1) ^ 2 + q ^ 2 * (A 0 0 * A 1 1 - A 0 1 * A 0 1) := by ring
    have h : 0 < (p * A 0 0 + q * A 0 1) ^ 2 + q ^ 2 * (A 0 0 * A 1 1 - A 0 1 * A 0 1) := by
      by_cases hq : q = 0
      · have hp : p ≠ 0 := hpq.resolve_right (not_not.2 hq)
        rw [hq]
        have := mul_ne_zero hp hA0.ne'
        have : 0 < (p * A 0 0) ^ 2 := by positivity
        linarith [show (p * A 0 0 + 0 * A 0 1) ^ 2
          + 0 ^ 2 * (A 0 0 * A 1 1 - A 0 1 * A 0 1) = (p * A 0 0) ^ 2 by ring]
      · have := mul_pos (by positivity : 0 < q ^ 2) hAd
        positivity
    rw [← e] at h
    exact (mul_pos_iff_of_pos_left hA0).1 h
  have row : ∀ p q r t : ℝ, p * t - q * r ≠ 0 → (p ≠ 0 ∨ q ≠ 0) ∧ (r ≠ 0 ∨ t ≠ 0) := by
    intro p q r t h
    constructor
    · by_contra hc; push Not at hc; apply h; rw [hc.1, hc.2]; ring
    · by_contra hc; push Not at hc; apply h; rw [hc.1, hc.2]; ring
  have hrow := row (P 0 0) (P 0 1) (P 1 0) (P 1 1) hdet0
  refine ⟨P, hdet0, co P A 0 0, co P A 1 1, ?_, ?_, ?_, ?_⟩
  · have := quad _ _ hrow.1
    have e : co P A 0 0 = P 0 0 * P 0 0 * A 0 0 + 2 * (P 0 0 * P 0 1) * A 0 1
        + P 0 1 * P 0 1 * A 1 1 := by
      simp only [co, Fin.sum_univ_two, ← hsA]; ring
    rw [e]; exact this
  · have := quad _ _ hrow.2
    have e : co P A 1 1 = P 1 0 * P 1 0 * A 0 0 + 2 * (P 1 0 * P 1 1) * A 0 1
        + P 1 1 * P 1 1 * A 1 1 := by
      simp only [co, Fin.sum_univ_two, ← hsA]; ring
    rw [e]; exact this
  · funext i j
    rcases fin2_cases i with rfl | rfl <;> rcases fin2_cases j with rfl | rfl <;>
      simp only [co, Fin.sum_univ_two, ← hsC, hP, Matrix.cons_val_zero, Matrix.cons_val_one]
    · linear_combination c ^ 2 * k00 + 2 * c * s * k01 + s ^ 2 * k11 + hcs
    · linear_combination (-(c * s)) * k00 + (c ^ 2 - s ^ 2) * k01 + c * s * k11
    · linear_combination (-(c * s)) * k00 + (c ^ 2 - s ^ 2) * k01 + c * s * k11
    · linear_combination s ^ 2 * k00 - 2 * c * s * k01 + c ^ 2 * k11 + hcs
  · have off : co P A 0 1 = 0 := by
      simp only [co, Fin.sum_univ_two, ← hsA, hP, Matrix.cons_val_zero, Matrix.cons_val_one]
      simp only [hM00, hM01, hM11] at hoff
      linear_combination hoff
    have off' : co P A 1 0 = 0 := by rw [← off]; exact (co_symm P A hsA).symm
    funext i j
    rcases fin2_cases i with rfl | rfl <;> rcases fin2_cases j with rfl | rfl
    · rfl
    · exact off
    · exact off'
    · rfl

/-- Metric members in principal directions: `a`, `b` are the squared stretches. -/
def red (a b : ℝ) : Data where
  Gori := mk3 a 0 0 0 b 0 0 0 1
  gcov := mk3 1 0 0 0 1 0 0 0 1
  gcon := mk3 1 0 0 0 1 0 0 0 1
  J0 := a * b

theorem red_data (a b : ℝ) (ha : 0 < a) (hb : 0 < b) :
    data ![![1 / a, 0], ![0, 1 / b]] ![![1, 0], ![0, 1]] = red a b := by
  have e : ∀ (D D' : Data), D.Gori = D'.Gori → D.gcov = D'.gcov → D.gcon = D'.gcon → D.J0 = D'.J0 →
      D = D' := by
    rintro ⟨⟩ ⟨⟩ h1 h2 h3 h4
    simp only at h1 h2 h3 h4
    subst h1 h2 h3 h4
    rfl
  apply e
  · funext i j
    rcases fin3_cases i with rfl | rfl | rfl <;> rcases fin3_cases j with rfl | rfl | rfl <;>
      simp [data, red, embed, inv2, det2] <;> field_simp
  · funext i j
    rcases fin3_cases i with rfl | rfl | rfl <;> rcases fin3_cases j with rfl | rfl | rfl <;>
      simp [data, red, embed]
  · funext i j
    rcases fin3_cases i with rfl | rfl | rfl <;> rcases fin3_cases j with rfl | rfl | rfl <;>
      simp [data, red, embed, inv2, det2]
  · simp [data, red, det2]; field_simp

theorem principal' {A C : T2} (hA : Metric A) (hC : Metric C) : ∃ P : T2, det2 P ≠ 0 ∧
    ∃ a b : ℝ, 0 < a ∧ 0 < b ∧ data (co P A) (co P C) = red a b := by
  obtain ⟨P, hP, x, y, hx, hy, h1, h2⟩ := principal hA hC
  refine ⟨P, hP, 1 / x, 1 / y, by positivity, by positivity, ?_⟩
  rw [← red_data _ _ (by positivity) (by positivity), h1, h2]
  simp

theorem red_trace (a b : ℝ) : traceCt (red a b) = a + b := by
  simp [traceCt, red]

theorem symm_data {A C : T2} (hA : Metric A) (hC : Metric C) :
    (∀ i j, (data A C).gcon i j = (data A C).gcon j i) ∧
      ∀ i j, (data A C).Gori i j = (data A C).Gori j i := by
  have e : ∀ M : T2, M 0 1 = M 1 0 → ∀ i j, embed (inv2 M) i j = embed (inv2 M) j i := by
    intro M hM i j
    rcases fin3_cases i with rfl | rfl | rfl <;> rcases fin3_cases j with rfl | rfl | rfl <;>
      simp [embed, inv2, hM]
  exact ⟨e C hC.1, e A hA.1⟩

theorem symm_cinv {D : Data} (h : ∀ i j, D.gcon i j = D.gcon j i) (x : ℝ) (i j : Fin 3) :
    (cdata D x).cinv i j = (cdata D x).cinv j i := by
  rcases fin3_cases i with rfl | rfl | rfl <;> rcases fin3_cases j with rfl | rfl | rfl <;>
    simp [cdata, withThickness, h 0 1]

theorem symm_nh (p : Par) {A C : T2} (hA : Metric A) (hC : Metric C) :
    ElasticSymm (cNH p (data A C)) ∧ ElasticSymm (cMR p (data A C)) :=
  C48_incompressible p _ (symm_data hA hC).1 (symm_data hA hC).2

theorem symm_c (p : Par) {A C : T2} (hA : Metric A) (hC : Metric C) (x : ℝ) :
    ElasticSymm (cNHc p (cdata (data A C) x)) ∧ ElasticSymm (cMRc p (cdata (data A C) x)) ∧
      ElasticSymm (cNHe p (cdata (data A C) x)) :=
  C48_compressible p _ (symm_cinv (symm_data hA hC).1 x) (symm_data hA hC).2

/-! ## The forms in principal directions -/

theorem form_nh (p : Par) (a b : ℝ) (e : T2) (he : e 0 1 = e 1 0) :
    form (plane (cNH p (red a b))) e
      = p.mu / (a * b) * (2 * (e 0 0 + e 1 1) ^ 2 + 2 * (e 0 0 ^ 2 + e 1 1 ^ 2 + 2 * e 0 1 ^ 2)) := by
  simp only [form, plane, cNH, red, Fin.sum_univ_two, up_zero, up_one, mk3_zero, mk3_one,
    vec3_zero, vec3_one, ← he]
  ring

theorem form_mr (p : Par) (a b : ℝ) (ha : 0 < a) (hb : 0 < b) (e : T2) (he : e 0 1 = e 1 0) :
    form (plane (cMR p (red a b))) e
      = 2 / (a * b) * (2 * (p.c1 + p.c2 * b) * e 0 0 ^ 2 + 2 * (p.c1 + p.c2 * a) * e 1 1 ^ 2
        + 2 * (p.c1 + p.c2 * (a * b) ^ 2) * e 0 0 * e 1 1
        + 2 * (p.c1 + p.c2 * (a + b - (a * b) ^ 2)) * e 0 1 ^ 2) := by
  simp only [form, plane, cMR, red_trace]
  simp only [red, Fin.sum_univ_two, up_zero, up_one, mk3_zero, mk3_one, vec3_zero, vec3_one, ← he]
  field_simp
  ring

theorem full_nhc (p : Par) (a b x : ℝ) (hx : 0 < x) (e : T2) (y : ℝ)
    (he : e 0 1 = e 1 0) : full (cNHc p (cdata (red a b) x)) e (x * y)
      = p.mu * (a * b * x) ^ (-1 / 3 : ℝ) * (2 / 9 * (a + b + x) * (e 0 0 + e 1 1 + y) ^ 2
          + 2 / 3 * (a + b + x) * (e 0 0 ^ 2 + e 1 1 ^ 2 + 2 * e 0 1 ^ 2 + y ^ 2)
          - 4 / 3 * (a * e 0 0 + b * e 1 1 + x * y) * (e 0 0 + e 1 1 + y))
        + p.K * (a * b * x * (e 0 0 + e 1 1 + y) ^ 2
          - (a * b * x - 1) * (e 0 0 ^ 2 + e 1 1 ^ 2 + 2 * e 0 1 ^ 2 + y ^ 2)) := by
  have hJ : (cdata (red a b) x).J = a * b * x := rfl
  have hI : I1 (cdata (red a b) x) = a + b + x := by
    simp only [I1, c22_co]
    rw [show (cdata (red a b) x).D = red a b from rfl, red_trace]
  simp only [full, form3, form, plane, cNHc, dCinv, hJ, hI]
  generalize (a * b * x) ^ (-1 / 3 : ℝ) = q
  simp only [cdata, withThickness, red, Fin.sum_univ_two, up_zero, up_one, mk3_zero, mk3_one, mk3_two,
    vec3_zero, vec3_one, vec3_two, ← he]
  field_simp
  ring

theorem full_nhe (p : Par) (a b x : ℝ) (hx : 0 < x) (e : T2) (y : ℝ)
    (he : e 0 1 = e 1 0) : full (cNHe p (cdata (red a b) x)) e (x * y)
      = (2 * p.mu - p.lam * (a * b * x - 1)) * (e 0 0 ^ 2 + e 1 1 ^ 2 + 2 * e 0 1 ^ 2 + y ^ 2)
        + p.lam * (a * b * x) * (e 0 0 + e 1 1 + y) ^ 2 := by
  have hJ : (cdata (red a b) x).J = a * b * x := rfl
  simp only [full, form3, form, plane, cNHe, dCinv, hJ]
  simp only [cdata, withThickness, red, Fin.sum_univ_two, up_zero, up_one, mk3_zero, mk3_one, mk3_two,
    vec3_zero, vec3_one, vec3_two, ← he]
  field_simp
  ring

theorem sq_ne {e : T2} (he : e 0 1 = e 1 0) (h : e ≠ 0) :
    0 < e 0 0 ^ 2 + e 1 1 ^ 2 + 2 * e 0 1 ^ 2 := by
  have h' := ne_zero_of he h
  rcases lt_or_eq_of_le (by positivity : 0 ≤ e 0 0 ^ 2 + e 1 1 ^ 2 + 2 * e 0 1 ^ 2) with h0 | h0
  · exact h0
  · exfalso
    apply h'
    refine ⟨?_, ?_, ?_⟩ <;> apply pow_eq_zero_iff (two_ne_zero) |>.1 <;>
      nlinarith [sq_nonneg (e 0 0), sq_nonneg (e 1 1), sq_nonneg (e 0 1)]

/-- Positivity of the three-dimensional form in principal directions. -/
theorem full_iff (A C : T2) (x : ℝ) (hx : 0 < x) (T : CData → Fin 3 → Fin 3 → Fin 3 → Fin 3 → ℝ)
    (P : T2) (hP : det2 P ≠ 0) (a b : ℝ) (hd : data (co P A) (co P C) = red a b)
    (ht : Tangent3 P (T (cdata (data (co P A) (co P C)) x)) (T (cdata (data A C) x)))
    (hs : ElasticSymm (T (cdata (data A C) x))) :
    (0 < T (cdata (data A C) x) 2 2 2 2 ∧ PosMat (fillMatrix (condense (T (cdata (data A C) x))))) ↔
      ∀ (e : T2) (y : ℝ), e 0 1 = e 1 0 → (e ≠ 0 ∨ y ≠ 0) →
        0 < full (T (cdata (red a b) x)) e (x * y) := by
  rw [posMat_iff _ (C48_condensed _ hs), schur _ hs]
  rw [hd] at ht
  constructor
  · intro h e y he hne
    have h1 := full_co P hP _ _ ht (co (inv2 P) e) (x * y)
    rw [co_inv' P e hP] at h1
    rw [h1]
    refine h _ _ (co_symm (inv2 P) e he) ?_
    rcases hne with h0 | h0
    · left; intro hz; apply h0; rw [← co_inv' P e hP, hz, co_zero]
    · right; exact mul_ne_zero hx.ne' h0
  · intro h e y he hne
    have h1 := full_co P hP _ _ ht e y
    rw [← h1]
    have h2 := h (co P e) (y / x) (co_symm P e he) (by
      rcases hne with h0 | h0
      · left; intro hz; apply h0; rw [← co_inv P e hP, hz, co_zero]
      · right; exact div_ne_zero h0 hx.ne')
    rwa [mul_div_cancel₀ _ hx.ne'] at h2

end Verif.PosDef
