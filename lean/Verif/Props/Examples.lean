import Verif.Lemmas.Examples

/-! # Property C140: reference solutions of the example programs -/

namespace Verif.Examples

open V3 Geometry Fields MeasureTheory Verif.Variation Verif.Balance Verif.Balloon Spec.Balloon Spec.Examples Verif.Plate
open Spec.Plate (rect Supported Pinned Edge mode flexural freq2 stretched)
open Verif.Integrate (Rule)

section
variable {E ν ρ t : ℝ}

/-! ## Static problem -/

/-- **C140** Static example: the deflection given as exact is clamped, is in equilibrium with the load, and is the
only clamped displacement in equilibrium with it. -/
theorem C140_static (r : Rule) (hE : 0 < E) (h1 : -1 < ν) (h2 : ν < 1 / 2) (ht : 0 < t) (ampl : ℝ)
    {u : ℝ × ℝ → V3} (hu : Clamped u) :
    (∀ v, Clamped v → stiffForm plate (System.linearModuli r t E ν) square u v
      = loadForm plate (staticLoad ampl t E ν) square v) → ∀ q ∈ square, u q = staticExact ampl q :=
  static_unique r hE h1 h2 ht ampl hu

/-- **C140** … and it is one. -/
theorem C140_static_solves (r : Rule) (hE : 0 < E) (h1 : -1 < ν) (h2 : ν < 1 / 2) (ampl : ℝ) :
    Clamped (staticExact ampl) ∧ ∀ v, Clamped v →
      stiffForm plate (System.linearModuli r t E ν) square (staticExact ampl) v
        = loadForm plate (staticLoad ampl t E ν) square v :=
  ⟨exact_clamped ampl, fun _ hv => static_weak r hE h1 h2 ampl hv⟩

example (r : Rule) : ∀ v, Clamped v →
    stiffForm plate (System.linearModuli r (1 / 100) 1 (3 / 10)) square (staticExact 100) v
      = loadForm plate (staticLoad 100 (1 / 100) 1 (3 / 10)) square v :=
  (C140_static_solves r (by norm_num) (by norm_num) (by norm_num) 100).2

example (r : Rule) : ∀ q ∈ square, staticExact 100 q = staticExact 100 q :=
  C140_static r one_pos (by norm_num : (-1 : ℝ) < 3 / 10) (by norm_num) (by norm_num : (0 : ℝ) < 1 / 100) 100
    (exact_clamped 100) (C140_static_solves r one_pos (by norm_num) (by norm_num) 100).2

/-! ## Modal problem -/

/-- **C140** Modal example: up to the index 68 the reference is the eigenvalue of that index among all deflections of
the simply supported square, with a relative error of at most `2e-10` from the truncated value of `π`. -/
theorem C140_modal (r : Rule) (hE : 0 < E) (h1 : -1 < ν) (h2 : ν < 1 / 2) (hρ : 0 < ρ) (ht : 0 < t) {i : ℕ}
    (hi : i < 69) :
    ∃ m n : ℕ, 1 ≤ m ∧ 1 ≤ n ∧ Kth i (m ^ 2 + n ^ 2) ∧
      (∀ v, Supported 1 1 v → stiffForm plate (System.linearModuli r t E ν) square (mode 1 1 m n) v
        = freq2 E ν ρ t 1 1 m n * massForm plate (areaMass t ρ) square (mode 1 1 m n) v) ∧
      ∃ x, modalReference E ν ρ t i = .ok x ∧ (1 - 2e-10) * freq2 E ν ρ t 1 1 m n ≤ x
        ∧ x ≤ freq2 E ν ρ t 1 1 m n := by
  obtain ⟨m, n, hm, hn, -, -, hs⟩ := sq_pair (i := i) (by omega)
  have he : 0 < 1 - ν ^ 2 := by nlinarith
  obtain ⟨x, hx, ex⟩ := modal_entry hE he hρ ht (i := i) (by omega)
  refine ⟨m, n, hm, hn, hs ▸ sq_kth hi, fun v hv => ?_, x, hx, ?_⟩
  · have := (C134_isotropic r hE h1 h2 hρ ht).1 m n v hv
    rw [freq2_omega hE h1 (by linarith) hρ ht]
    exact this
  · have p1 := Real.pi_gt_d20
    have p2 := Real.pi_lt_d20
    have hc : 0 < plateD E ν t / (ρ * t) := by unfold plateD; positivity
    have f : freq2 E ν ρ t 1 1 m n = plateD E ν t / (ρ * t) * ((sq.getD i 0 : ℕ) : ℝ) ^ 2 * Real.pi ^ 4 := by
      rw [hs]; simp only [freq2, flexural, plateD, div_one]; push_cast; ring
    rw [f, ex]
    have hp : 0 ≤ plateD E ν t / (ρ * t) * ((sq.getD i 0 : ℕ) : ℝ) ^ 2 := by positivity
    generalize plateD E ν t / (ρ * t) * ((sq.getD i 0 : ℕ) : ℝ) ^ 2 = C at *
    have b1 : (3.1415926535 : ℝ) ^ 4 ≤ Real.pi ^ 4 := by gcongr; norm_num at p1 ⊢; linarith
    have b2 : (1 - 2e-10) * Real.pi ^ 4 ≤ (3.1415926535 : ℝ) ^ 4 := by
      have : Real.pi ^ 4 ≤ (3.14159265358979323847 : ℝ) ^ 4 := by gcongr
      calc (1 - 2e-10) * Real.pi ^ 4 ≤ (1 - 2e-10) * (3.14159265358979323847 : ℝ) ^ 4 := by
            gcongr
        _ ≤ _ := by norm_num
    exact ⟨by nlinarith, by gcongr⟩

/-- **C140** Modal example: for the indices 69 to 80 the reference is the value of a higher mode, because
`m` and `n` only run to 9. -/
theorem C140_modal_high_violated (hE : 0 < E) (h1 : -1 < ν) (h2 : ν < 1 / 2) (hρ : 0 < ρ) (ht : 0 < t) {i : ℕ}
    (hi : 69 ≤ i) (hi' : i < 81) :
    ∃ s x, Kth i s ∧ modalReference E ν ρ t i = .ok x ∧
      flexural E ν t / (ρ * t) * Real.pi ^ 4 * (s : ℝ) ^ 2 < x := by
  have he : 0 < 1 - ν ^ 2 := by nlinarith
  obtain ⟨x, hx, ex⟩ := modal_entry hE he hρ ht hi'
  obtain ⟨s, hs, hlt⟩ := sq_not_kth hi hi'
  obtain ⟨m, n, -, -, hm9, hn9, hsq⟩ := sq_pair hi'
  have hle : sq.getD i 0 ≤ 162 := by rw [hsq]; nlinarith
  refine ⟨s, x, hs, hx, ?_⟩
  rw [ex]
  have hc : 0 < plateD E ν t / (ρ * t) := by unfold plateD; positivity
  show plateD E ν t / (ρ * t) * Real.pi ^ 4 * (s : ℝ) ^ 2 < _
  have p2 := Real.pi_lt_d20
  have p0 := Real.pi_pos
  have b : Real.pi ^ 4 < (3.1415926535 : ℝ) ^ 4 * (1 + 2e-10) := by
    have : Real.pi ^ 4 ≤ (3.14159265358979323847 : ℝ) ^ 4 := by gcongr
    refine this.trans_lt (by norm_num)
  have l1 : (s : ℝ) + 1 ≤ ((sq.getD i 0 : ℕ) : ℝ) := by exact_mod_cast hlt
  have l2 : ((sq.getD i 0 : ℕ) : ℝ) ≤ 162 := by exact_mod_cast hle
  have l0 : (0 : ℝ) ≤ s := Nat.cast_nonneg s
  generalize ((sq.getD i 0 : ℕ) : ℝ) = S at *
  generalize (s : ℝ) = s at *
  generalize plateD E ν t / (ρ * t) = C at *
  have : (1 + 2e-10) * s ^ 2 < S ^ 2 := by nlinarith
  calc C * Real.pi ^ 4 * s ^ 2 = C * s ^ 2 * Real.pi ^ 4 := by ring
    _ ≤ C * s ^ 2 * ((3.1415926535 : ℝ) ^ 4 * (1 + 2e-10)) := by gcongr
    _ = C * (3.1415926535 : ℝ) ^ 4 * ((1 + 2e-10) * s ^ 2) := by ring
    _ < C * (3.1415926535 : ℝ) ^ 4 * S ^ 2 := by gcongr
    _ = _ := by ring

/-- **C140** Modal example: any other index is read outside of the vector. -/
theorem C140_modal_ub_violated (E ν ρ t : ℝ) {i : ℤ} (hi : i < 0 ∨ 81 ≤ i) :
    modalReference E ν ρ t i = .ub := by
  have : entry (table (modalOmega E ν ρ t)) i = .ub :=
    entry_ub (hi.imp_right fun h => by rw [table_length]; exact h)
  rw [modalReference, this]; rfl

example : ∃ m n : ℕ, 1 ≤ m ∧ 1 ≤ n ∧ Kth 3 (m ^ 2 + n ^ 2) ∧ ∃ x, modalReference 100000 0.3 1 0.01 3 = .ok x
    ∧ x ≤ freq2 100000 0.3 1 0.01 1 1 m n := by
  obtain ⟨m, n, hm, hn, hk, -, x, hx, -, h⟩ := C140_modal (E := 100000) (ν := 0.3) (ρ := 1) (t := 0.01)
    ⟨1, ![0], ![1]⟩ (by norm_num) (by norm_num) (by norm_num) one_pos (by norm_num) (i := 3) (by norm_num)
  exact ⟨m, n, hm, hn, hk, x, hx, h⟩

example : modalReference 100000 0.3 1 0.01 100 = .ub := C140_modal_ub_violated _ _ _ _ (Or.inr (by norm_num))

/-! ## Buckling problem, both directions -/

theorem zero3 : (0 : V3) = ⟨0, 0, 0⟩ := rfl

/-- **C140** Buckling example, both directions: the linear problem is solved by the uniform strain
`load (1 - ν)/(E t)`. -/
theorem C140_biaxial_solution (r : Rule) (hE : 0 < E) (h1 : -1 < ν) (h2 : ν < 1 / 2) (ht : 0 < t) (load : ℝ) :
    ∃ ε, ε = load * (1 - ν) / (E * t) ∧ Held (uniform ε ε) ∧ ∀ v, Held v →
      stiffForm plate (System.linearModuli r t E ν) square (uniform ε ε) v
        = edgeForm ⟨load, 0, 0⟩ 0 ⟨0, load, 0⟩ v := by
  refine ⟨_, rfl, uniform_held _, fun v hv => ?_⟩
  rw [uniform_weak r hE h1 h2 _ _ hv.1.1, zero3, edge_eq]
  have z1 : ∫ y in (0 : ℝ)..1, (v (0, y)).x = 0 := by simp [hv.2.1]
  have z2 : ∫ x in (0 : ℝ)..1, (v (x, 0)).y = 0 := by simp [hv.2.2]
  rw [z1, z2]
  have n1 : 1 - ν ≠ 0 := by linarith
  have n2 : 1 + ν ≠ 0 := by linarith
  rw [show 1 - ν ^ 2 = (1 - ν) * (1 + ν) by ring]
  field_simp
  ring

/-- **C140** Buckling example, both directions: the eigenvalues of the deflections are exactly
`D π² (m² + n²)/(load (1 + ε/2))`. -/
theorem C140_biaxial (r : Rule) (hE : 0 < E) (h1 : -1 < ν) (h2 : ν < 1 / 2) (ht : 0 < t) {load : ℝ} (hl : 0 < load)
    (lam : ℝ) :
    (∃ u, Supported 1 1 u ∧ (∃ q ∈ square, (u q).z ≠ 0) ∧
      Eigen (stiffForm plate (System.linearModuli r t E ν) square)
        (kDiff r t E ν (uniform (load * (1 - ν) / (E * t)) (load * (1 - ν) / (E * t)))) lam u) ↔
    ∃ m n : ℕ, 1 ≤ m ∧ 1 ≤ n ∧ lam = biaxialTrue E ν t load m n := by
  have hε : 0 < load * (1 - ν) / (E * t) := div_pos (mul_pos hl (by linarith)) (by positivity)
  have hp := Real.pi_pos
  have hF : 0 < flexural E ν t := by unfold flexural; exact div_pos (by positivity) (by nlinarith)
  have n1 : 0 < 1 - ν := by linarith
  have n2 : 0 < 1 + ν := by linarith
  have hN : t * (E / (1 - ν ^ 2)) * (((1 + load * (1 - ν) / (E * t)) ^ 2 - 1) / 2
      + ν * (((1 + load * (1 - ν) / (E * t)) ^ 2 - 1) / 2)) = load * (1 + load * (1 - ν) / (2 * E * t)) := by
    rw [show 1 - ν ^ 2 = (1 - ν) * (1 + ν) by ring]
    field_simp
    ring
  have hN0 : 0 < load * (1 + load * (1 - ν) / (2 * E * t)) := by positivity
  have key : ∀ {m n : ℕ} {lam : ℝ}, 1 ≤ m → 1 ≤ n →
      (flexural E ν t * (((m : ℝ) * Real.pi) ^ 2 + (n * Real.pi) ^ 2) ^ 2
        = lam * (load * (1 + load * (1 - ν) / (2 * E * t)) * (m * Real.pi) ^ 2
          + load * (1 + load * (1 - ν) / (2 * E * t)) * (n * Real.pi) ^ 2) ↔ lam = biaxialTrue E ν t load m n) := by
    intro m n lam hm hn
    unfold biaxialTrue
    have hm' : (0 : ℝ) < m := by exact_mod_cast hm
    have hs : 0 < (m : ℝ) ^ 2 + n ^ 2 := by positivity
    generalize load * (1 + load * (1 - ν) / (2 * E * t)) = N at *
    rw [eq_div_iff hN0.ne']
    constructor
    · intro h
      have : Real.pi ^ 2 * ((m : ℝ) ^ 2 + n ^ 2) * (lam * N)
          = Real.pi ^ 2 * ((m : ℝ) ^ 2 + n ^ 2) * (flexural E ν t * Real.pi ^ 2 * ((m : ℝ) ^ 2 + n ^ 2)) := by
        linear_combination -h
      exact mul_left_cancel₀ (by positivity) this
    · intro h
      linear_combination -(Real.pi ^ 2 * ((m : ℝ) ^ 2 + n ^ 2)) * h
  constructor
  · rintro ⟨u, hu, ⟨q, hq, hz⟩, h⟩
    by_contra hno
    push Not at hno
    refine hz (modes_complete one_pos one_pos (contDiffOn_univ.1 hu.1.2.2).continuous hu.2 (fun m n => ?_) q hq)
    rcases Nat.eq_zero_or_pos m with rfl | hm
    · simp [ss]
    rcases Nat.eq_zero_or_pos n with rfl | hn
    · simp [ss]
    have k := h _ (mode_pinned one_pos one_pos m n).supported
    rw [kDiff_right r hE h1 h2 (by linarith) (by linarith) hu, kL_right r hE h1 h2 hu, hN, ← mul_assoc, ← sub_eq_zero,
      ← sub_mul] at k
    rcases mul_eq_zero.1 k with k | k
    · exact absurd ((key hm hn).1 (sub_eq_zero.1 k)) (hno m n hm hn)
    · exact k
  · rintro ⟨m, n, hm, hn, rfl⟩
    refine ⟨mode 1 1 m n, (mode_pinned one_pos one_pos m n).supported, mode_moves hm hn, fun v hv => ?_⟩
    rw [kL_mode r hE h1 h2 m n hv, kDiff_mode r hE h1 h2 (by linarith) (by linarith) m n hv, hN, ← mul_assoc,
      (key hm hn).2 rfl]

/-- **C140** Buckling example, both directions: up to the index 68 the analytical reference is the eigenvalue of that
index, up to the factor `1 + load (1 - ν)/(2 E t)` and a relative error of `2e-19` from `π`. -/
theorem C140_biaxial_reference (hE : 0 < E) (h1 : -1 < ν) (h2 : ν < 1 / 2) (ht : 0 < t) {load : ℝ} (hl : 0 < load)
    {i : ℕ} (hi : i < 69) :
    ∃ m n : ℕ, 1 ≤ m ∧ 1 ≤ n ∧ Kth i (m ^ 2 + n ^ 2) ∧ ∃ x, biaxialReference E ν t load i = .ok x ∧
      |x - (1 + load * (1 - ν) / (2 * E * t)) * biaxialTrue E ν t load m n| ≤ 2e-19 * x := by
  obtain ⟨m, n, hm, hn, -, -, hs⟩ := sq_pair (i := i) (by omega)
  have he : 0 < 1 - ν ^ 2 := by nlinarith
  obtain ⟨x, hx, ex⟩ := biaxial_entry hE he ht load (i := i) (by omega)
  refine ⟨m, n, hm, hn, hs ▸ sq_kth hi, x, hx, ?_⟩
  have n1 : 0 < 1 - ν := by linarith
  have hf : 0 < 1 + load * (1 - ν) / (2 * E * t) := by positivity
  have hD : 0 < plateD E ν t := by unfold plateD; positivity
  have e : (1 + load * (1 - ν) / (2 * E * t)) * biaxialTrue E ν t load m n
      = plateD E ν t * ((sq.getD i 0 : ℕ) : ℝ) / load * Real.pi ^ 2 := by
    rw [hs, biaxialTrue]
    show _ * (plateD E ν t * _ * _ / _) = _
    generalize 1 + load * (1 - ν) / (2 * E * t) = k at *
    push_cast
    field_simp
  have e2 : x = plateD E ν t * ((sq.getD i 0 : ℕ) : ℝ) / load * piConst ^ 2 := by rw [ex]; ring
  have hp : 0 ≤ plateD E ν t * ((sq.getD i 0 : ℕ) : ℝ) / load := by positivity
  rw [e, e2]
  generalize plateD E ν t * ((sq.getD i 0 : ℕ) : ℝ) / load = C at *
  obtain ⟨b1, b2⟩ := piConst_bounds
  rw [abs_le]
  constructor <;> nlinarith

/-- The material of the buckling program. -/
noncomputable abbrev progTrue (load : ℝ) (m n : ℕ) : ℝ := biaxialTrue 1000000 0.3 0.01 load m n

theorem true_eq (load : ℝ) (m n : ℕ) : progTrue load m n
    = Real.pi ^ 2 * ((m : ℝ) ^ 2 + (n : ℝ) ^ 2) / (10.92 * (load * (1 + load * 3.5e-5))) := by
  simp only [progTrue, biaxialTrue, flexural]
  rw [mul_assoc]
  generalize Real.pi ^ 2 * ((m : ℝ) ^ 2 + (n : ℝ) ^ 2) = S
  generalize hk : load * (1 + load * 3.5e-5) = k
  rw [show (2 : ℝ) * 1000000 * 0.01 = 20000 by norm_num, show load * (1 - 0.3 : ℝ) / 20000 = load * 3.5e-5 by ring,
    show (1000000 : ℝ) * 0.01 ^ 3 / (12 * (1 - 0.3 ^ 2)) = 1 / 10.92 by norm_num, hk, one_div_mul_eq_div, div_div]

/-- **C140** Buckling example, both directions: the ten numerical references are the eigenvalues for the load 1,
with a relative error of at most `1e-12`. -/
theorem C140_numeric {i : ℕ} (hi : i < 10) :
    ∃ m n : ℕ, 1 ≤ m ∧ 1 ≤ n ∧ Kth i (m ^ 2 + n ^ 2) ∧ ∃ x, numericReference 1 i = .ok x ∧
      |x - progTrue 1 m n| ≤ 1e-12 * progTrue 1 m n := by
  obtain ⟨m, n, hm, hn, hk, g, hg, hlo, hhi⟩ := num_entry hi
  refine ⟨m, n, hm, hn, hk, g, by rw [numericReference, entry_ok hg]; simp [Outcome.bind], ?_⟩
  have e : (10.92 : ℝ) * (1 * (1 + 1 * 3.5e-5)) = 10.92 * 1.000035 := by norm_num
  rw [abs_le, true_eq, e]
  constructor <;> linarith

/-- **C140** Buckling example, both directions: for the default load they are not, the relative error is more than
`3e-5`. -/
theorem C140_numeric_violated {i : ℕ} (hi : i < 10) :
    ∃ m n : ℕ, 1 ≤ m ∧ 1 ≤ n ∧ Kth i (m ^ 2 + n ^ 2) ∧ ∃ x, numericReference 1e-4 i = .ok x ∧
      x < (1 - 3e-5) * progTrue 1e-4 m n := by
  obtain ⟨m, n, hm, hn, hk, g, hg, hlo, hhi⟩ := num_entry hi
  refine ⟨m, n, hm, hn, hk, g / 1e-4, by rw [numericReference, entry_ok hg]; rfl, ?_⟩
  have hp := Real.pi_pos
  have hm' : (0 : ℝ) < m := by exact_mod_cast hm
  have hs : 0 < Real.pi ^ 2 * ((m : ℝ) ^ 2 + n ^ 2) := by positivity
  rw [true_eq]
  generalize Real.pi ^ 2 * ((m : ℝ) ^ 2 + n ^ 2) = S at *
  norm_num at *
  linarith

/-- **C140** Buckling example, both directions: from the index 10 on the numerical reference is read outside of its
vector, although the analytical table has 81 entries. -/
theorem C140_numeric_ub_violated (load : ℝ) {i : ℕ} (hi : 10 ≤ i) (hi' : i < 81) :
    numericReference load i = .ub ∧ ∃ x, biaxialReference 1000000 0.3 0.01 load i = .ok x := by
  constructor
  · have : entry gammasNum i = .ub := entry_ub (Or.inr (by simp only [gammasNum, List.length]; omega))
    rw [numericReference, this]; rfl
  · obtain ⟨x, hx, -⟩ := biaxial_entry (E := 1000000) (ν := 0.3) (t := 0.01) (by norm_num) (by norm_num) (by norm_num)
      load hi'
    exact ⟨x, hx⟩

/-- **C140** Buckling example, both directions, without Spectra: the other solver is given the matrices in the other
order and returns reciprocals. With the default load they are below `1e-4` for all modes, all references are above
`1e4`. -/
theorem C140_reciprocal_violated (r : Rule) :
    (∀ m n : ℕ, 1 ≤ m → 1 ≤ n → ∃ mu : ℝ, mu < 1e-4 ∧
      Eigen (kDiff r 0.01 1000000 0.3 (uniform (1e-4 * (1 - 0.3) / (1000000 * 0.01)) (1e-4 * (1 - 0.3) / (1000000 * 0.01))))
        (stiffForm plate (System.linearModuli r 0.01 1000000 0.3) square) mu (mode 1 1 m n)) ∧
    ∀ (i : ℤ) x, biaxialReference 1000000 0.3 0.01 1e-4 i = .ok x → 1e4 < x := by
  have p1 := Real.pi_gt_three
  constructor
  · intro m n hm hn
    have hm' : (1 : ℝ) ≤ m := by exact_mod_cast hm
    have hn' : (1 : ℝ) ≤ n := by exact_mod_cast hn
    have am : 3 ≤ m * Real.pi := by nlinarith
    have an : 3 ≤ n * Real.pi := by nlinarith
    have hs : 18 ≤ (m * Real.pi) ^ 2 + (n * Real.pi) ^ 2 := by nlinarith
    set s := (m * Real.pi) ^ 2 + (n * Real.pi) ^ 2 with hsd
    have hs0 : 0 < s := by linarith
    refine ⟨1e-4 * (1 + 3.5e-9) / (flexural 1000000 0.3 0.01 * s), ?_, fun v hv => ?_⟩
    · rw [div_lt_iff₀ (by unfold flexural; norm_num; linarith)]
      unfold flexural; norm_num; linarith
    · rw [kDiff_mode r (by norm_num) (by norm_num) (by norm_num) (by norm_num) (by norm_num) m n hv,
        kL_mode r (by norm_num) (by norm_num) (by norm_num) m n hv, ← hsd, ← mul_assoc]
      congr 1
      have hF : flexural 1000000 0.3 0.01 ≠ 0 := by unfold flexural; norm_num
      generalize flexural 1000000 0.3 0.01 = F at *
      field_simp
      rw [hsd]
      norm_num
      ring
  · intro i x h
    obtain ⟨m, n, hm, hn, rfl⟩ := bind_entry h
    have hm' : (1 : ℝ) ≤ m := by exact_mod_cast hm
    have hn' : (1 : ℝ) ≤ n := by exact_mod_cast hn
    have q : (2 : ℝ) ≤ m * m + n * n := by nlinarith
    rw [lt_div_iff₀ (by norm_num)]
    unfold biaxialGamma plateD piConst
    norm_num
    linarith

example (r : Rule) : ∃ u, Supported 1 1 u ∧ (∃ q ∈ square, (u q).z ≠ 0) ∧
    Eigen (stiffForm plate (System.linearModuli r 0.01 1000000 0.3) square)
      (kDiff r 0.01 1000000 0.3 (uniform (1e-4 * (1 - 0.3) / (1000000 * 0.01)) (1e-4 * (1 - 0.3) / (1000000 * 0.01))))
      (progTrue 1e-4 2 1) u :=
  (C140_biaxial r (by norm_num) (by norm_num) (by norm_num) (by norm_num) (by norm_num) _).2
    ⟨2, 1, by norm_num, by norm_num, rfl⟩

example : ∃ m n : ℕ, 1 ≤ m ∧ 1 ≤ n ∧ Kth 68 (m ^ 2 + n ^ 2) ∧ ∃ x, biaxialReference 1000000 0.3 0.01 1e-4 (68 : ℕ) = .ok x ∧
    |x - (1 + 1e-4 * (1 - 0.3) / (2 * 1000000 * 0.01)) * biaxialTrue 1000000 0.3 0.01 1e-4 m n| ≤ 2e-19 * x :=
  C140_biaxial_reference (by norm_num) (by norm_num) (by norm_num) (by norm_num) (by norm_num) (by norm_num)

example : numericReference 1 (10 : ℕ) = .ub := (C140_numeric_ub_violated 1 le_rfl (by norm_num)).1

/-! ## Buckling problem, one direction -/

/-- **C140** Buckling example, one direction: the displacement parallel to an edge meets the supports and has no
stiffness, so that the matrix of the linear problem is singular: every multiple of it can be added to a solution. -/
theorem C140_translation_violated (r : Rule) (hE : 0 < E) (h1 : -1 < ν) (h2 : ν < 1 / 2) (load c : ℝ) :
    Supported 1 1 (fun _ => ⟨c, 0, 0⟩) ∧ (∀ v, SmoothOn 2 v Set.univ →
      stiffForm plate (System.linearModuli r t E ν) square (fun _ => ⟨c, 0, 0⟩) v = 0) ∧
    edgeForm ⟨-load, 0, 0⟩ ⟨load, 0, 0⟩ 0 (fun _ => ⟨c, 0, 0⟩) = 0 := by
  refine ⟨⟨⟨contDiffOn_const, contDiffOn_const, contDiffOn_const⟩, fun _ _ => rfl⟩, fun v hv => ?_, ?_⟩
  · have z : ∀ q, eps (fun _ => (⟨c, 0, 0⟩ : V3)) q = fun _ => 0 := by
      intro q; funext k
      rcases fin3_cases k with rfl | rfl | rfl <;> simp [eps, pd_eq]
    have kz : ∀ q, kap (fun _ => (0 : ℝ)) q = fun _ => 0 := by
      intro q
      have z : ∀ i : Fin 2, pd i (fun _ : ℝ × ℝ => (0 : ℝ)) = fun _ => 0 := by
        intro i; funext q; simp [pd_eq]
      funext k
      rcases fin3_cases k with rfl | rfl | rfl <;> simp [kap, z]
    obtain ⟨hB, hC, -, -⟩ := linear_flat (t := t) r hE h1 h2
    rw [plate_eq, square_eq, form_full _ hB hC]
    simp [memb, bend, z, kz, dotV, rowMul]
  · rw [zero3, edge_eq]; simp

/-- **C140** Buckling example, one direction: the uniform strains `-e` and `ν e` with `e = load/(E t)` solve the linear
problem. -/
theorem C140_uniaxial_solution (r : Rule) (hE : 0 < E) (h1 : -1 < ν) (h2 : ν < 1 / 2) (ht : 0 < t) (load : ℝ) :
    ∀ v, Supported 1 1 v →
      stiffForm plate (System.linearModuli r t E ν) square (uniform (-(load / (E * t))) (ν * (load / (E * t)))) v
        = edgeForm ⟨-load, 0, 0⟩ ⟨load, 0, 0⟩ 0 v := by
  intro v hv
  rw [uniform_weak r hE h1 h2 _ _ hv.1, zero3, edge_eq]
  have n1 : 1 - ν ≠ 0 := by linarith
  have n2 : 1 + ν ≠ 0 := by linarith
  rw [show 1 - ν ^ 2 = (1 - ν) * (1 + ν) by ring]
  field_simp
  ring

/-- **C140** Buckling example, one direction: the eigenvalues of all modes of the table are negative, as the plate is
compressed, while all references are positive. -/
theorem C140_uniaxial_violated (r : Rule) :
    (∀ m n : ℕ, 1 ≤ m → 1 ≤ n → n ≤ 9 → ∃ lam : ℝ, lam < 0 ∧
      Eigen (stiffForm plate (System.linearModuli r 0.01 1000000 0.3) square)
        (kDiff r 0.01 1000000 0.3 (uniform (-(100 / (1000000 * 0.01))) (0.3 * (100 / (1000000 * 0.01))))) lam
        (mode 1 1 m n)) ∧
    ∀ (i : ℤ) x, uniaxialReference 1000000 0.3 0.01 100 i = .ok x → 0 < x := by
  have p0 := Real.pi_pos
  constructor
  · intro m n hm hn hn9
    have hm' : (1 : ℝ) ≤ m := by exact_mod_cast hm
    have hn' : (1 : ℝ) ≤ n := by exact_mod_cast hn
    have h9 : (n : ℝ) ≤ 9 := by exact_mod_cast hn9
    have hA : Real.pi ^ 2 ≤ (m * Real.pi) ^ 2 := by rw [mul_pow]; nlinarith [mul_le_mul_of_nonneg_right (one_le_pow₀ hm' (n := 2)) (sq_nonneg Real.pi)]
    have hB : (n * Real.pi) ^ 2 ≤ 81 * Real.pi ^ 2 := by
      rw [mul_pow]
      have : (n : ℝ) ^ 2 ≤ 81 := by nlinarith
      gcongr
    have hB0 : 0 < (n * Real.pi) ^ 2 := by positivity
    have hP : 0 < Real.pi ^ 2 := by positivity
    have key : ∀ v, Supported 1 1 v → stiffForm plate (System.linearModuli r 0.01 1000000 0.3) square (mode 1 1 m n) v
        = flexural 1000000 0.3 0.01 * ((m * Real.pi) ^ 2 + (n * Real.pi) ^ 2) ^ 2
          * massForm plate 1 square (mode 1 1 m n) v ∧ _ :=
      fun v hv => ⟨kL_mode r (by norm_num) (by norm_num) (by norm_num) m n hv,
        kDiff_mode r (E := 1000000) (ν := 0.3) (t := 0.01) (α := -(100 / (1000000 * 0.01)))
          (β := 0.3 * (100 / (1000000 * 0.01))) (by norm_num) (by norm_num) (by norm_num) (by norm_num) (by norm_num) m n hv⟩
    generalize (m * Real.pi) ^ 2 = A at *
    generalize (n * Real.pi) ^ 2 = B at *
    have neg : (0.01 : ℝ) * (1000000 / (1 - 0.3 ^ 2)) * (((1 + -(100 / (1000000 * 0.01))) ^ 2 - 1) / 2
          + 0.3 * (((1 + 0.3 * (100 / (1000000 * 0.01))) ^ 2 - 1) / 2)) * A
        + 0.01 * (1000000 / (1 - 0.3 ^ 2)) * (((1 + 0.3 * (100 / (1000000 * 0.01))) ^ 2 - 1) / 2
          + 0.3 * (((1 + -(100 / (1000000 * 0.01))) ^ 2 - 1) / 2)) * B < 0 := by
      norm_num
      linarith
    have hF : 0 < flexural 1000000 0.3 0.01 := by unfold flexural; norm_num
    refine ⟨_, div_neg_of_pos_of_neg (mul_pos hF (pow_pos (by linarith) 2 : 0 < (A + B) ^ 2)) neg, fun v hv => ?_⟩
    obtain ⟨k1, k2⟩ := key v hv
    rw [k1, k2, ← mul_assoc, div_mul_cancel₀ _ neg.ne]
  · intro i x h
    obtain ⟨m, n, hm, hn, rfl⟩ := bind_entry h
    have hm' : (0 : ℝ) < m := by exact_mod_cast hm
    have hn' : (0 : ℝ) < n := by exact_mod_cast hn
    have : 0 < plateD 1000000 0.3 0.01 := by unfold plateD; norm_num
    have : 0 < piConst := by unfold piConst; norm_num
    unfold uniaxialGamma
    positivity

example (r : Rule) : ∀ v, Supported 1 1 v →
    stiffForm plate (System.linearModuli r 0.01 1000000 0.3) square
      (uniform (-(100 / (1000000 * 0.01))) (0.3 * (100 / (1000000 * 0.01)))) v
      = edgeForm ⟨-100, 0, 0⟩ ⟨100, 0, 0⟩ 0 v :=
  C140_uniaxial_solution r (by norm_num) (by norm_num) (by norm_num) (by norm_num) 100

end

end Verif.Examples
