import Verif.Lemmas.PosDef

/-!
# C126: when the hyperelastic tangents are positive definite

Property theorems.  `A` and `C` are the undeformed and deformed metrics at a point, `x` the squared
thickness stretch.  The matrices are those the evaluators return.
-/

namespace Verif.PosDef

open Verif.Geometry Verif.Hyper Verif.Integrate Verif.Variation Verif.ShellTangent
open Spec.Reparam Spec.PosDef Spec.Hyper Verif.Reparam

/-- **C126** The tangent of the incompressible neo-Hookean material is positive definite in every
deformation. -/
theorem C126_neoHooke (p : Par) (hp : 0 < p.mu) {A C : T2} (hA : Metric A) (hC : Metric C) :
    PosMat (fillMatrix (cNH p (data A C))) := by
  rw [posMat_iff _ (symm_nh p hA hC).1]
  obtain ⟨P, hP, a, b, ha, hb, hd⟩ := principal' hA hC
  rw [← positive_contra P hP]
  have e : contra4 P (plane (cNH p (data A C))) = plane (cNH p (red a b)) := by
    funext i j k l
    rw [← hd]
    exact (cNH_co P p A C hP i j k l).symm
  rw [e]
  intro e he hne
  rw [form_nh p a b e he]
  have := sq_ne he hne
  positivity

/-- **C126** The tangent of the incompressible Mooney–Rivlin material is positive definite exactly
if `(c1 + c2 J⁴)² < 4 (c1² + c1 c2 tr + c2² J²)`, with `J²` the ratio of the determinants and `tr`
the trace of the deformation tensor. -/
theorem C126_mooneyRivlin_partial (p : Par) (h1 : 0 < p.c1) (h2 : 0 < p.c2) {A C : T2}
    (hA : Metric A) (hC : Metric C) :
    PosMat (fillMatrix (cMR p (data A C))) ↔
      (p.c1 + p.c2 * (det2 C / det2 A) ^ 2) ^ 2
        < 4 * (p.c1 ^ 2 + p.c1 * p.c2 * (∑ i, ∑ j, inv2 A i j * C i j)
          + p.c2 ^ 2 * (det2 C / det2 A)) := by
  rw [posMat_iff _ (symm_nh p hA hC).2]
  obtain ⟨P, hP, a, b, ha, hb, hd⟩ := principal' hA hC
  rw [← positive_contra P hP]
  have e : contra4 P (plane (cMR p (data A C))) = plane (cMR p (red a b)) := by
    funext i j k l
    rw [← hd]
    exact (cMR_co P p A C hP i j k l).symm
  have hJ : det2 C / det2 A = a * b := by
    have := J0_co P A C hP
    rw [hd] at this
    exact this.symm
  have ht : ∑ i, ∑ j, inv2 A i j * C i j = a + b := by
    have := trace_co P A C hP
    rw [hd, red_trace] at this
    rw [this]
    simp only [traceCt, data, embed_00, embed_01, embed_10, embed_11, Fin.sum_univ_two]; ring
  rw [e, hJ, ht]
  have hab : 0 < a * b := mul_pos ha hb
  have k1 : 0 < p.c1 + p.c2 * b := by positivity
  have k2 : 0 < p.c1 + p.c2 * a := by positivity
  set X := p.c1 + p.c2 * (a * b) ^ 2 with hX
  have hprod : 4 * (p.c1 ^ 2 + p.c1 * p.c2 * (a + b) + p.c2 ^ 2 * (a * b))
      = 4 * (p.c1 + p.c2 * b) * (p.c1 + p.c2 * a) := by ring
  rw [hprod]
  constructor
  · intro h
    by_contra hc
    push Not at hc
    have := h ![![X, 0], ![0, -(2 * (p.c1 + p.c2 * b))]] (by simp) (fun h0 => by
      have := congrFun (congrFun h0 1) 1
      simp at this
      linarith)
    rw [form_mr p a b ha hb _ (by simp)] at this
    simp only [Matrix.cons_val_zero, Matrix.cons_val_one] at this
    have e2 : 2 * (p.c1 + p.c2 * b) * X ^ 2 + 2 * (p.c1 + p.c2 * a) * (-(2 * (p.c1 + p.c2 * b))) ^ 2
        + 2 * X * X * (-(2 * (p.c1 + p.c2 * b)))
        + 2 * (p.c1 + p.c2 * (a + b - (a * b) ^ 2)) * 0 ^ 2
        = 2 * (p.c1 + p.c2 * b) * (4 * (p.c1 + p.c2 * b) * (p.c1 + p.c2 * a) - X ^ 2) := by ring
    rw [← hX, e2] at this
    have h3 : 0 < 2 / (a * b) := by positivity
    have h4 := (mul_pos_iff_of_pos_left h3).1 this
    have h5 := (mul_pos_iff_of_pos_left (by positivity : 0 < 2 * (p.c1 + p.c2 * b))).1 h4
    linarith
  · intro h e he hne
    rw [form_mr p a b ha hb e he, ← hX]
    have hs : 0 < p.c1 + p.c2 * (a + b - (a * b) ^ 2) := by
      by_contra hc
      push Not at hc
      have h3 : 2 * p.c1 + p.c2 * (a + b) ≤ X := by rw [hX]; nlinarith
      have h4 : (2 * p.c1 + p.c2 * (a + b)) ^ 2 ≤ X ^ 2 :=
        pow_le_pow_left₀ (by positivity) h3 2
      have h5 : (2 * p.c1 + p.c2 * (a + b)) ^ 2
          = 4 * (p.c1 + p.c2 * b) * (p.c1 + p.c2 * a) + p.c2 ^ 2 * (a - b) ^ 2 := by ring
      have h6 : 0 ≤ p.c2 ^ 2 * (a - b) ^ 2 := by positivity
      linarith
    apply mul_pos (by positivity)
    have h0 := ne_zero_of he hne
    have key : 0 ≤ 2 * (p.c1 + p.c2 * b) * e 0 0 ^ 2 + 2 * (p.c1 + p.c2 * a) * e 1 1 ^ 2
        + 2 * X * e 0 0 * e 1 1 ∧ (2 * (p.c1 + p.c2 * b) * e 0 0 ^ 2
          + 2 * (p.c1 + p.c2 * a) * e 1 1 ^ 2 + 2 * X * e 0 0 * e 1 1 = 0 → e 0 0 = 0 ∧ e 1 1 = 0) := by
      have e3 : 2 * (p.c1 + p.c2 * b) * (2 * (p.c1 + p.c2 * b) * e 0 0 ^ 2
          + 2 * (p.c1 + p.c2 * a) * e 1 1 ^ 2 + 2 * X * e 0 0 * e 1 1)
          = (2 * (p.c1 + p.c2 * b) * e 0 0 + X * e 1 1) ^ 2
            + (4 * (p.c1 + p.c2 * b) * (p.c1 + p.c2 * a) - X ^ 2) * e 1 1 ^ 2 := by ring
      have hq : 0 < 4 * (p.c1 + p.c2 * b) * (p.c1 + p.c2 * a) - X ^ 2 := by linarith
      constructor
      · have : 0 ≤ 2 * (p.c1 + p.c2 * b) * (2 * (p.c1 + p.c2 * b) * e 0 0 ^ 2
          + 2 * (p.c1 + p.c2 * a) * e 1 1 ^ 2 + 2 * X * e 0 0 * e 1 1) := by
          rw [e3]; positivity
        exact nonneg_of_mul_nonneg_right this (by positivity)
      · intro hz
        rw [hz, mul_zero] at e3
        have h7 : 0 ≤ (4 * (p.c1 + p.c2 * b) * (p.c1 + p.c2 * a) - X ^ 2) * e 1 1 ^ 2 := by positivity
        have h8 : (4 * (p.c1 + p.c2 * b) * (p.c1 + p.c2 * a) - X ^ 2) * e 1 1 ^ 2 = 0 := by
          nlinarith [sq_nonneg (2 * (p.c1 + p.c2 * b) * e 0 0 + X * e 1 1)]
        have h9 : e 1 1 = 0 := by
          have := (mul_eq_zero.1 h8).resolve_left hq.ne'
          exact pow_eq_zero_iff two_ne_zero |>.1 this
        refine ⟨?_, h9⟩
        rw [h9] at hz
        have : 2 * (p.c1 + p.c2 * b) * e 0 0 ^ 2 = 0 := by linarith
        have := (mul_eq_zero.1 this).resolve_left (by positivity)
        exact pow_eq_zero_iff two_ne_zero |>.1 this
    have h10 : 0 ≤ 2 * (p.c1 + p.c2 * (a + b - (a * b) ^ 2)) * e 0 1 ^ 2 := by positivity
    rcases lt_or_eq_of_le key.1 with h | h
    · linarith
    · obtain ⟨z1, z2⟩ := key.2 h.symm
      have z3 : e 0 1 ≠ 0 := fun z => h0 ⟨z1, z, z2⟩
      have : 0 < 2 * (p.c1 + p.c2 * (a + b - (a * b) ^ 2)) * e 0 1 ^ 2 := by positivity
      linarith

/-- **C126** Violation: every Mooney–Rivlin material has a deformation, an equal stretch in all
in-plane directions, in which the tangent is not positive definite. -/
theorem C126_mooneyRivlin_violated (p : Par) (h1 : 0 < p.c1) (h2 : 0 < p.c2) :
    ∃ A C : T2, Metric A ∧ Metric C ∧ ¬ PosMat (fillMatrix (cMR p (data A C))) := by
  set L := 2 + p.c1 / p.c2 with hL
  have hr : 0 < p.c1 / p.c2 := by positivity
  have hL2 : 2 < L := by linarith
  have hA : Metric ![![1, 0], ![0, 1]] := ⟨by simp, by simp, by simp⟩
  have hC : Metric ![![L, 0], ![0, L]] := ⟨by simp, by simp; linarith, by simp; positivity⟩
  refine ⟨_, _, hA, hC, fun h => ?_⟩
  rw [C126_mooneyRivlin_partial p h1 h2 hA hC] at h
  simp only [det2, inv2, Fin.sum_univ_two, Matrix.cons_val_zero, Matrix.cons_val_one] at h
  have e : p.c1 = (L - 2) * p.c2 := by rw [hL]; field_simp; ring
  rw [e] at h
  have h3 : p.c2 ^ 2 * ((L - 2) + L ^ 4) ^ 2 < p.c2 ^ 2 * (4 * ((L - 2) + L) ^ 2) := by
    norm_num at h
    nlinarith [h]
  have h4 := (mul_lt_mul_iff_right₀ (by positivity : 0 < p.c2 ^ 2)).1 h3
  have h5 : ((2 * ((L - 2) + L)) ^ 2) ≤ ((L - 2) + L ^ 4) ^ 2 := by
    apply pow_le_pow_left₀ (by linarith)
    have : 16 ≤ L ^ 4 := by
      calc (16 : ℝ) = 2 ^ 4 := by norm_num
        _ ≤ L ^ 4 := pow_le_pow_left₀ (by norm_num) hL2.le 4
    have : 8 * L ≤ L ^ 4 := by
      have : 8 ≤ L ^ 3 := by
        calc (8 : ℝ) = 2 ^ 3 := by norm_num
          _ ≤ L ^ 3 := pow_le_pow_left₀ (by norm_num) hL2.le 3
      nlinarith
    linarith
  linarith

/-- **C126** With the ratio `c1 / c2 = 7` of the examples a stretch of `√2` in all directions is
enough. -/
theorem C126_balloon_violated (p : Par) (h2 : 0 < p.c2) (h1 : p.c1 = 7 * p.c2) :
    ¬ PosMat (fillMatrix (cMR p (data ![![1, 0], ![0, 1]] ![![2, 0], ![0, 2]]))) := by
  rw [C126_mooneyRivlin_partial p (by rw [h1]; positivity) h2 ⟨by simp, by simp, by simp⟩
    ⟨by simp, by simp, by simp⟩]
  simp only [det2, inv2, Fin.sum_univ_two, Matrix.cons_val_zero, Matrix.cons_val_one, h1]
  have : 0 < p.c2 ^ 2 := by positivity
  norm_num
  nlinarith

/-- **C126** Extended neo-Hookean material: wherever the thickness stress is zero, the thickness
stiffness and the condensed tangent are positive exactly if `0 < 2 μ x + 3 λ J² x`. -/
theorem C126_extended_partial (p : Par) (hp : 0 < p.mu) {A C : T2} (hA : Metric A) (hC : Metric C)
    (x : ℝ) (hx : 0 < x) (h0 : sNHe p (cdata (data A C) x) 2 2 = 0) :
    (0 < cNHe p (cdata (data A C) x) 2 2 2 2 ∧
      PosMat (fillMatrix (condense (cNHe p (cdata (data A C) x))))) ↔
      0 < 2 * p.mu * x + 3 * p.lam * (det2 C / det2 A * x) := by
  obtain ⟨P, hP, a, b, ha, hb, hd⟩ := principal' hA hC
  rw [full_iff A C x hx (cNHe p) P hP a b hd (cNHe_co p P A C x hP) (symm_c p hA hC x).2.2]
  have hJ : det2 C / det2 A = a * b := by
    have := J0_co P A C hP
    rw [hd] at this
    exact this.symm
  have hplane : 2 * p.mu - p.lam * (a * b * x - 1) = 2 * p.mu * x := by
    have e : sNHe p (cdata (data A C) x) 2 2
        = p.mu * 1 - p.mu * (1 / x) + p.lam / 2 * (det2 C / det2 A * x - 1) * (1 / x) := rfl
    rw [e, hJ] at h0
    field_simp at h0
    linarith
  rw [hJ]
  have hmx : 0 < p.mu * x := mul_pos hp hx
  constructor
  · intro h
    have := h ![![1, 0], ![0, 1]] 1 (by simp) (Or.inr one_ne_zero)
    rw [full_nhe p a b x hx _ _ (by simp), hplane] at this
    simp only [Matrix.cons_val_zero, Matrix.cons_val_one] at this
    nlinarith
  · intro h e y he hne
    rw [full_nhe p a b x hx e y he, hplane]
    have hs : 0 < e 0 0 ^ 2 + e 1 1 ^ 2 + 2 * e 0 1 ^ 2 + y ^ 2 := by
      by_cases hz : e = 0
      · have : y ≠ 0 := hne.resolve_left (not_not.2 hz)
        positivity
      · have := sq_ne he hz
        positivity
    have hle : (e 0 0 + e 1 1 + y) ^ 2 ≤ 3 * (e 0 0 ^ 2 + e 1 1 ^ 2 + 2 * e 0 1 ^ 2 + y ^ 2) := by
      nlinarith [sq_nonneg (e 0 0 - e 1 1), sq_nonneg (e 0 0 - y), sq_nonneg (e 1 1 - y),
        sq_nonneg (e 0 1)]
    rcases le_or_gt 0 p.lam with hl | hl
    · have : 0 ≤ p.lam * (a * b * x) * (e 0 0 + e 1 1 + y) ^ 2 := by positivity
      have : 0 < 2 * p.mu * x * (e 0 0 ^ 2 + e 1 1 ^ 2 + 2 * e 0 1 ^ 2 + y ^ 2) := by positivity
      linarith
    · have hn : p.lam * (a * b * x) ≤ 0 := by
        have : 0 < a * b * x := by positivity
        nlinarith
      have h3 := mul_le_mul_of_nonpos_left hle hn
      have h4 := mul_pos h hs
      nlinarith

/-- **C126** In particular for every deformation if Poisson's ratio is not negative. -/
theorem C126_extended (p : Par) (hE : 0 < p.E) (h1 : 0 ≤ p.ν) (h2 : p.ν < 1 / 2) {A C : T2}
    (hA : Metric A) (hC : Metric C) (x : ℝ) (hx : 0 < x)
    (h0 : sNHe p (cdata (data A C) x) 2 2 = 0) :
    0 < cNHe p (cdata (data A C) x) 2 2 2 2 ∧
      PosMat (fillMatrix (condense (cNHe p (cdata (data A C) x)))) := by
  have hmu : 0 < p.mu := by unfold Par.mu; positivity
  have hlam : 0 ≤ p.lam := by
    unfold Par.lam
    have : 0 < 1 - 2 * p.ν := by linarith
    positivity
  rw [C126_extended_partial p hmu hA hC x hx h0]
  have hdA : 0 < det2 A := hA.2.2
  have hdC : 0 < det2 C := hC.2.2
  positivity

/-- **C126** Compressible neo-Hookean material: wherever the thickness stress is zero, the thickness
stiffness and the condensed tangent are positive exactly if the deviator of the deformation is
small compared with the bulk modulus. -/
theorem C126_compressible_partial (p : Par) (hp : 0 < p.mu) {A C : T2} (hA : Metric A)
    (hC : Metric C) (x : ℝ) (hx : 0 < x) (h0 : sNHc p (cdata (data A C) x) 2 2 = 0) :
    (0 < cNHc p (cdata (data A C) x) 2 2 2 2 ∧
      PosMat (fillMatrix (condense (cNHc p (cdata (data A C) x))))) ↔
      p.mu * (det2 C / det2 A * x) ^ (-1 / 3 : ℝ)
          * dev2 (∑ i, ∑ j, inv2 A i j * C i j) (det2 C / det2 A) x
        < x * (9 / 2 * p.K + p.mu * (det2 C / det2 A * x) ^ (-1 / 3 : ℝ)
          * (2 * ((∑ i, ∑ j, inv2 A i j * C i j) + x) - 6 * x)) := by
  obtain ⟨P, hP, a, b, ha, hb, hd⟩ := principal' hA hC
  rw [full_iff A C x hx (cNHc p) P hP a b hd (cNHc_co p P A C x hP) (symm_c p hA hC x).1]
  have hJ : det2 C / det2 A = a * b := by
    have := J0_co P A C hP
    rw [hd] at this
    exact this.symm
  have ht : traceCt (data A C) = a + b := by
    have := trace_co P A C hP
    rw [hd, red_trace] at this
    exact this.symm
  have ht' : ∑ i, ∑ j, inv2 A i j * C i j = a + b := by
    rw [← ht]
    simp only [traceCt, data, embed_00, embed_01, embed_10, embed_11, Fin.sum_univ_two]; ring
  have e : sNHc p (cdata (data A C) x) 2 2
      = p.mu * (det2 C / det2 A * x) ^ (-1 / 3 : ℝ)
          * (1 - 1 / 3 * (traceCt (data A C) + x) * (1 / x))
        + p.K * (1 / 2) * (det2 C / det2 A * x - 1) * (1 / x) := rfl
  rw [e, hJ, ht] at h0
  rw [hJ, ht']
  have hq : 0 < (a * b * x) ^ (-1 / 3 : ℝ) := Real.rpow_pos_of_pos (by positivity) _
  set m := p.mu * (a * b * x) ^ (-1 / 3 : ℝ) with hm
  have hm0 : 0 < m := mul_pos hp hq
  have hplane : p.K * (a * b * x - 1) = 2 * m * ((a + b + x) / 3 - x) := by
    field_simp at h0
    linarith
  have hdev : dev2 (a + b) (a * b) x = (a - (a + b + x) / 3) ^ 2 + (b - (a + b + x) / 3) ^ 2
      + (x - (a + b + x) / 3) ^ 2 := by simp only [dev2]; ring
  -- the form with the plane-stress condition used
  have form : ∀ (e : T2) (y : ℝ), e 0 1 = e 1 0 → full (cNHc p (cdata (red a b) x)) e (x * y)
      = 2 * m * x * ((e 0 0 - (e 0 0 + e 1 1 + y) / 3
            - (e 0 0 + e 1 1 + y) / (3 * x) * (a - (a + b + x) / 3)) ^ 2
          + (e 1 1 - (e 0 0 + e 1 1 + y) / 3
            - (e 0 0 + e 1 1 + y) / (3 * x) * (b - (a + b + x) / 3)) ^ 2
          + (y - (e 0 0 + e 1 1 + y) / 3
            - (e 0 0 + e 1 1 + y) / (3 * x) * (x - (a + b + x) / 3)) ^ 2 + 2 * e 0 1 ^ 2)
        + 2 / (9 * x) * (x * (9 / 2 * p.K + m * (2 * (a + b + x) - 6 * x)) - m * dev2 (a + b) (a * b) x)
          * (e 0 0 + e 1 1 + y) ^ 2 := by
    intro e y he
    rw [full_nhc p a b x hx e y he, ← hm, hdev]
    have h1 : p.K * (a * b * x * (e 0 0 + e 1 1 + y) ^ 2
          - (a * b * x - 1) * (e 0 0 ^ 2 + e 1 1 ^ 2 + 2 * e 0 1 ^ 2 + y ^ 2))
        = p.K * (e 0 0 + e 1 1 + y) ^ 2 + p.K * (a * b * x - 1) * ((e 0 0 + e 1 1 + y) ^ 2
          - (e 0 0 ^ 2 + e 1 1 ^ 2 + 2 * e 0 1 ^ 2 + y ^ 2)) := by ring
    rw [h1, hplane]
    field_simp
    ring
  constructor
  · intro h
    -- the worst strain
    set g := (a + b + x) / 3 with hg
    have := h ![![1 / 3 + 1 / (3 * x) * (a - g), 0], ![0, 1 / 3 + 1 / (3 * x) * (b - g)]]
      (1 / 3 + 1 / (3 * x) * (x - g)) (by simp) (by
        by_contra hc
        push Not at hc
        obtain ⟨z, z3⟩ := hc
        have z1 := congrFun (congrFun z 0) 0
        have z2 := congrFun (congrFun z 1) 1
        simp only [Matrix.cons_val_zero, Matrix.cons_val_one, Pi.zero_apply] at z1 z2
        have : (1 : ℝ) = 0 := by
          have : 1 / 3 + 1 / (3 * x) * (a - g) + (1 / 3 + 1 / (3 * x) * (b - g))
              + (1 / 3 + 1 / (3 * x) * (x - g)) = 1 := by rw [hg]; ring
          linarith
        exact one_ne_zero this)
    rw [form _ _ (by simp)] at this
    simp only [Matrix.cons_val_zero, Matrix.cons_val_one] at this
    have htr : 1 / 3 + 1 / (3 * x) * (a - g) + (1 / 3 + 1 / (3 * x) * (b - g))
        + (1 / 3 + 1 / (3 * x) * (x - g)) = 1 := by rw [hg]; ring
    rw [htr] at this
    have e4 : ∀ u : ℝ, (1 / 3 + 1 / (3 * x) * u - 1 / 3 - 1 / (3 * x) * u) = 0 := by intro u; ring
    simp only [e4] at this
    have h6 : 0 < 2 / (9 * x) * (x * (9 / 2 * p.K + m * (2 * (a + b + x) - 6 * x))
        - m * dev2 (a + b) (a * b) x) := by
      linarith
    have h7 := (mul_pos_iff_of_pos_left (by positivity : 0 < 2 / (9 * x))).1 h6
    linarith
  · intro h e y he hne
    rw [form e y he]
    have h5 : 0 < 2 / (9 * x) * (x * (9 / 2 * p.K + m * (2 * (a + b + x) - 6 * x))
        - m * dev2 (a + b) (a * b) x) := mul_pos (by positivity) (by linarith)
    by_cases hs : e 0 0 + e 1 1 + y = 0
    · rw [hs]
      have : 0 < e 0 0 ^ 2 + e 1 1 ^ 2 + y ^ 2 + 2 * e 0 1 ^ 2 := by
        by_cases hz : e = 0
        · have : y ≠ 0 := hne.resolve_left (not_not.2 hz)
          positivity
        · have := sq_ne he hz
          nlinarith [sq_nonneg y]
      have h8 := mul_pos (by positivity : 0 < 2 * m * x) this
      simp only [zero_div, zero_mul, sub_zero]
      linarith
    · have h6 : 0 < (e 0 0 + e 1 1 + y) ^ 2 := by positivity
      have h7 := mul_pos h5 h6
      have h8 : 0 ≤ 2 * m * x * ((e 0 0 - (e 0 0 + e 1 1 + y) / 3
            - (e 0 0 + e 1 1 + y) / (3 * x) * (a - (a + b + x) / 3)) ^ 2
          + (e 1 1 - (e 0 0 + e 1 1 + y) / 3
            - (e 0 0 + e 1 1 + y) / (3 * x) * (b - (a + b + x) / 3)) ^ 2
          + (y - (e 0 0 + e 1 1 + y) / 3
            - (e 0 0 + e 1 1 + y) / (3 * x) * (x - (a + b + x) / 3)) ^ 2 + 2 * e 0 1 ^ 2) := by
        positivity
      linarith

/-- **C126** Violation: with a negative Poisson's ratio the extended material loses definiteness in a
moderate stretch. -/
theorem C126_auxetic_violated : ∃ (p : Par) (A C : T2) (x : ℝ), 0 < p.E ∧ -1 < p.ν ∧ p.ν < 1 / 2 ∧
    Metric A ∧ Metric C ∧ 0 < x ∧ sNHe p (cdata (data A C) x) 2 2 = 0 ∧
    ¬ (0 < cNHe p (cdata (data A C) x) 2 2 2 2 ∧
      PosMat (fillMatrix (condense (cNHe p (cdata (data A C) x))))) := by
  have hA : Metric ![![1, 0], ![0, 1]] := ⟨by simp, by simp, by simp⟩
  have hC : Metric ![![8 / 5, 0], ![0, 1]] := ⟨by simp, by simp, by simp⟩
  have h0 : sNHe ⟨1, -1 / 2, 1⟩ (cdata (data ![![1, 0], ![0, 1]] ![![8 / 5, 0], ![0, 1]]) (5 / 4)) 2 2
      = 0 := by
    simp [sNHe, cdata, data, withT_22, Par.mu, Par.lam, det2]; norm_num
  refine ⟨⟨1, -1 / 2, 1⟩, _, _, 5 / 4, by norm_num, by norm_num, by norm_num, hA, hC, by norm_num, h0,
    ?_⟩
  rw [C126_extended_partial _ (by norm_num [Par.mu]) hA hC _ (by norm_num) h0]
  simp [Par.mu, Par.lam, det2]; norm_num

/-- **C126** Violation: a compressible neo-Hookean material with positive Poisson's ratio, stretched
with zero thickness stress, has a tangent that is not positive definite (or a thickness stiffness
that is not positive). -/
theorem C126_compressible_violated : ∃ (p : Par) (A C : T2) (x : ℝ), 0 < p.E ∧ 0 < p.ν ∧
    p.ν < 1 / 2 ∧ Metric A ∧ Metric C ∧ 0 < x ∧ sNHc p (cdata (data A C) x) 2 2 = 0 ∧
    ¬ (0 < cNHc p (cdata (data A C) x) 2 2 2 2 ∧
      PosMat (fillMatrix (condense (cNHc p (cdata (data A C) x))))) := by
  have hA : Metric ![![1, 0], ![0, 1]] := ⟨by simp, by simp, by simp⟩
  have hC : Metric ![![256, 0], ![0, 1 / 4]] := ⟨by simp, by simp, by simp⟩
  have hr : (64 : ℝ) ^ (-1 / 3 : ℝ) = 1 / 4 := by
    rw [show (64 : ℝ) = 4 ^ (3 : ℝ) by norm_num, ← Real.rpow_mul (by norm_num)]
    norm_num
  have hJ : det2 (![![256, 0], ![0, 1 / 4]] : T2) / det2 (![![1, 0], ![0, 1]] : T2) = 64 := by
    simp [det2]; norm_num
  have hsum : ∑ i, ∑ j, inv2 (![![1, 0], ![0, 1]] : T2) i j * (![![256, 0], ![0, 1 / 4]] : T2) i j
      = 1025 / 4 := by
    simp [inv2, det2, Fin.sum_univ_two]; norm_num
  have ht : traceCt (data ![![1, 0], ![0, 1]] ![![256, 0], ![0, 1 / 4]]) = 1025 / 4 := by
    simp [traceCt, data, inv2, det2]; norm_num
  set p : Par := ⟨339 / 169, 1 / 338, 1⟩ with hp
  have hmu : p.mu = 1 := by norm_num [hp, Par.mu]
  have hK : p.K = 113 / 168 := by norm_num [hp, Par.K]
  have h0 : sNHc p (cdata (data ![![1, 0], ![0, 1]] ![![256, 0], ![0, 1 / 4]]) 1) 2 2 = 0 := by
    have e : sNHc p (cdata (data ![![1, 0], ![0, 1]] ![![256, 0], ![0, 1 / 4]]) 1) 2 2
        = p.mu * (det2 (![![256, 0], ![0, 1 / 4]] : T2) / det2 (![![1, 0], ![0, 1]] : T2) * 1)
            ^ (-1 / 3 : ℝ)
            * (1 - 1 / 3 * (traceCt (data ![![1, 0], ![0, 1]] ![![256, 0], ![0, 1 / 4]]) + 1) * (1 / 1))
          + p.K * (1 / 2) * (det2 (![![256, 0], ![0, 1 / 4]] : T2) / det2 (![![1, 0], ![0, 1]] : T2) * 1
            - 1) * (1 / 1) := rfl
    rw [e, hJ, ht, hmu, hK, mul_one, hr]
    norm_num
  refine ⟨p, _, _, 1, by norm_num [hp], by norm_num [hp], by norm_num [hp], hA, hC, by norm_num, h0, ?_⟩
  rw [C126_compressible_partial p (by rw [hmu]; norm_num) hA hC 1 (by norm_num) h0, hJ, hsum, hmu, hK,
    mul_one, hr]
  simp only [dev2]
  norm_num

/-- **C126** The Saint Venant–Kirchhoff tangent of the nonlinear class is positive definite. -/
theorem C126_svk (p : Par) (hE : 0 < p.E) (h1 : -1 < p.ν) (h2 : p.ν < 1 / 2) {G : T2}
    (hG : Metric G) : Positive (cSvK p G) := by
  intro e he hne
  have h := Linear.C20_positive_energy p.E p.ν hE h1 h2 G e hG.1 hG.2.1 hG.2.2 he (by
    by_contra hc
    push Not at hc
    exact hne (funext fun i => funext fun j => hc i j))
  exact h

/-- **C126** The material part of the tangent stiffness of a neo-Hookean shell is not negative in any
deformation, for every rule through the thickness with weights that are not negative. -/
theorem C126_stiffness (p : Par) (hp : 0 < p.mu) (r : Rule) (hw : ∀ j, 0 ≤ r.w j) (t : ℝ) (ht : 0 ≤ t)
    (ori s u : Surf) (ho : ∀ j, Metric (Gblock ori (r.ξ j * t)))
    (hs : ∀ j, Metric (Gblock s (r.ξ j * t))) :
    0 ≤ linStiffness s u u (modulus (nh p ori) r t 0 s) (modulus (nh p ori) r t 1 s)
      (modulus (nh p ori) r t 1 s) (modulus (nh p ori) r t 2 s) := by
  have e : linStiffness s u u (modulus (nh p ori) r t 0 s) (modulus (nh p ori) r t 1 s)
      (modulus (nh p ori) r t 1 s) (modulus (nh p ori) r t 2 s)
      = ∑ j, r.w j * t * ∑ a, ∑ b, (EmDer s u a + r.ξ j * t * EfDer s u a)
        * fillMatrix (cNH p (data (Gblock ori (r.ξ j * t)) (Gblock s (r.ξ j * t)))) a b
        * (EmDer s u b + r.ξ j * t * EfDer s u b) := by
    simp only [linStiffness, dotV, rowMul, modulus, integrateZ, nh, Fin.sum_univ_three,
      Finset.sum_mul, Finset.mul_sum, ← Finset.sum_add_distrib]
    refine Finset.sum_congr rfl fun j _ => ?_
    ring
  rw [e]
  refine Finset.sum_nonneg fun j _ => mul_nonneg (mul_nonneg (hw j) ht) ?_
  have h := C126_neoHooke p hp (ho j) (hs j)
  by_cases h0 : (fun a => EmDer s u a + r.ξ j * t * EfDer s u a) = 0
  · have : ∀ a, EmDer s u a + r.ξ j * t * EfDer s u a = 0 := fun a => congrFun h0 a
    simp [this]
  · exact (h _ h0).le

/-- Non-vacuity: a sheared and stretched state, with a thickness stretch that makes the thickness
stress of the extended material zero. -/
example : Metric ![![1, 0], ![0, 1]] ∧ Metric ![![2, 1], ![1, 2]] ∧
    sNHe ⟨2, 0, 1⟩ (cdata (data ![![1, 0], ![0, 1]] ![![2, 1], ![1, 2]]) 1) 2 2 = 0 := by
  refine ⟨⟨by simp, by simp, by simp⟩, ⟨by simp, by simp, by simp; norm_num⟩, ?_⟩
  simp [sNHe, cdata, data, withT_22, Par.mu, Par.lam]

/-- Non-vacuity: a Mooney–Rivlin material in its undeformed state meets the condition. -/
example : PosMat (fillMatrix (cMR ⟨3, 1 / 2, 7⟩ (data ![![1, 0], ![0, 1]] ![![1, 0], ![0, 1]]))) := by
  rw [C126_mooneyRivlin_partial _ (by norm_num [Par.c1, Par.c2, Par.mu])
    (by norm_num [Par.c2, Par.mu]) ⟨by simp, by simp, by simp⟩ ⟨by simp, by simp, by simp⟩]
  simp [Par.c1, Par.c2, Par.mu, det2, inv2, Fin.sum_univ_two]
  norm_num

/-- Non-vacuity: a flat sheet stretched to double length. -/
example : ∃ ori s : Surf, (∀ z : ℝ, Metric (Gblock ori z)) ∧ (∀ z : ℝ, Metric (Gblock s z)) ∧
    Acov s 0 0 = 4 * Acov ori 0 0 := by
  have h : ∀ a : ℝ, 0 < a → ∀ z, Metric
      (Gblock ⟨fun i => if i = 0 then ⟨a, 0, 0⟩ else ⟨0, 1, 0⟩, 0, 0, 0⟩ z) := by
    intro a ha z
    refine ⟨?_, ?_, ?_⟩ <;> simp [Gblock, Acov, Bcov, ncov, mixedB, V3.dot]
    · exact ha.ne'
    · exact ha.ne'
  refine ⟨⟨fun i => if i = 0 then ⟨1, 0, 0⟩ else ⟨0, 1, 0⟩, 0, 0, 0⟩,
    ⟨fun i => if i = 0 then ⟨2, 0, 0⟩ else ⟨0, 1, 0⟩, 0, 0, 0⟩, h 1 one_pos, h 2 two_pos, ?_⟩
  simp [Acov, V3.dot]; norm_num

end Verif.PosDef
