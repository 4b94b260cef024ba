import Verif.Lemmas.BalloonExample

/-! # Property C133: the inflated balloon as in the unit tests -/

namespace Verif.Balloon

open V3 Geometry Integrate Fields Verif.Variation ShellTangent Hyper Spectral Spec.Balloon

variable {R : ℝ} {X : ℝ × ℝ → V3} {U : Set (ℝ × ℝ)}

/-- **C133** Pressure of an inflated sphere with any thickness rule: a patch of a sphere, uniformly
stretched by `lam`, is in equilibrium (the residual of the assembler with bending vanishes for every
virtual displacement) exactly for one pressure, which sums the stresses of the layers. -/
theorem C133_NH_layers (m : Par) (hX : SpherePatch R X U) {r : Rule} {t lam p : ℝ} (hl : 0 < lam)
    (hz : ∀ j, 0 < 1 + r.ξ j * t / R ∧ 0 < lam + r.ξ j * t / R) :
    (∀ w, TestField w U → residual (nh m) r t p X (fun q => lam • X q) w = 0) ↔
      p = 2 / R * ∑ j, r.w j * t * (lam + r.ξ j * t / R)
        * (m.mu * (1 - 1 / ((lam + r.ξ j * t / R) / (1 + r.ξ j * t / R)) ^ 6)
          / (1 + r.ξ j * t / R) ^ 2) :=
  balance_iff hX hl fun _ hq => isoAt_of (iso_NH m) (fun _ _ _ => rfl) (sph hX hq) hl hz

/-- Two points in the thickness of a globe. -/
example : ∀ w, TestField w band → residual (nh ⟨3, 1 / 2, 0⟩) ⟨2, ![-1 / 2, 1 / 2], ![1 / 2, 1 / 2]⟩ 1
    (2 * (728 / 243 + 14896 / 28125)) (globe 1) (fun q => (2 : ℝ) • globe 1 q) w = 0 := by
  have := C133_NH_layers ⟨3, 1 / 2, 0⟩ (globe_patch one_pos)
    (r := ⟨2, ![-1 / 2, 1 / 2], ![1 / 2, 1 / 2]⟩) (t := 1) (lam := 2)
    (p := 2 * (728 / 243 + 14896 / 28125)) two_pos (by
      intro j
      rcases fin2_cases j with rfl | rfl
      · show 0 < 1 + (-1 / 2 : ℝ) * 1 / 1 ∧ 0 < 2 + (-1 / 2 : ℝ) * 1 / 1; norm_num
      · show 0 < 1 + (1 / 2 : ℝ) * 1 / 1 ∧ 0 < 2 + (1 / 2 : ℝ) * 1 / 1; norm_num)
  refine this.2 ?_
  have e : Par.mu ⟨3, 1 / 2, 0⟩ = 1 := by norm_num [Par.mu]
  have s : ∀ f : Fin 2 → ℝ, ∑ j, f j = f 0 + f 1 := Fin.sum_univ_two
  rw [show (∑ j : Fin (Rule.n ⟨2, ![-1 / 2, 1 / 2], ![1 / 2, 1 / 2]⟩), _ : ℝ) = _ from s _]
  simp only [Matrix.cons_val_zero, Matrix.cons_val_one, e]
  norm_num

/-- A rule with all points on the mid-surface. -/
def MidOnly (r : Rule) : Prop := (∀ j, r.ξ j = 0) ∧ ∑ j, r.w j = 1

theorem mid_sum {r : Rule} (h : MidOnly r) (t lam R : ℝ) (σ : ℝ → ℝ) :
    2 / R * ∑ j, r.w j * t * (lam + r.ξ j * t / R)
      * (σ ((lam + r.ξ j * t / R) / (1 + r.ξ j * t / R)) / (1 + r.ξ j * t / R) ^ 2)
      = 2 / R * (t * lam * σ lam) ∧
    2 / R * ∑ j, r.w j * t * lam
      * (σ ((lam + r.ξ j * t / R) / (1 + r.ξ j * t / R)) / (1 + r.ξ j * t / R) ^ 2)
      = 2 / R * (t * lam * σ lam) := by
  have e : ∀ j, r.ξ j * t / R = 0 := fun j => by rw [h.1 j]; simp
  have k : ∑ j, r.w j * t * lam * σ lam = t * lam * σ lam := by
    have : ∑ j, r.w j * t * lam * σ lam = (∑ j, r.w j) * (t * lam * σ lam) := by
      rw [Finset.sum_mul]; exact Finset.sum_congr rfl fun j _ => by ring
    rw [this, h.2, one_mul]
  simp only [e, add_zero, div_one, one_pow, k, and_self]

/-- Balance with and without bending, for a rule on the mid-surface. -/
theorem mid_iff {σ : ℝ → ℝ} {terms : List (ℝ × ℝ)} (hσ : ∀ ρ, 0 < ρ → σ ρ = sigOG terms ρ)
    (hX : SpherePatch R X U) {L : Surf → Law} {r : Rule} (hr : MidOnly r) {t lam p : ℝ} (hl : 0 < lam)
    (hs : ∀ q ∈ U, IsoAt L r t lam (fun j => σ ((lam + r.ξ j * t / R) / (1 + r.ξ j * t / R))
      / (1 + r.ξ j * t / R) ^ 2) (jet X q)) :
    ((∀ w, TestField w U → residual L r t p X (fun q => lam • X q) w = 0) ↔
      p / lam ^ 2 = balloonOG terms R t lam) ∧
    ((∀ w, TestField w U → residualMembrane L r t p X (fun q => lam • X q) w = 0) ↔
      p / lam ^ 2 = balloonOG terms R t lam) := by
  obtain ⟨m1, m2⟩ := mid_sum hr t lam R σ
  have e := pressure_OG terms (R := R) (t := t) hl
  have b : p / lam ^ 2 = balloonOG terms R t lam ↔ p = lam ^ 2 * balloonOG terms R t lam := by
    rw [div_eq_iff (by positivity), mul_comm]
  rw [b, ← e, ← hσ lam hl]
  constructor
  · rw [balance_iff hX hl hs, m1]
  · rw [membrane_iff hX hl hs, m2]

theorem mid_pos {r : Rule} (hr : MidOnly r) {t lam R : ℝ} (hl : 0 < lam) (j : Fin r.n) :
    0 < 1 + r.ξ j * t / R ∧ 0 < lam + r.ξ j * t / R := by
  rw [hr.1 j]; simp [hl]

/-- **C133** Neo-Hookean balloon with the thickness points on the mid-surface, with and without bending: the
equilibrium pressure per deformed area is the one of the unit test, for every radius, thickness, stretch
and patch (missing: points off the mid-surface, `C133_layers_violated`). -/
theorem C133_NH_partial (m : Par) (hX : SpherePatch R X U) {r : Rule} (hr : MidOnly r) {t lam p : ℝ}
    (hl : 0 < lam) :
    ((∀ w, TestField w U → residual (nh m) r t p X (fun q => lam • X q) w = 0) ↔
      p / lam ^ 2 = balloonNH m.mu R t lam) ∧
    ((∀ w, TestField w U → residualMembrane (nh m) r t p X (fun q => lam • X q) w = 0) ↔
      p / lam ^ 2 = balloonNH m.mu R t lam) := by
  have e : balloonNH m.mu R t lam = balloonOG [(m.mu, 2)] R t lam := by
    simp [balloonNH, balloonOG]
  rw [e]
  exact mid_iff (fun ρ h => sig_NH_OG m.mu h) hX hr hl fun q hq =>
    isoAt_of (iso_NH m) (fun _ _ _ => rfl) (sph hX hq) hl (mid_pos hr hl)

example : ∀ w, TestField w band → residual (nh ⟨3, 1 / 2, 0⟩) ⟨1, ![0], ![1]⟩ (1 / 10)
    (2 ^ 2 * balloonNH 1 10 (1 / 10) 2) (globe 10) (fun q => (2 : ℝ) • globe 10 q) w = 0 := by
  have e : Par.mu ⟨3, 1 / 2, 0⟩ = 1 := by norm_num [Par.mu]
  have := (C133_NH_partial ⟨3, 1 / 2, 0⟩ (globe_patch (R := 10) (by norm_num)) (r := ⟨1, ![0], ![1]⟩)
    ⟨fun j => by rw [Subsingleton.elim j 0]; rfl, by simp⟩ (t := 1 / 10) (lam := 2)
    (p := 2 ^ 2 * balloonNH 1 10 (1 / 10) 2) two_pos).1
  rw [e] at this
  exact this.2 (by rw [mul_comm, mul_div_assoc]; norm_num)

/-- **C133** The same for the Mooney–Rivlin material. -/
theorem C133_MR_partial (m : Par) (h1 : m.r + 1 ≠ 0) (hX : SpherePatch R X U) {r : Rule} (hr : MidOnly r)
    {t lam p : ℝ} (hl : 0 < lam) :
    ((∀ w, TestField w U → residual (mr m) r t p X (fun q => lam • X q) w = 0) ↔
      p / lam ^ 2 = balloonMR m.mu m.r R t lam) ∧
    ((∀ w, TestField w U → residualMembrane (mr m) r t p X (fun q => lam • X q) w = 0) ↔
      p / lam ^ 2 = balloonMR m.mu m.r R t lam) := by
  have e : balloonMR m.mu m.r R t lam = balloonOG [(m.c1, 2), (-m.c2, -2)] R t lam := by
    have c2 : m.c2 = 1 / (m.r + 1) * m.mu := by rw [Par.c2]; ring
    have c1 : m.c1 = (1 - 1 / (m.r + 1)) * m.mu := by rw [Par.c1, Par.c2]; field_simp; ring
    simp only [balloonMR, balloonOG, List.map_cons, List.map_nil, List.sum_cons, List.sum_nil, c1, c2]
    ring
  rw [e]
  exact mid_iff (fun ρ h => sig_MR_OG m.c1 m.c2 h) hX hr hl fun q hq =>
    isoAt_of (iso_MR m) (fun _ _ _ => rfl) (sph hX hq) hl (mid_pos hr hl)

example : ∀ w, TestField w band → residualMembrane (mr ⟨3, 1 / 2, 7⟩) ⟨1, ![0], ![1]⟩ (1 / 10)
    (2 ^ 2 * balloonMR 1 7 10 (1 / 10) 2) (globe 10) (fun q => (2 : ℝ) • globe 10 q) w = 0 := by
  have e : Par.mu ⟨3, 1 / 2, 7⟩ = 1 := by norm_num [Par.mu]
  have := (C133_MR_partial ⟨3, 1 / 2, 7⟩ (by norm_num) (globe_patch (R := 10) (by norm_num))
    (r := ⟨1, ![0], ![1]⟩)
    ⟨fun j => by rw [Subsingleton.elim j 0]; rfl, by simp⟩ (t := 1 / 10) (lam := 2)
    (p := 2 ^ 2 * balloonMR 1 7 10 (1 / 10) 2) two_pos).2
  rw [e] at this
  exact this.2 (by rw [mul_comm, mul_div_assoc]; norm_num)

/-- **C133** The same for the Ogden material with any number of terms and any exact eigenvalue solver
(missing also: the states at which the shortcut of `_evalStretch` is taken). -/
theorem C133_OG_partial (terms : List (ℝ × ℝ)) {solver : T3 → Eig} {g : Surf → ℝ → Cols} {L : Surf → Law}
    (hL : ∀ s z G a b, (L s).stress z G (up a) (up b)
      = sSpecI solver (potOG terms) G (data (Gblock s z) G).J0 (g s z) a b)
    (hX : SpherePatch R X U) {r : Rule} (hr : MidOnly r) {t lam p : ℝ} (hl : 0 < lam)
    (hg : ∀ q ∈ U, Regular (Gblock (jet X q) 0) (Gblock (jet (fun q => lam • X q) q) 0)
      (g (jet X q) 0) (eigOf solver (Bmat (Gblock (jet (fun q => lam • X q) q) 0) (g (jet X q) 0)))) :
    ((∀ w, TestField w U → residual L r t p X (fun q => lam • X q) w = 0) ↔
      p / lam ^ 2 = balloonOG terms R t lam) ∧
    ((∀ w, TestField w U → residualMembrane L r t p X (fun q => lam • X q) w = 0) ↔
      p / lam ^ 2 = balloonOG terms R t lam) := by
  refine mid_iff (σ := sigOG terms) (fun _ _ => rfl) hX hr hl fun q hq j a b => ?_
  have h := sph hX hq
  have z : r.ξ j * t = 0 := by rw [hr.1 j]; ring
  have e1 : Gblock (jet X q) 0 = fun i k => (1 : ℝ) ^ 2 * Acov (jet X q) i k := by
    funext i k; rw [Gblock_sph h, zero_div, add_zero]
  have e2 : Gblock (scaleS lam (jet X q)) 0 = fun i k => lam ^ 2 * Acov (jet X q) i k := by
    funext i k; rw [Gblock_scale h hl, zero_div, add_zero]
  have k := hg q hq
  rw [jet_smul, e1, e2] at k
  have := iso_OG terms one_pos hl k a b
  simp only [z, zero_div, add_zero, div_one]
  rw [hL, e1, e2, this, div_one]
  rfl

example (L : Surf → Law) (hL : ∀ s z G a b, (L s).stress z G (up a) (up b)
      = sSpecI exactSolver (potOG [(2, 3), (-1, -2)]) G (data (Gblock s z) G).J0 (midCols s) a b) :
    ∀ w, TestField w band → residual L ⟨1, ![0], ![1]⟩ (1 / 10)
      (2 ^ 2 * balloonOG [(2, 3), (-1, -2)] 1 (1 / 10) 2) (globe 1) (fun q => (2 : ℝ) • globe 1 q) w
        = 0 :=
  (C133_OG_partial [(2, 3), (-1, -2)] (g := fun s _ => midCols s) hL (globe_patch one_pos)
    (r := ⟨1, ![0], ![1]⟩) ⟨fun j => by rw [Subsingleton.elim j 0]; rfl, by simp⟩ two_pos
    fun _ hq => regular_globe hq).1.2 (by rw [mul_comm, mul_div_assoc]; norm_num)

/-- Such a law exists. -/
example : ∃ L : Surf → Law, ∀ s z G a b, (L s).stress z G (up a) (up b)
      = sSpecI exactSolver (potOG [(2, 3), (-1, -2)]) G (data (Gblock s z) G).J0 (midCols s) a b :=
  ⟨fun s => ⟨fun z G i k => sSpecI exactSolver (potOG [(2, 3), (-1, -2)]) G
    (data (Gblock s z) G).J0 (midCols s) (if i = 0 then 0 else 1) (if k = 0 then 0 else 1), 0⟩,
    fun s z G a b => by
      rcases fin2_cases a with rfl | rfl <;> rcases fin2_cases b with rfl | rfl <;> rfl⟩

/-- **C133** The factor `lam ^ 2` is the ratio of areas by which the unit test scales the pressure: for every
surface patch (a sphere or not) with positive area, `p * area X / area x` is `p / lam ^ 2`. -/
theorem C133_area (X : ℝ × ℝ → V3) (D : Set (ℝ × ℝ)) (h : 0 < area X D) (lam p : ℝ) :
    area (fun q => lam • X q) D = lam ^ 2 * area X D ∧
      p * area X D / area (fun q => lam • X q) D = p / lam ^ 2 := by
  have e : area (fun q => lam • X q) D = lam ^ 2 * area X D := by
    unfold area
    rw [← MeasureTheory.integral_const_mul]
    congr 1
    funext q
    rw [jet_smul]
    exact measure_scale lam (jet X q)
  refine ⟨e, ?_⟩
  rw [e]
  rw [mul_comm p, mul_comm (lam ^ 2), mul_div_mul_left _ _ h.ne']

/-- A flat unit square. -/
example : 0 < area (fun q => ⟨q.1, q.2, 0⟩) (Set.Icc 0 1 ×ˢ Set.Icc 0 1) := by
  have m : ∀ q : ℝ × ℝ, Variation.measure (jet (fun q => ⟨q.1, q.2, 0⟩) q) = 1 := by
    intro q
    have f1 : ∀ q : ℝ × ℝ, fderiv ℝ (fun q : ℝ × ℝ => q.1) q = ContinuousLinearMap.fst ℝ ℝ ℝ :=
      fun _ => fderiv_fst
    have f2 : ∀ q : ℝ × ℝ, fderiv ℝ (fun q : ℝ × ℝ => q.2) q = ContinuousLinearMap.snd ℝ ℝ ℝ :=
      fun _ => fderiv_snd
    have a : ∀ q : ℝ × ℝ, vpd 0 (fun q => (⟨q.1, q.2, 0⟩ : V3)) q = ⟨1, 0, 0⟩ := by
      intro q
      ext <;> simp [vpd, pd, f1, f2]
    have b : ∀ q : ℝ × ℝ, vpd 1 (fun q => (⟨q.1, q.2, 0⟩ : V3)) q = ⟨0, 1, 0⟩ := by
      intro q
      ext <;> simp [vpd, pd, f1, f2]
    have a' : (jet (fun q => (⟨q.1, q.2, 0⟩ : V3)) q).a 0 = ⟨1, 0, 0⟩ := a q
    have b' : (jet (fun q => (⟨q.1, q.2, 0⟩ : V3)) q).a 1 = ⟨0, 1, 0⟩ := b q
    rw [Variation.measure, a', b']
    norm_num [V3.norm, dot, cross]
  unfold area
  simp only [m]
  rw [MeasureTheory.setIntegral_const, MeasureTheory.measureReal_def, MeasureTheory.Measure.volume_eq_prod,
    MeasureTheory.Measure.prod_prod]
  simp

/-- **C133** With points off the mid-surface the pressure of the unit test does not balance the sphere: two
Gauss points, sphere of radius 1, stretch 2. -/
theorem C133_layers_violated : ∃ (m : Par) (t p : ℝ) (r : Rule), 0 < m.mu ∧ 0 < t ∧
    r = ⟨2, ![√(1 / 12), -√(1 / 12)], ![1 / 2, 1 / 2]⟩ ∧
    p / 2 ^ 2 = balloonNH m.mu 1 t 2 ∧
    ¬∀ w, TestField w band → residual (nh m) r t p (globe 1) (fun q => (2 : ℝ) • globe 1 q) w = 0 := by
  have hs : √(1 / 12 : ℝ) * (√12 / 2) = 1 / 2 := by
    rw [← mul_div_assoc, ← Real.sqrt_mul (by norm_num)]
    norm_num
  have h12 : 0 < √(12 : ℝ) := by positivity
  have x0 : √(1 / 12 : ℝ) * (√12 / 2) / 1 = 1 / 2 := by rw [hs]; norm_num
  have x1 : -√(1 / 12 : ℝ) * (√12 / 2) / 1 = -(1 / 2) := by rw [neg_mul, hs]; norm_num
  refine ⟨⟨3, 1 / 2, 0⟩, √12 / 2, 2 ^ 2 * balloonNH 1 1 (√12 / 2) 2, _, by norm_num [Par.mu],
    by positivity, rfl, ?_, ?_⟩
  · have e : Par.mu ⟨3, 1 / 2, 0⟩ = 1 := by norm_num [Par.mu]
    rw [e, mul_comm, mul_div_assoc]; norm_num
  · intro h
    have e : Par.mu ⟨3, 1 / 2, 0⟩ = 1 := by norm_num [Par.mu]
    have k := (C133_NH_layers ⟨3, 1 / 2, 0⟩ (globe_patch one_pos)
      (r := ⟨2, ![√(1 / 12), -√(1 / 12)], ![1 / 2, 1 / 2]⟩) (t := √12 / 2) (lam := 2) two_pos (by
        intro j
        rcases fin2_cases j with rfl | rfl
        · show 0 < 1 + √(1 / 12 : ℝ) * (√12 / 2) / 1 ∧ 0 < 2 + √(1 / 12 : ℝ) * (√12 / 2) / 1
          rw [x0]; norm_num
        · show 0 < 1 + -√(1 / 12 : ℝ) * (√12 / 2) / 1 ∧ 0 < 2 + -√(1 / 12 : ℝ) * (√12 / 2) / 1
          rw [x1]; norm_num)).1 h
    have s : ∀ f : Fin 2 → ℝ, ∑ j, f j = f 0 + f 1 := Fin.sum_univ_two
    rw [show (∑ j : Fin (Rule.n ⟨2, ![√(1 / 12), -√(1 / 12)], ![1 / 2, 1 / 2]⟩), _ : ℝ) = _ from s _] at k
    simp only [Matrix.cons_val_zero, Matrix.cons_val_one, x0, x1, e] at k
    have n : balloonNH 1 1 (√12 / 2) 2 = √12 * (1 / 2 - 1 / 128) := by
      have a1 : (2 : ℝ) ^ (2 - 3 : ℝ) = 1 / 2 := by
        rw [show (2 - 3 : ℝ) = -1 by norm_num, Real.rpow_neg_one]; norm_num
      have a2 : (2 : ℝ) ^ (-2 * 2 - 3 : ℝ) = 1 / 128 := by
        rw [show (-2 * 2 - 3 : ℝ) = -((7 : ℕ) : ℝ) by norm_num, Real.rpow_neg (by norm_num),
          Real.rpow_natCast]
        norm_num
      rw [balloonNH, a1, a2]; ring
    rw [n] at k
    have : √(12 : ℝ) ≠ 0 := h12.ne'
    apply this
    norm_num at k
    linarith

end Verif.Balloon
