import Verif.Lemmas.BenchmarkState

/-! # Property C130: uniaxial tension as in the unit tests -/

namespace Verif.Benchmark

open Verif.Hyper Verif.Spectral Spec.Benchmark Spec.Spectral

/-- **C130** Incompressible neo-Hookean material in uniaxial tension: the lateral stress of a unit
square stretched to a rectangle vanishes exactly at the lateral stretch of the unit test, there is no
shear stress, and the axial Cauchy stress is the one of the unit test, for every stretch. -/
theorem C130_NH (p : Par) (hm : 0 < p.mu) {x y : ℝ} (hx : 0 < x) (hy : 0 < y) :
    (sNH p (data unit (rect x y)) 1 1 = 0 ↔ y = lateralI x) ∧
    sNH p (data unit (rect x y)) 0 1 = 0 ∧
    (y = lateralI x → cauchy x 1 (sNH p (data unit (rect x y)) 0 0) = uatNH p.mu x) := by
  have hp : ∀ a, 0 < vec3 x y (1 / (x * y)) a := by
    intro a
    rcases fin3_cases a with rfl | rfl | rfl
    · exact hx
    · exact hy
    · exact (by positivity : 0 < 1 / (x * y))
  have fr := sNH_frame p (frame_rect x y (1 / (x * y))) (by rw [det_unit]; norm_num) hp rfl
  obtain ⟨q0, q1, q2⟩ := sProj_id (SaI (potNH p) (vec3 x y (1 / (x * y))))
  have f0 := (fr 0 0).symm.trans (q0.trans (NH_ogden p hp 0))
  have f1 := (fr 1 1).symm.trans (q1.trans (NH_ogden p hp 1))
  have f2 := (fr 0 1).symm.trans q2
  obtain ⟨r1, r2⟩ := incompressible (terms := [(p.mu, 2)]) ⟨by simp, by simpa using by linarith⟩
    hx hy f0 f1
  refine ⟨r1, f2, fun h => ?_⟩
  rw [show sNH p (data unit (rect x y)) 0 0 = sNH p (data unit (rect x y)) (up 0) (up 0) from rfl,
    r2 h]
  simp only [uatOG, uatNH, List.map_cons, List.map_nil, List.sum_cons, List.sum_nil]
  rw [show (0.5 * 2 : ℝ) = 1 by norm_num, Real.rpow_one, Real.rpow_two]
  ring

example : sNH ⟨3, 1 / 2, 0⟩ (data unit (rect 4 (1 / 2))) 1 1 = 0 ∧
    cauchy 4 1 (sNH ⟨3, 1 / 2, 0⟩ (data unit (rect 4 (1 / 2))) 0 0) = 63 / 4 := by
  have h : (1 / 2 : ℝ) = lateralI 4 := (lateralI_iff (by norm_num) (by norm_num)).2 (by norm_num)
  have c := C130_NH ⟨3, 1 / 2, 0⟩ (by norm_num [Par.mu]) (x := 4) (y := 1 / 2) (by norm_num)
    (by norm_num)
  exact ⟨c.1.2 h, by rw [c.2.2 h]; norm_num [uatNH, Par.mu]⟩

/-- **C130** The same for the incompressible Mooney–Rivlin material. -/
theorem C130_MR (p : Par) (hm : 0 < p.mu) (hr : 0 < p.r) {x y : ℝ} (hx : 0 < x) (hy : 0 < y) :
    (sMR p (data unit (rect x y)) 1 1 = 0 ↔ y = lateralI x) ∧
    sMR p (data unit (rect x y)) 0 1 = 0 ∧
    (y = lateralI x → cauchy x 1 (sMR p (data unit (rect x y)) 0 0) = uatMR p.mu p.r x) := by
  have hp : ∀ a, 0 < vec3 x y (1 / (x * y)) a := by
    intro a
    rcases fin3_cases a with rfl | rfl | rfl
    · exact hx
    · exact hy
    · exact (by positivity : 0 < 1 / (x * y))
  have c2 : 0 < p.c2 := div_pos hm (by linarith)
  have c1 : 0 < p.c1 := mul_pos hr c2
  have fr := sMR_frame p (frame_rect x y (1 / (x * y))) (by rw [det_unit]; norm_num) rfl hp rfl
  obtain ⟨q0, q1, q2⟩ := sProj_id (SaI (potMR p) (vec3 x y (1 / (x * y))))
  have f0 := (fr 0 0).symm.trans (q0.trans (MR_ogden p hp rfl 0))
  have f1 := (fr 1 1).symm.trans (q1.trans (MR_ogden p hp rfl 1))
  have f2 := (fr 0 1).symm.trans q2
  obtain ⟨r1, r2⟩ := incompressible (terms := [(p.c1, 2), (-p.c2, -2)])
    ⟨by simp, by simpa using ⟨by linarith, by linarith⟩⟩ hx hy f0 f1
  refine ⟨r1, f2, fun h => ?_⟩
  rw [show sMR p (data unit (rect x y)) 0 0 = sMR p (data unit (rect x y)) (up 0) (up 0) from rfl,
    r2 h]
  simp only [uatOG, uatMR, List.map_cons, List.map_nil, List.sum_cons, List.sum_nil]
  rw [show (0.5 * 2 : ℝ) = 1 by norm_num, show (0.5 * -2 : ℝ) = -1 by norm_num, Real.rpow_one,
    Real.rpow_two, rpow_neg_two hx, Real.rpow_neg_one]
  have hr1 : p.r + 1 ≠ 0 := by linarith
  simp only [Par.c1, Par.c2]
  field_simp
  ring

example : sMR ⟨3, 1 / 2, 7⟩ (data unit (rect 4 (1 / 2))) 1 1 = 0 :=
  ((C130_MR ⟨3, 1 / 2, 7⟩ (by norm_num [Par.mu]) (by norm_num) (x := 4) (y := 1 / 2) (by norm_num)
    (by norm_num)).1).2 ((lateralI_iff (by norm_num) (by norm_num)).2 (by norm_num))

/-- **C130** The same for the incompressible Ogden material with any number of terms, for any exact
eigenvalue solver (missing: the states at which the shortcut of `_evalStretch` is taken). -/
theorem C130_OG_partial (terms : List (ℝ × ℝ)) (ht : Admissible terms) {x y : ℝ} (hx : 0 < x) (hy : 0 < y)
    {g : Cols} {solver : T3 → Eig}
    (r : Regular unit (rect x y) g (eigOf solver (Bmat (rect x y) g))) :
    let S := sSpecI solver (potOG terms) (rect x y) (data unit (rect x y)).J0 g
    (S 1 1 = 0 ↔ y = lateralI x) ∧ S 0 1 = 0 ∧
    (y = lateralI x → cauchy x 1 (S 0 0) = uatOG terms x) := by
  intro S
  obtain ⟨hJ, hinc⟩ := regular_inc r
  obtain ⟨f, hp, h2⟩ := regular_frame r hJ
  set l := stretches solver (rect x y) (1 / (data unit (rect x y)).J0) g with hl
  have hJ0 : (data unit (rect x y)).J0 = (x * y) ^ 2 := by
    simp only [data, det_unit]
    simp [det2, rect]; ring
  have hz : l 2 = 1 / (x * y) := by
    have : l 2 = Real.sqrt (1 / (data unit (rect x y)).J0) := rfl
    rw [this, hJ0, Real.sqrt_div zero_le_one, Real.sqrt_one, Real.sqrt_sq (by positivity)]
  obtain ⟨a0, a1, a2⟩ := sProj_rect f (lawI terms (l 2)) (SaI (potOG terms) l)
    (by rw [lawI_eq terms l 0 (hp 0)]; rfl) (by rw [lawI_eq terms l 1 (hp 1)]; rfl)
  have b0 : S 0 0 = SaI (potOG terms) (vec3 x y (1 / (x * y))) 0 := by
    rw [lawI_eq terms (vec3 x y (1 / (x * y))) 0 hx]
    simp only [vec3_two, vec3_zero]
    rw [← hz]
    exact a0
  have b1 : S 1 1 = SaI (potOG terms) (vec3 x y (1 / (x * y))) 1 := by
    rw [lawI_eq terms (vec3 x y (1 / (x * y))) 1 hy]
    simp only [vec3_two, vec3_one]
    rw [← hz]
    exact a1
  obtain ⟨r1, r2⟩ := incompressible ht hx hy b0 b1
  exact ⟨r1, a2, r2⟩

/-- **C130** Compressible neo-Hookean material in uniaxial tension. -/
theorem C130_NHc (p : Par) (hm : 0 < p.mu) (hK : 0 < p.K) (hν : 1 + p.ν ≠ 0) {x : ℝ} (hx : 0 < x) :
    Tension (fun y c => sNHc p (cdata (data unit (rect x y)) c)) x
      (uatNHc p.mu (bulk p.mu p.ν) x) := by
  have hA : det2 unit ≠ 0 := by rw [det_unit]; norm_num
  refine tension_of (terms := [(p.mu, 2)]) ⟨by simp, by simpa using by linarith⟩ hK hx _ _ ?_ ?_ ?_
  · exact fun y c hy hc => NHc_kir p hx hy hc
  · intro y c hy hc
    have hp := pos_rect hx hy hc
    have fr := sNHc_frame p (frame_rect x y (Real.sqrt c)) hA rfl hp (Real.sq_sqrt hc.le)
    exact (fr 0 1).symm.trans (sProj_id (SaC (potNHc p) (vec3 x y (Real.sqrt c)))).2.2
  · intro J hJ
    rw [bulk_eq p hν]
    have e1 : J ^ (2 / 3 : ℝ) = (J ^ (1 / 3 : ℝ)) ^ 2 := by
      rw [← Real.rpow_natCast _ 2, ← Real.rpow_mul hJ.le]; norm_num
    have hq : 0 < J ^ (1 / 3 : ℝ) := Real.rpow_pos_of_pos hJ _
    have e2 : ((J / x) ^ (0.5 : ℝ)) ^ 2 = J / x := by
      rw [← Real.rpow_natCast _ 2, ← Real.rpow_mul (by positivity)]; norm_num
    simp only [uatOGc, uatNHc, List.map_cons, List.map_nil, List.sum_cons, List.sum_nil, e1,
      Real.rpow_two, div_pow, e2]
    generalize J ^ (1 / 3 : ℝ) = q at *
    field_simp
    ring

/-- **C130** Compressible Mooney–Rivlin material in uniaxial tension. -/
theorem C130_MRc (p : Par) (hm : 0 < p.mu) (hK : 0 < p.K) (hr : 0 < p.r) (hν : 1 + p.ν ≠ 0) {x : ℝ}
    (hx : 0 < x) :
    Tension (fun y c => sMRc p (cdata (data unit (rect x y)) c)) x
      (uatMRc p.mu p.r (bulk p.mu p.ν) x) := by
  have hA : det2 unit ≠ 0 := by rw [det_unit]; norm_num
  have c2 : 0 < p.c2 := div_pos hm (by linarith)
  have c1 : 0 < p.c1 := mul_pos hr c2
  refine tension_of (terms := [(p.c1, 2), (-p.c2, -2)])
    ⟨by simp, by simpa using ⟨by linarith, by linarith⟩⟩ hK hx _ _ ?_ ?_ ?_
  · exact fun y c hy hc => MRc_kir p hx hy hc
  · intro y c hy hc
    have hp := pos_rect hx hy hc
    have fr := sMRc_frame p (frame_rect x y (Real.sqrt c)) hA rfl hp (Real.sq_sqrt hc.le)
    exact (fr 0 1).symm.trans (sProj_id (SaC (potMRc p) (vec3 x y (Real.sqrt c)))).2.2
  · intro J hJ
    rw [bulk_eq p hν]
    have hq : 0 < J ^ (1 / 3 : ℝ) := Real.rpow_pos_of_pos hJ _
    have e0 : (J ^ (1 / 3 : ℝ)) ^ 3 = J := by
      rw [← Real.rpow_natCast _ 3, ← Real.rpow_mul hJ.le]; norm_num
    have e1 : J ^ (2 / 3 : ℝ) = (J ^ (1 / 3 : ℝ)) ^ 2 := by
      rw [← Real.rpow_natCast _ 2, ← Real.rpow_mul hJ.le]; norm_num
    have e3 : J ^ (4 / 3 : ℝ) = (J ^ (1 / 3 : ℝ)) ^ 4 := by
      rw [← Real.rpow_natCast _ 4, ← Real.rpow_mul hJ.le]; norm_num
    have hL : 0 < (J / x) ^ (0.5 : ℝ) := Real.rpow_pos_of_pos (by positivity) _
    have e2 : ((J / x) ^ (0.5 : ℝ)) ^ 2 = J / x := by
      rw [← Real.rpow_natCast _ 2, ← Real.rpow_mul (by positivity)]; norm_num
    simp only [uatOGc, uatMRc, List.map_cons, List.map_nil, List.sum_cons, List.sum_nil, e1, e3,
      Real.rpow_two, rpow_neg_two (div_pos hx hq), rpow_neg_two (div_pos hL hq), div_pow, e2]
    have hr1 : p.r + 1 ≠ 0 := by linarith
    simp only [Par.c1, Par.c2]
    generalize J ^ (1 / 3 : ℝ) = q at *
    rw [← e0]
    field_simp
    ring

example : Tension (fun y c => sMRc ⟨2.9, 0.45, 7⟩ (cdata (data unit (rect 2 y)) c)) 2
    (uatMRc (Par.mu ⟨2.9, 0.45, 7⟩) 7 (bulk (Par.mu ⟨2.9, 0.45, 7⟩) 0.45) 2) :=
  C130_MRc ⟨2.9, 0.45, 7⟩ (by norm_num [Par.mu]) (by norm_num [Par.K]) (by norm_num) (by norm_num)
    (by norm_num)

/-- **C130** Compressible Ogden material with any number of terms, for any solver that is exact at the
state: the same as `Tension` (missing: the states at which the shortcut is taken). -/
theorem C130_OGc_partial (p : Par) (terms : List (ℝ × ℝ)) (ht : Admissible terms) (hK : 0 < p.K) {x : ℝ}
    (hx : 0 < x) : ∃ y0, 0 < y0 ∧
    (∀ y c g solver, 0 < y → 0 < c →
      Regular unit (rect x y) g (eigOf solver (Bmat (rect x y) g)) →
      (sSpecC solver (potOGc p terms) (rect x y) c g 1 1 = 0 ∧
        SaC (potOGc p terms) (stretches solver (rect x y) c g) 2 = 0 ↔ y = y0 ∧ c = y0 ^ 2)) ∧
    y0 = lateralC x (x * y0 ^ 2) ∧
    (∀ g solver, Regular unit (rect x y0) g (eigOf solver (Bmat (rect x y0) g)) →
      sSpecC solver (potOGc p terms) (rect x y0) (y0 ^ 2) g 0 1 = 0 ∧
      cauchy x (x * y0 ^ 2) (sSpecC solver (potOGc p terms) (rect x y0) (y0 ^ 2) g 0 0)
        = uatOGc terms p.K x (x * y0 ^ 2)) ∧
    (1 ≤ x → 1 ≤ x * y0 ^ 2 ∧ y0 ≤ x) ∧ (x ≤ 1 → x * y0 ^ 2 ≤ 1 ∧ x ≤ y0) := by
  obtain ⟨y0, hy0, hr, b1, b2⟩ := lat_root ht.2 hK hx
  have hc0 : 0 < y0 ^ 2 := by positivity
  refine ⟨y0, hy0, fun y c g solver hy hc r => ?_, lateralC_self hx hy0, fun g solver r => ?_, b1, b2⟩
  · obtain ⟨_, s1, _, s2⟩ := spectral_rect p terms hx hy hc r
    rw [s1, s2]
    exact compressible ht hK hx hy0 hr hy hc
      (S := SaC (potOGc p terms) (vec3 x y (Real.sqrt c)))
      fun a => SaC_kir p terms _ (pos_rect hx hy hc) a rfl
  · obtain ⟨s0, _, s01, _⟩ := spectral_rect p terms hx hy0 hc0 r
    refine ⟨s01, ?_⟩
    rw [s0, Real.sqrt_sq hy0.le]
    have hp : ∀ a, 0 < vec3 x y0 y0 a := by
      have := pos_rect hx hy0 hc0
      rwa [Real.sqrt_sq hy0.le] at this
    exact axial ht p.K hx hy0 (SaC_kir p terms _ hp 0 rfl)

/-- **C130** The volume ratios written as numbers in the unit test (stretch 2, Poisson's ratio 0.45)
are those of the laws up to `2e-10`, and the lateral stretches up to the tolerance of the test (missing: the numbers for other stretches;
for the Ogden material the solver is exact). -/
theorem C130_test_partial (p : Par) (hE : 0 < p.E) (hν : p.ν = 0.45) (hr : p.r = 7) {y c : ℝ} (hy : 0 < y)
    (hc : 0 < c) :
    (sNHc p (cdata (data unit (rect 2 y)) c) 1 1 = 0 ∧
      sNHc p (cdata (data unit (rect 2 y)) c) 2 2 = 0 →
      |2 * y ^ 2 - 1.105598565| < 2e-10 ∧ |y / lateralC 2 1.105598565 - 1| < 1e-9) ∧
    (sMRc p (cdata (data unit (rect 2 y)) c) 1 1 = 0 ∧
      sMRc p (cdata (data unit (rect 2 y)) c) 2 2 = 0 →
      |2 * y ^ 2 - 1.099905842| < 2e-10 ∧ |y / lateralC 2 1.099905842 - 1| < 1e-9) ∧
    (∀ g solver, Regular unit (rect 2 y) g (eigOf solver (Bmat (rect 2 y) g)) →
      sSpecC solver (potOGc p (testTerms p.mu)) (rect 2 y) c g 1 1 = 0 ∧
      SaC (potOGc p (testTerms p.mu)) (stretches solver (rect 2 y) c g) 2 = 0 →
      |2 * y ^ 2 - 1.088778638| < 2e-10 ∧ |y / lateralC 2 1.088778638 - 1| < 1e-9) := by
  have h2 : (0 : ℝ) < 2 := by norm_num
  have hmu : p.mu = p.E / 2.9 := by rw [Par.mu, hν]; norm_num
  have hm : 0 < p.mu := by rw [hmu]; positivity
  have hK : p.K = 29 / 3 * p.mu := by rw [hmu, Par.K, hν]; norm_num; ring
  have hK0 : 0 < p.K := by rw [hK]; positivity
  have hc2 : p.c2 = 1 / 8 * p.mu := by rw [Par.c2, hr]; ring
  have hc1 : p.c1 = 7 / 8 * p.mu := by rw [Par.c1, hc2, hr]; ring
  refine ⟨fun h => ?_, fun h => ?_, fun g solver r h => ?_⟩
  · have := state_lat (terms := [(p.mu, 2)]) ⟨by simp, by simpa using by linarith⟩ hK0 h2 hy hc
      (S := fun a => sNHc p (cdata (data unit (rect 2 y)) c) a a) (NHc_kir p h2 hy hc) h
    rw [hK] at this
    have o := oracle_NH hm hy this
    exact ⟨o, lateral_close hy (by norm_num) o⟩
  · have := state_lat (terms := [(p.c1, 2), (-p.c2, -2)])
      ⟨by simp, by simpa [hc1, hc2] using hm⟩ hK0 h2 hy hc
      (S := fun a => sMRc p (cdata (data unit (rect 2 y)) c) a a) (MRc_kir p h2 hy hc) h
    rw [hK, hc1, hc2] at this
    have o := oracle_MR hm hy this
    exact ⟨o, lateral_close hy (by norm_num) o⟩
  · obtain ⟨_, s1, _, s2⟩ := spectral_rect p (testTerms p.mu) h2 hy hc r
    rw [s1, s2] at h
    have ht : Admissible (testTerms p.mu) := by
      refine ⟨by simp [testTerms], ?_⟩
      intro t hm'
      simp only [testTerms, List.mem_cons, List.not_mem_nil, or_false] at hm'
      rcases hm' with rfl | rfl | rfl <;> norm_num <;> linarith
    have := state_lat ht hK0 h2 hy hc
      (S := SaC (potOGc p (testTerms p.mu)) (vec3 2 y (Real.sqrt c)))
      (fun a => SaC_kir p _ _ (pos_rect h2 hy hc) a rfl) h
    rw [hK] at this
    have o := oracle_OG hm hy this
    exact ⟨o, lateral_close hy (by norm_num) o⟩

example : ∃ y c, 0 < y ∧ 0 < c ∧ sNHc ⟨1, 0.45, 7⟩ (cdata (data unit (rect 2 y)) c) 1 1 = 0 ∧
    sNHc ⟨1, 0.45, 7⟩ (cdata (data unit (rect 2 y)) c) 2 2 = 0 := by
  obtain ⟨y, hy, h, _⟩ := C130_NHc ⟨1, 0.45, 7⟩ (by norm_num [Par.mu]) (by norm_num [Par.K])
    (by norm_num) (x := 2) (by norm_num)
  have := (h y (y ^ 2) hy (by positivity)).2 ⟨rfl, rfl⟩
  exact ⟨y, y ^ 2, hy, by positivity, this.1, this.2⟩

/-- The hypothesis on the solver holds for a rectangle of length 2. -/
theorem regular_two {y : ℝ} (hy : 0 < y) (h : y < 2) :
    Regular unit (rect 2 y) (mk3 1 0 0 0 1 0 0 0 1)
      (eigOf (fun _ => ⟨vec3 0 (y ^ 2) (2 ^ 2), mk3 0 0 1 0 1 0 1 0 0⟩)
        (Bmat (rect 2 y) (mk3 1 0 0 0 1 0 0 0 1))) := by
  have hs : ¬ shortcut (Bmat (rect 2 y) (mk3 1 0 0 0 1 0 0 0 1)) := by
    simp only [shortcut, Bmat, Fin.sum_univ_two, eps, not_lt]
    simp [rect]
    rw [abs_of_pos (by nlinarith)]
    nlinarith
  rw [eigOf, if_neg hs]
  have hyy : 0 < y ^ 2 := by positivity
  have hy4 : y ^ 2 ≤ 2 ^ 2 := pow_le_pow_left₀ hy.le h.le 2
  refine ⟨by rw [det_unit]; norm_num, rfl, ⟨rfl, ?_⟩, ?_, ?_,
    by simp [cdot, Fin.sum_univ_three], ⟨by simpa using ⟨hyy.le, hy4⟩,
      ?_, ?_⟩⟩
  · intro u v h
    simp [rect]
    rcases h with h | h
    · have := sq_pos_of_ne_zero h
      nlinarith [mul_nonneg hyy.le (sq_nonneg v)]
    · have := mul_pos hyy (sq_pos_of_ne_zero h)
      nlinarith [sq_nonneg u]
  · intro i j
    rcases fin2_cases i with rfl | rfl <;> rcases fin2_cases j with rfl | rfl <;>
      simp [cdot, Fin.sum_univ_three, inv2, det2, unit]
  · intro i
    rcases fin2_cases i with rfl | rfl <;> simp [cdot, Fin.sum_univ_three]
  · intro a b
    rcases fin3_cases a with rfl | rfl | rfl <;> rcases fin3_cases b with rfl | rfl | rfl <;>
      simp [Fin.sum_univ_three]
  · intro a i
    rcases fin3_cases a with rfl | rfl | rfl <;> rcases fin3_cases i with rfl | rfl | rfl <;>
      simp [Fin.sum_univ_three, Bmat, Fin.sum_univ_two, rect]

example : sSpecI (fun _ => ⟨vec3 0 (lateralI 2 ^ 2) (2 ^ 2), mk3 0 0 1 0 1 0 1 0 0⟩)
    (potOG (testTerms 1)) (rect 2 (lateralI 2)) (data unit (rect 2 (lateralI 2))).J0
    (mk3 1 0 0 0 1 0 0 0 1) 1 1 = 0 := by
  have e : lateralI 2 = Real.sqrt (1 / 2) := by
    rw [lateralI, Real.sqrt_eq_rpow]; norm_num
  have h0 : 0 < lateralI 2 := by rw [e]; exact Real.sqrt_pos.2 (by norm_num)
  have h1 : lateralI 2 < 2 := by
    rw [e, Real.sqrt_lt' (by norm_num)]; norm_num
  refine ((C130_OG_partial (testTerms 1) ⟨by simp [testTerms], ?_⟩ (by norm_num) h0
    (regular_two h0 h1)).1).2 rfl
  intro t hm'
  simp only [testTerms, List.mem_cons, List.not_mem_nil, or_false] at hm'
  rcases hm' with rfl | rfl | rfl <;> norm_num

/-- **C130** is violated by the spectral implementation: compressed to the stretch `(√5 - 1) / 2`, an
incompressible square has the trace of the undeformed one, the shortcut of `_evalStretch` is taken,
and every Ogden material reports a lateral stress at the lateral stretch of the closed-form solution,
whatever the eigenvalue solver. -/
theorem C130_OG_violated : ∃ (x : ℝ) (g : Cols), 0 < x ∧
    (∀ i j, cdot (g (up i)) (g (up j)) = inv2 unit i j) ∧
    ∀ (solver : T3 → Eig) (terms : List (ℝ × ℝ)), Admissible terms →
      sSpecI solver (potOG terms) (rect x (lateralI x)) (data unit (rect x (lateralI x))).J0 g 1 1
        < 0 := by
  set x : ℝ := (Real.sqrt 5 - 1) / 2 with hx
  have s5 : Real.sqrt 5 ^ 2 = 5 := Real.sq_sqrt (by norm_num)
  have s2 : 2 < Real.sqrt 5 := by
    rw [show (2 : ℝ) = Real.sqrt 4 by
      rw [show (4 : ℝ) = 2 ^ 2 by norm_num, Real.sqrt_sq (by norm_num)]]
    exact Real.sqrt_lt_sqrt (by norm_num) (by norm_num)
  have s3 : Real.sqrt 5 < 3 := by
    rw [Real.sqrt_lt' (by norm_num)]; norm_num
  have hx0 : 0 < x := by rw [hx]; linarith
  have hx1 : x < 1 := by rw [hx]; linarith
  have hq : x ^ 2 + x = 1 := by rw [hx]; nlinarith
  have e : lateralI x = Real.sqrt (1 / x) := by
    rw [lateralI, Real.sqrt_eq_rpow]; norm_num
  have hy0 : 0 < lateralI x := by rw [e]; exact Real.sqrt_pos.2 (by positivity)
  have hy2 : lateralI x ^ 2 = 1 / x := by rw [e]; exact Real.sq_sqrt (by positivity)
  have hy1 : 1 < lateralI x := by
    rw [e, Real.lt_sqrt (by norm_num), one_pow, lt_div_iff₀ hx0]; linarith
  refine ⟨x, mk3 1 0 0 0 1 0 0 0 1, hx0, ?_, ?_⟩
  · intro i j
    rcases fin2_cases i with rfl | rfl <;> rcases fin2_cases j with rfl | rfl <;>
      simp [cdot, Fin.sum_univ_three, inv2, det2, unit]
  · intro solver terms ht
    generalize hyd : lateralI x = y at *
    have hinv : 1 / x = 2 - x ^ 2 := by
      rw [div_eq_iff hx0.ne']; nlinarith
    have hs : shortcut (Bmat (rect x y) (mk3 1 0 0 0 1 0 0 0 1)) := by
      simp only [shortcut, Bmat, Fin.sum_univ_two, eps]
      simp [rect]
      rw [hy2, hinv, show x ^ 2 - 1 + (2 - x ^ 2 - 1) = 0 by ring]
      norm_num
    have hJ0 : (data unit (rect x y)).J0 = x := by
      have : (data unit (rect x y)).J0 = x ^ 2 * y ^ 2 := by
        simp only [data, det_unit]
        simp [det2, rect]
      rw [this, hy2]; field_simp
    have hl : stretches solver (rect x y) (1 / x) (mk3 1 0 0 0 1 0 0 0 1) = vec3 1 1 y := by
      simp only [stretches, eigOf, if_pos hs]
      simp only [vec3_one, vec3_two, Real.sqrt_one]
      rw [← e]
    have hv : sSpecI solver (potOG terms) (rect x y) (data unit (rect x y)).J0
        (mk3 1 0 0 0 1 0 0 0 1) 1 1 = SaI (potOG terms) (vec3 1 1 y) 0 := by
      rw [sSpecI, hJ0, hl]
      simp only [sProj, projection, eigOf, if_pos hs]
      simp [cdot, Fin.sum_univ_three]
    rw [hv]
    have hp : ∀ a, 0 < vec3 1 1 y a := by
      intro a
      rcases fin3_cases a with rfl | rfl | rfl
      · exact one_pos
      · exact one_pos
      · exact hy0
    have := SaI_OG terms hp 0
    simp only [vec3_zero, vec3_two, one_pow, one_mul] at this
    rw [this]
    have := sum_pos_terms ht.1 (f := fun t => -1 * (t.1 * 1 * (1 ^ t.2 - y ^ t.2))) fun t hm => by
      have := pow_inc (ht.2 t hm) one_pos hy1
      linarith
    rw [← sum_mul_terms] at this
    linarith

end Verif.Benchmark
