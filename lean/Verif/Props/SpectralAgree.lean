import Verif.Lemmas.SpectralAgree
import Verif.Props.SpectralTangent

/-! # Properties C53 (agreement), C58, and the spectral parts of C46 and C59 -/

set_option linter.unusedSimpArgs false

namespace Verif.Spectral

open Verif.Hyper Spec.Spectral

/-- A regular point: reference metric `A`, deformation tensor `C`, contravariant basis `g`
(columns; the third one is normal to the first two), and an eigenvalue decomposition of the
tensor built from them. -/
structure Regular (A C : T2) (g : Cols) (E : Eig) : Prop where
  det : 0 < det2 A
  symm : A 0 1 = A 1 0
  spd : SPD C
  dual : ∀ i j, cdot (g (up i)) (g (up j)) = inv2 A i j
  normal : ∀ i, cdot (g (up i)) (g 2) = 0
  normal_ne : cdot (g 2) (g 2) ≠ 0
  decomposition : IsEigenDecomposition (Bmat C g) E.val E.vec

section
variable {A C : T2} {g : Cols} {solver : T3 → Eig} {c33 : ℝ}

/-- The stretches and the projection of a regular point form a principal frame. -/
theorem regular_frame (r : Regular A C g (eigOf solver (Bmat C g))) (hc : 0 < c33) :
    Frame A C (projection solver C g) (sqs (stretches solver C c33 g)) ∧
    (∀ a, 0 < stretches solver C c33 g a) ∧ stretches solver C c33 g 2 ^ 2 = c33 := by
  obtain ⟨f, p1, p2⟩ := frame_of_solver r.det r.spd r.dual r.normal r.normal_ne r.decomposition
  refine ⟨?_, ?_, ?_⟩
  · have : sqs (stretches solver C c33 g)
        = fun a => (eigOf solver (Bmat C g)).val (if a = 0 then 1 else 2) := by
      funext a
      rcases fin2_cases a with rfl | rfl
      · simp [sqs, stretches, Real.sq_sqrt p1.le]
      · simp [sqs, stretches, Real.sq_sqrt p2.le]
    rw [this]
    exact f
  · intro a
    rcases fin3_cases a with rfl | rfl | rfl
    · simpa [stretches] using p1
    · simpa [stretches] using p2
    · simpa [stretches] using hc
  · simp [stretches, Real.sq_sqrt hc.le]

/-- For incompressible materials the thickness stretch is the inverse product. -/
theorem regular_inc (r : Regular A C g (eigOf solver (Bmat C g))) :
    0 < 1 / (data A C).J0 ∧ stretches solver C (1 / (data A C).J0) g 2
      = 1 / (stretches solver C (1 / (data A C).J0) g 0
        * stretches solver C (1 / (data A C).J0) g 1) := by
  obtain ⟨f, p1, p2⟩ := frame_of_solver r.det r.spd r.dual r.normal r.normal_ne r.decomposition
  have hJ : (data A C).J0 = (eigOf solver (Bmat C g)).val 1 * (eigOf solver (Bmat C g)).val 2 := by
    have := f.prod r.det.ne'
    simp only [data]
    rw [← this]
    simp
  have hpos : 0 < (data A C).J0 := by rw [hJ]; positivity
  refine ⟨by positivity, ?_⟩
  simp only [stretches, vec3_two, vec3_zero, vec3_one]
  rw [Real.sqrt_div zero_le_one, Real.sqrt_one, hJ, Real.sqrt_mul p1.le]

/-- **C53** The spectral implementation of the incompressible neo-Hookean material returns
the stress of the analytical one at every regular point. -/
theorem C53_NH_stress (p : Par) (r : Regular A C g (eigOf solver (Bmat C g))) (i j : Fin 2) :
    sSpecI solver (potNH p) C (data A C).J0 g i j = sNH p (data A C) (up i) (up j) := by
  obtain ⟨hJ, hinc⟩ := regular_inc r
  obtain ⟨f, hp, _⟩ := regular_frame r hJ
  exact sNH_frame p f r.det.ne' hp hinc i j

/-- **C53** … and its tangent, when the stretches are equal or separated. -/
theorem C53_NH_tangent (p : Par) (r : Regular A C g (eigOf solver (Bmat C g)))
    (hsep : Separated (stretches solver C (1 / (data A C).J0) g)) (i j k m : Fin 2) :
    cSpecI solver (potNH p) C (data A C).J0 g i j k m
      = cNH p (data A C) (up i) (up j) (up k) (up m) := by
  obtain ⟨hJ, hinc⟩ := regular_inc r
  obtain ⟨f, hp, _⟩ := regular_frame r hJ
  exact cNH_frame p f r.det.ne' hp hinc hsep i j k m

/-- **C53** Inside the window of the test (different stretches closer than `1e-14`) the shear
coefficient of the neo-Hookean material is the analytical one, `mu l2²/(l0² l1²)`, times
`1 + (l0-l1)²/(2 l0 l1)`: the relative error is below `1e-28`. -/
theorem C53_NH_window (p : Par) (l : Stretch) (hp : ∀ a, 0 < l a)
    (hw : |(l 0 - l 1) / l 0| < 1 / 10 ^ 14) :
    CabI (potNH p) l 0 1 0 1 = p.mu * l 2 ^ 2 / (l 0 ^ 2 * l 1 ^ 2)
      * (1 + (l 0 - l 1) ^ 2 / (2 * l 0 * l 1)) ∧
    (l 0 - l 1) ^ 2 / (2 * l 0 * l 1) ≤ 1 / 10 ^ 28 := by
  obtain ⟨n01, n02, n12, n10, n20, n21⟩ := d_ne
  obtain ⟨e00, e11, e22, e01, e10, e02, e20, e12, e21⟩ := delta_vals
  have h0 := hp 0
  have h1 := hp 1
  have h2 := hp 2
  constructor
  · rw [CabI_shear]
    unfold frac
    rw [if_pos hw]
    simp only [dSaI, dpr, pr, dJ, d2J, potNH, dI1, d2I1, e00, e11, e22, e01, e10, e02, e20, e12,
        e21, if_neg n01, if_neg n02, if_neg n12, if_true]
    field_simp
    ring
  · rw [abs_div, abs_of_pos h0, div_lt_iff₀ h0] at hw
    have hb := abs_lt.1 hw
    rw [div_le_iff₀ (by positivity)]
    have h3 : (l 0 - l 1) ^ 2 ≤ (1 / 10 ^ 14 * l 0) ^ 2 := sq_le_sq' hb.1.le hb.2.le
    have h4 : l 0 / 2 ≤ l 1 := by
      have := hb.2
      norm_num at this
      linarith
    have h5 : l 0 * l 0 ≤ 2 * l 0 * l 1 := by nlinarith
    calc (l 0 - l 1) ^ 2 ≤ (1 / 10 ^ 14 * l 0) ^ 2 := h3
      _ = 1 / 10 ^ 28 * (l 0 * l 0) := by ring
      _ ≤ 1 / 10 ^ 28 * (2 * l 0 * l 1) := by
        exact mul_le_mul_of_nonneg_left h5 (by positivity)

/-- **C53** The same for the Mooney–Rivlin material. -/
theorem C53_MR (p : Par) (r : Regular A C g (eigOf solver (Bmat C g))) (i j : Fin 2) :
    sSpecI solver (potMR p) C (data A C).J0 g i j = sMR p (data A C) (up i) (up j) ∧
    (Separated (stretches solver C (1 / (data A C).J0) g) → ∀ k m,
      cSpecI solver (potMR p) C (data A C).J0 g i j k m
        = cMR p (data A C) (up i) (up j) (up k) (up m)) := by
  obtain ⟨hJ, hinc⟩ := regular_inc r
  obtain ⟨f, hp, _⟩ := regular_frame r hJ
  exact ⟨sMR_frame p f r.det.ne' r.symm hp hinc i j, fun hsep k m =>
    cMR_frame p f r.det.ne' r.symm hp hinc hsep i j k m⟩

/-- **C53** Compressible materials: in-plane stress, normal stress and condensed tangent of the
spectral implementation are those of the analytical one, for every positive thickness
stretch. -/
theorem C53_compressible (p : Par) (r : Regular A C g (eigOf solver (Bmat C g))) (hc : 0 < c33)
    (w : Pot) (S : CData → Fin 3 → Fin 3 → ℝ) (T : CData → Fin 3 → Fin 3 → Fin 3 → Fin 3 → ℝ)
    (hm : (w = potNHc p ∧ S = sNHc p ∧ T = cNHc p) ∨ (w = potMRc p ∧ S = sMRc p ∧ T = cMRc p) ∨
      (w = potNHe p ∧ S = sNHe p ∧ T = cNHe p)) (i j : Fin 2) :
    sSpecC solver w C c33 g i j = S (cdata (data A C) c33) (up i) (up j) ∧
    SaC w (stretches solver C c33 g) 2 = S (cdata (data A C) c33) 2 2 ∧
    (Separated (stretches solver C c33 g) → ∀ k m, cSpecC solver w C c33 g i j k m
      = condense (T (cdata (data A C) c33)) (up i) (up j) (up k) (up m)) := by
  obtain ⟨f, hp, h2⟩ := regular_frame r hc
  have hA := r.det.ne'
  have hs := r.symm
  have sy : ∀ w : Pot, w = potNHc p ∨ w = potMRc p ∨ w = potNHe p →
      (∀ l a b, w.d2 l a b = w.d2 l b a) := by
    intro w hw
    exact (C53_models p [] (by simp) w (by tauto)).2.1
  rcases hm with ⟨rfl, rfl, rfl⟩ | ⟨rfl, rfl, rfl⟩ | ⟨rfl, rfl, rfl⟩
  · have s := sy (potNHc p) (by tauto)
    exact ⟨sNHc_frame p f hA hs hp h2 i j, sNHc_frame2 p f hA hs hp h2, fun hsep k m =>
      cNHc_frame p s (CabC_sym _ s _) f hA hs hp h2 hsep i j k m⟩
  · have s := sy (potMRc p) (by tauto)
    exact ⟨sMRc_frame p f hA hs hp h2 i j, sMRc_frame2 p f hA hs hp h2, fun hsep k m =>
      cMRc_frame p s (CabC_sym _ s _) f hA hs hp h2 hsep i j k m⟩
  · have s := sy (potNHe p) (by tauto)
    exact ⟨sNHe_frame p f hA hp h2 i j, sNHe_frame2 p f hA hp h2, fun hsep k m =>
      cNHe_frame p s (CabC_sym _ s _) f hA hp h2 hsep i j k m⟩

/-! ## C58 -/

/-- **C58** Partial: whenever the shortcut is not taken and the solver decomposes the tensor it
is given, the squared stretches are the eigenvalues of the deformation tensor relative to the
reference metric (with multiplicity), and the third one is the thickness entry.  Missing: the
deformations for which the shortcut is taken. -/
theorem C58_partial (hdet : 0 < det2 A) (hsA : A 0 1 = A 1 0) (hC : SPD C)
    (hdual : ∀ i j, cdot (g (up i)) (g (up j)) = inv2 A i j)
    (hn : ∀ i, cdot (g (up i)) (g 2) = 0) (hn0 : cdot (g 2) (g 2) ≠ 0)
    (hsolve : IsEigenDecomposition (Bmat C g) (solver (Bmat C g)).val (solver (Bmat C g)).vec)
    (hshort : ¬ shortcut (Bmat C g)) (hc : 0 < c33) :
    AreEigenvalues A C (stretches solver C c33 g 0 ^ 2) (stretches solver C c33 g 1 ^ 2) ∧
    stretches solver C c33 g 2 ^ 2 = c33 ∧ ∀ a, 0 < stretches solver C c33 g a := by
  have e : eigOf solver (Bmat C g) = solver (Bmat C g) := by
    unfold eigOf; rw [if_neg hshort]
  have r : Regular A C g (eigOf solver (Bmat C g)) := by
    refine ⟨hdet, hsA, hC, hdual, hn, hn0, ?_⟩
    rw [e]; exact hsolve
  obtain ⟨f, hp, h2⟩ := regular_frame r hc
  have := f.eigenvalues hdet.ne' hsA
  simp only [sqs, up_zero, up_one] at this
  exact ⟨this, h2, hp⟩

end

/-- **C58** is violated: for the deformation `[[1, ½], [½, 1]]` of a plane with orthonormal
basis the trace of the tensor is that of the undeformed state, the shortcut is taken and both
in-plane stretches are reported as 1, whatever the eigenvalue solver; 1 is not an eigenvalue. -/
theorem C58_violated :
    ∃ (A C : T2) (g : Cols), det2 A = 1 ∧ SPD C ∧
      (∀ i j, cdot (g (up i)) (g (up j)) = inv2 A i j) ∧
      ∀ (solver : T3 → Eig) (c33 : ℝ),
        stretches solver C c33 g 0 = 1 ∧ stretches solver C c33 g 1 = 1 ∧
        ¬ AreEigenvalues A C (stretches solver C c33 g 0 ^ 2) (stretches solver C c33 g 1 ^ 2) := by
  refine ⟨![![1, 0], ![0, 1]], ![![1, 1 / 2], ![1 / 2, 1]], mk3 1 0 0 0 1 0 0 0 1, by simp [det2],
    ⟨by simp, ?_⟩, ?_, ?_⟩
  · intro x y h
    simp
    rcases h with h | h
    · nlinarith [sq_nonneg (x + 2 * y), sq_nonneg (y + x / 2), sq_pos_of_ne_zero h]
    · nlinarith [sq_nonneg (y + 2 * x), sq_nonneg (x + y / 2), sq_pos_of_ne_zero h]
  · intro i j
    rcases fin2_cases i with rfl | rfl <;> rcases fin2_cases j with rfl | rfl <;>
      simp [cdot, Fin.sum_univ_three, inv2, det2]
  · intro solver c33
    have hs : shortcut (Bmat ![![1, 1 / 2], ![1 / 2, 1]] (mk3 1 0 0 0 1 0 0 0 1)) := by
      simp [shortcut, Bmat, Fin.sum_univ_two, eps]
    have e0 : stretches solver ![![1, 1 / 2], ![1 / 2, 1]] c33 (mk3 1 0 0 0 1 0 0 0 1) 0 = 1 := by
      simp only [stretches, eigOf, if_pos hs, vec3_zero, vec3_one, Real.sqrt_one]
    have e1 : stretches solver ![![1, 1 / 2], ![1 / 2, 1]] c33 (mk3 1 0 0 0 1 0 0 0 1) 1 = 1 := by
      simp only [stretches, eigOf, if_pos hs, vec3_two, vec3_one, Real.sqrt_one]
    refine ⟨e0, e1, ?_⟩
    rw [e0, e1]
    intro h
    have := h 1
    simp at this

/-- Consequence for the stress: at that deformation the spectral implementation returns zero
stress for every incompressible coded material, while the analytical neo-Hookean stress does
not vanish. -/
theorem C58_stress_violated :
    ∃ (A C : T2) (g : Cols) (p : Par), (∀ i j, cdot (g (up i)) (g (up j)) = inv2 A i j) ∧
      ∀ solver : T3 → Eig, sSpecI solver (potNH p) C (data A C).J0 g 0 1 = 0 ∧
        sNH p (data A C) 0 1 ≠ 0 := by
  refine ⟨![![1, 0], ![0, 1]], ![![1, 1 / 2], ![1 / 2, 1]], mk3 1 0 0 0 1 0 0 0 1, ⟨3, 1 / 2, 1⟩,
    ?_, ?_⟩
  · intro i j
    rcases fin2_cases i with rfl | rfl <;> rcases fin2_cases j with rfl | rfl <;>
      simp [cdot, Fin.sum_univ_three, inv2, det2]
  · intro solver
    have hs : shortcut (Bmat ![![1, 1 / 2], ![1 / 2, 1]] (mk3 1 0 0 0 1 0 0 0 1)) := by
      simp [shortcut, Bmat, Fin.sum_univ_two, eps]
    constructor
    · simp only [sSpecI, sProj, projection, eigOf, if_pos hs]
      simp [cdot, Fin.sum_univ_three]
    · simp [sNH, data, inv2, det2, Par.mu]
      norm_num

/-- Non-vacuity of the regular-point hypotheses: a plane stretched by 2 and 3. -/
example : Regular ![![1, 0], ![0, 1]] ![![4, 0], ![0, 9]] (mk3 1 0 0 0 1 0 0 0 1)
    ⟨vec3 0 4 9, mk3 0 0 1 1 0 0 0 1 0⟩ := by
  refine ⟨by simp [det2], by simp, ⟨by simp, ?_⟩, ?_, ?_, by simp [cdot, Fin.sum_univ_three],
    ⟨by simp; norm_num, ?_, ?_⟩⟩
  · intro x y h
    simp
    rcases h with h | h
    · nlinarith [sq_nonneg y, sq_pos_of_ne_zero h]
    · nlinarith [sq_nonneg x, sq_pos_of_ne_zero h]
  · intro i j
    rcases fin2_cases i with rfl | rfl <;> rcases fin2_cases j with rfl | rfl <;>
      simp [cdot, Fin.sum_univ_three, inv2, det2]
  · intro i
    rcases fin2_cases i with rfl | rfl <;> simp [cdot, Fin.sum_univ_three]
  · intro a b
    rcases fin3_cases a with rfl | rfl | rfl <;> rcases fin3_cases b with rfl | rfl | rfl <;>
      simp [Fin.sum_univ_three]
  · intro a i
    rcases fin3_cases a with rfl | rfl | rfl <;> rcases fin3_cases i with rfl | rfl | rfl <;>
      simp [Fin.sum_univ_three, Bmat, Fin.sum_univ_two]

/-- … and the shortcut is not taken there. -/
example : ¬ shortcut (Bmat ![![4, 0], ![0, 9]] (mk3 1 0 0 0 1 0 0 0 1)) := by
  simp [shortcut, Bmat, Fin.sum_univ_two, eps]
  norm_num

/-! ## C46 -/

/-- **C46** Spectral implementation: zero stress at unit stretches, for all seven coded
energies (any Ogden terms) and every projection. -/
theorem C46_spectral (p : Par) (terms : List (ℝ × ℝ)) (P : T2) (i j : Fin 2) :
    (∀ w, w = potNH p ∨ w = potMR p ∨ w = potOG terms →
      sProj (SaI w (vec3 1 1 1)) P i j = 0) ∧
    (∀ w, w = potNHc p ∨ w = potMRc p ∨ w = potOGc p terms ∨ w = potNHe p →
      sProj (SaC w (vec3 1 1 1)) P i j = 0 ∧ SaC w (vec3 1 1 1) 2 = 0) := by
  have hJ : Jsq (vec3 1 1 1) = 1 := by simp [Jsq]
  constructor
  · rintro w (rfl | rfl | rfl)
    · simp [sProj, SaI, pr, dJ, potNH, dI1]
    · simp [sProj, SaI, pr, dJ, potMR, dI1, dI2, I1]
    · simp [sProj, SaI, pr, dJ, potOG]
  · have hz : ∀ w : Pot, (∀ a, w.d1 (vec3 1 1 1) a = 0) →
        sProj (SaC w (vec3 1 1 1)) P i j = 0 ∧ SaC w (vec3 1 1 1) 2 = 0 := by
      intro w h
      simp [sProj, SaC, h]
    rintro w (rfl | rfl | rfl | rfl) <;> apply hz <;> intro a <;>
      rcases fin3_cases a with rfl | rfl | rfl <;>
      simp [potNHc, potMRc, potOGc, potNHe, vol1, dI1, dI2, I1, I2, hJ, Lam] <;> norm_num

/-! ## C59 -/

/-- **C59** A one-term Ogden material with exponent 2 has the energy and the energy
derivatives of the neo-Hookean material, incompressible and compressible, for all positive
stretches. -/
theorem C59_ogden (p : Par) (l : Stretch) (hp : ∀ a, 0 < l a) (a b : Fin 3) :
    (potOG [(p.mu, 2)]).d1 l a = (potNH p).d1 l a ∧
    (potOG [(p.mu, 2)]).d2 l a b = (potNH p).d2 l a b ∧
    (potOGc p [(p.mu, 2)]).d1 l a = (potNHc p).d1 l a ∧
    (potOGc p [(p.mu, 2)]).d2 l a b = (potNHc p).d2 l a b ∧
    energyOG [(p.mu, 2)] l = energyNH p.mu l := by
  have e1 : (2 : ℝ) - 1 = 1 := by norm_num
  have e2 : (-2 : ℝ) / 6 = -1 / 3 := by norm_num
  have hL : Lam l 2 = I1 l := by simp only [Lam, Real.rpow_two, I1]; ring
  have ha := (hp a).ne'
  have hb := (hp b).ne'
  refine ⟨?_, ?_, ?_, ?_, ?_⟩
  · simp only [potOG, potNH, dI1, List.map_cons, List.map_nil, List.sum_cons, List.sum_nil, e1,
      Real.rpow_one]
    ring
  · simp only [potOG, potNH, d2I1, List.map_cons, List.map_nil, List.sum_cons, List.sum_nil, e1,
      sub_self, Real.rpow_zero]
    ring
  · simp only [potOGc, potNHc, dI1, List.map_cons, List.map_nil, List.sum_cons, List.sum_nil, e1,
      e2, hL, Real.rpow_one]
    field_simp
    ring
  · simp only [potOGc, potNHc, dI1, d2I1, List.map_cons, List.map_nil, List.sum_cons,
      List.sum_nil, e1, e2, hL, Real.rpow_one, sub_self, Real.rpow_zero,
      Real.rpow_neg (hp a).le, Real.rpow_two]
    field_simp
    ring
  · simp only [energyOG, energyNH, invI, List.map_cons, List.map_nil, List.sum_cons,
      List.sum_nil, Real.rpow_two]
    ring

end Verif.Spectral
