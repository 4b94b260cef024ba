import Verif.Lemmas.SpectralProj

/-! # Helper lemmas: spectral and analytical formulas in a principal frame -/

set_option linter.unusedSimpArgs false

namespace Verif.Spectral

open Verif.Hyper Spec.Spectral

/-- Squared in-plane stretches. -/
def sqs (l : Stretch) : Fin 2 → ℝ := fun a => l (up a) ^ 2

/-- Separation of the in-plane stretches: equal, or further apart than the test of `frac`. -/
def Separated (l : Stretch) : Prop := l 0 = l 1 ∨ 1 / 10 ^ 14 ≤ |(l 0 - l 1) / l 0|

section
variable {A C P : T2} {l : Stretch}

theorem f_J0 (f : Frame A C P (sqs l)) (hA : det2 A ≠ 0) :
    (data A C).J0 = l 0 ^ 2 * l 1 ^ 2 := by
  have := f.prod hA
  simp only [sqs, up_zero, up_one] at this
  rw [this]; rfl

theorem f_Gori (f : Frame A C P (sqs l)) (i j : Fin 2) :
    (data A C).Gori (up i) (up j) = P i 0 * P j 0 + P i 1 * P j 1 := by
  simp only [data, embed_up, f.G]

theorem f_gcon (f : Frame A C P (sqs l)) (hA : det2 A ≠ 0) (hp : ∀ c, 0 < l c) (i j : Fin 2) :
    (data A C).gcon (up i) (up j) = P i 0 * P j 0 / l 0 ^ 2 + P i 1 * P j 1 / l 1 ^ 2 := by
  have h0 := (hp 0).ne'
  have h1 := (hp 1).ne'
  simp only [data, embed_up]
  rw [f.inv hA (by simp only [sqs, up_zero]; positivity) (by simp only [sqs, up_one]; positivity)]
  simp only [sqs, up_zero, up_one]

theorem f_trace (f : Frame A C P (sqs l)) (hA : det2 A ≠ 0) (hs : A 0 1 = A 1 0) :
    traceCt (data A C) = l 0 ^ 2 + l 1 ^ 2 := f.sum hA hs

/-! ## Incompressible -/

theorem sNH_frame (p : Par) (f : Frame A C P (sqs l)) (hA : det2 A ≠ 0) (hp : ∀ c, 0 < l c)
    (hinc : l 2 = 1 / (l 0 * l 1)) (i j : Fin 2) :
    sProj (SaI (potNH p) l) P i j = sNH p (data A C) (up i) (up j) := by
  have h0 := (hp 0).ne'
  have h1 := (hp 1).ne'
  simp only [sProj, SaI, pr, dJ, potNH, dI1, sNH]
  rw [f_Gori f, f_gcon f hA hp, f_J0 f hA, hinc]
  field_simp
  ring

theorem sMR_frame (p : Par) (f : Frame A C P (sqs l)) (hA : det2 A ≠ 0) (hs : A 0 1 = A 1 0)
    (hp : ∀ c, 0 < l c) (hinc : l 2 = 1 / (l 0 * l 1)) (i j : Fin 2) :
    sProj (SaI (potMR p) l) P i j = sMR p (data A C) (up i) (up j) := by
  have h0 := (hp 0).ne'
  have h1 := (hp 1).ne'
  simp only [sProj, SaI, pr, dJ, potMR, dI1, dI2, I1, sMR]
  rw [f_Gori f, f_gcon f hA hp, f_J0 f hA, f_trace f hA hs, hinc]
  field_simp
  ring

theorem d_ne : (0 : Fin 3) ≠ 1 ∧ (0 : Fin 3) ≠ 2 ∧ (1 : Fin 3) ≠ 2 ∧ (1 : Fin 3) ≠ 0 ∧
    (2 : Fin 3) ≠ 0 ∧ (2 : Fin 3) ≠ 1 := by decide

/-- Simplification of the Kronecker symbols on literals. -/
theorem delta_vals : delta 0 0 = 1 ∧ delta 1 1 = 1 ∧ delta 2 2 = 1 ∧ delta 0 1 = 0 ∧
    delta 1 0 = 0 ∧ delta 0 2 = 0 ∧ delta 2 0 = 0 ∧ delta 1 2 = 0 ∧ delta 2 1 = 0 := by
  simp [delta]

theorem idelta_vals : idelta 0 0 = 0 ∧ idelta 1 1 = 0 ∧ idelta 2 2 = 0 ∧ idelta 0 1 = 1 ∧
    idelta 1 0 = 1 ∧ idelta 0 2 = 1 ∧ idelta 2 0 = 1 ∧ idelta 1 2 = 1 ∧ idelta 2 1 = 1 := by
  simp [idelta]

theorem cNH_frame (p : Par) (f : Frame A C P (sqs l)) (hA : det2 A ≠ 0) (hp : ∀ c, 0 < l c)
    (hinc : l 2 = 1 / (l 0 * l 1)) (hsep : Separated l) (i j k m : Fin 2) :
    cProj (CabI (potNH p) l) P i j k m = cNH p (data A C) (up i) (up j) (up k) (up m) := by
  have h0 := (hp 0).ne'
  have h1 := (hp 1).ne'
  obtain ⟨n01, n02, n12, n10, n20, n21⟩ := d_ne
  obtain ⟨e00, e11, e22, e01, e10, e02, e20, e12, e21⟩ := delta_vals
  have hfr : frac (SaI (potNH p) l) (dSaI (potNH p) l) l 0 1
      = p.mu * l 2 ^ 2 / (l 0 ^ 2 * l 1 ^ 2) := by
    refine frac_eq hp hsep ?_ fun e => ?_
    · simp only [SaI, pr, dJ, potNH, dI1]; field_simp; ring
    · simp only [dSaI, dpr, pr, dJ, d2J, potNH, dI1, d2I1, e00, e11, e22, e01, e10, e02, e20, e12,
        e21, if_neg n01, if_neg n02, if_neg n12, if_true]
      rw [e]; field_simp; ring
  simp only [cProj, CabI_diag, CabI_shear, hfr]
  simp only [dSaI, dpr, pr, dJ, d2J, potNH, dI1, d2I1, e00, e11,
    e22, e01, e10, e02, e20, e12, e21, if_neg n01, if_neg n02, if_neg n12, if_true, cNH]
  rw [f_gcon f hA hp, f_gcon f hA hp, f_gcon f hA hp, f_gcon f hA hp, f_gcon f hA hp,
    f_gcon f hA hp, f_J0 f hA, hinc]
  field_simp
  ring

theorem cMR_frame (p : Par) (f : Frame A C P (sqs l)) (hA : det2 A ≠ 0) (hs : A 0 1 = A 1 0)
    (hp : ∀ c, 0 < l c) (hinc : l 2 = 1 / (l 0 * l 1)) (hsep : Separated l) (i j k m : Fin 2) :
    cProj (CabI (potMR p) l) P i j k m = cMR p (data A C) (up i) (up j) (up k) (up m) := by
  have h0 := (hp 0).ne'
  have h1 := (hp 1).ne'
  obtain ⟨n01, n02, n12, n10, n20, n21⟩ := d_ne
  obtain ⟨e00, e11, e22, e01, e10, e02, e20, e12, e21⟩ := delta_vals
  obtain ⟨i00, i11, i22, i01, i10, i02, i20, i12, i21⟩ := idelta_vals
  have hfr : frac (SaI (potMR p) l) (dSaI (potMR p) l) l 0 1
      = p.c1 * l 2 ^ 2 / (l 0 ^ 2 * l 1 ^ 2)
        + p.c2 * (-1 + l 2 ^ 2 * (l 0 ^ 2 + l 1 ^ 2) / (l 0 ^ 2 * l 1 ^ 2)) := by
    refine frac_eq hp hsep ?_ fun e => ?_
    · simp only [SaI, pr, dJ, potMR, dI1, dI2, I1]; field_simp; ring
    · simp only [dSaI, dpr, pr, dJ, d2J, potMR, dI1, d2I1, dI2, d2I2, I1, e00, e11, e22, e01, e10,
        e02, e20, e12, e21, i00, i11, i22, i01, i10, i02, i20, i12, i21, if_neg n01, if_neg n02,
        if_neg n12, if_true]
      rw [e]; field_simp; ring
  simp only [cProj, CabI_diag, CabI_shear, hfr]
  simp only [dSaI, dpr, pr, dJ, d2J, potMR, dI1, d2I1, dI2, d2I2,
    I1, e00, e11, e22, e01, e10, e02, e20, e12, e21, i00, i11, i22, i01, i10, i02, i20, i12, i21,
    if_neg n01, if_neg n02, if_neg n12, if_true, cMR]
  rw [f_Gori f, f_Gori f, f_gcon f hA hp, f_gcon f hA hp, f_gcon f hA hp, f_gcon f hA hp,
    f_gcon f hA hp, f_gcon f hA hp, f_J0 f hA, f_trace f hA hs, hinc]
  field_simp
  ring

/-! ## Compressible -/

/-- Condensation commutes with the projection. -/
theorem cond_frame (w : Pot) (hsym : ∀ l a b, w.d2 l a b = w.d2 l b a)
    (T : Fin 3 → Fin 3 → Fin 3 → Fin 3 → ℝ) (l : Stretch) (P : T2)
    (hCs : ∀ a c, CabC w l a a c c = CabC w l c c a a)
    (h1 : ∀ i j k m : Fin 2, T (up i) (up j) (up k) (up m)
      = cProj (fun a b c d => CabC w l a b c d) P i j k m)
    (h2 : ∀ i j : Fin 2, T (up i) (up j) 2 2
      = CabC w l 0 0 2 2 * (P i 0 * P j 0) + CabC w l 1 1 2 2 * (P i 1 * P j 1))
    (h3 : ∀ i j : Fin 2, T 2 2 (up i) (up j)
      = CabC w l 0 0 2 2 * (P i 0 * P j 0) + CabC w l 1 1 2 2 * (P i 1 * P j 1))
    (h4 : T 2 2 2 2 = CabC w l 2 2 2 2) (i j k m : Fin 2) :
    cProj (CabCond w l) P i j k m = condense T (up i) (up j) (up k) (up m) := by
  have e := hsym
  rw [condense, h1, h2, h3, h4]
  simp only [cProj]
  rw [CabCond_diag w l 0 0 (hCs _ _), CabCond_diag w l 0 1 (hCs _ _),
    CabCond_diag w l 1 1 (hCs _ _), CabCond_shear, ← CabC_shear, ← hCs 0 2, ← hCs 1 2]
  ring

section
variable {c33 : ℝ}

theorem f_cinv (f : Frame A C P (sqs l)) (hA : det2 A ≠ 0) (hp : ∀ c, 0 < l c) (i j : Fin 2) :
    (cdata (data A C) c33).cinv (up i) (up j)
      = P i 0 * P j 0 / l 0 ^ 2 + P i 1 * P j 1 / l 1 ^ 2 := by
  simp only [cdata, withT_up]
  exact f_gcon f hA hp i j

theorem f_cinv22 (h : l 2 ^ 2 = c33) : (cdata (data A C) c33).cinv 2 2 = 1 / l 2 ^ 2 := by
  simp only [cdata, withT_22, h]

theorem f_cinv_up2 (i : Fin 2) : (cdata (data A C) c33).cinv (up i) 2 = 0 := by
  simp only [cdata, withT_up_two]

theorem f_cinv_2up (i : Fin 2) : (cdata (data A C) c33).cinv 2 (up i) = 0 := by
  simp only [cdata, withT_two_up]

theorem f_J (f : Frame A C P (sqs l)) (hA : det2 A ≠ 0) (h : l 2 ^ 2 = c33) :
    (cdata (data A C) c33).J = Jsq l := by
  simp only [cdata, f_J0 f hA, ← h, Jsq]; ring

theorem f_I1 (f : Frame A C P (sqs l)) (hA : det2 A ≠ 0) (hs : A 0 1 = A 1 0)
    (h : l 2 ^ 2 = c33) : Hyper.I1 (cdata (data A C) c33) = I1 l := by
  simp only [Hyper.I1, cdata, withT_22, f_trace f hA hs, ← h, I1]; ring

theorem f_I2 (f : Frame A C P (sqs l)) (hA : det2 A ≠ 0) (hs : A 0 1 = A 1 0)
    (h : l 2 ^ 2 = c33) : Hyper.I2 (cdata (data A C) c33) = I2 l := by
  simp only [Hyper.I2, cdata, withT_22, f_trace f hA hs, f_J0 f hA, ← h, I2]; ring

theorem f_D (c33 : ℝ) : (cdata (data A C) c33).D = data A C := rfl

theorem f_dI2_up (f : Frame A C P (sqs l)) (hA : det2 A ≠ 0) (hp : ∀ c, 0 < l c)
    (h : l 2 ^ 2 = c33) (i j : Fin 2) : Hyper.dI2 (cdata (data A C) c33) (up i) (up j)
      = (l 2 ^ 2 + l 1 ^ 2) * (P i 0 * P j 0) + (l 2 ^ 2 + l 0 ^ 2) * (P i 1 * P j 1) := by
  have h0 := (hp 0).ne'
  have h1 := (hp 1).ne'
  simp only [Hyper.dI2, Hyper.dI1, idelta_up, delta_up, f_D, f_Gori f, f_cinv f hA hp, f_J0 f hA]
  simp only [cdata, withT_22, ← h]
  field_simp
  ring

theorem f_dI2_22 (f : Frame A C P (sqs l)) (hA : det2 A ≠ 0) (hs : A 0 1 = A 1 0) :
    Hyper.dI2 (cdata (data A C) c33) 2 2 = l 0 ^ 2 + l 1 ^ 2 := by
  simp only [Hyper.dI2, idelta_two, delta_two, f_D, f_trace f hA hs]; ring

/-- Common form of the compressible stresses: principal values `x`, `y` of `α G + β cinv`. -/
theorem sNHe_frame (p : Par) (f : Frame A C P (sqs l)) (hA : det2 A ≠ 0) (hp : ∀ c, 0 < l c)
    (h : l 2 ^ 2 = c33) (i j : Fin 2) : sProj (SaC (potNHe p) l) P i j
      = sNHe p (cdata (data A C) c33) (up i) (up j) := by
  have h0 := (hp 0).ne'
  have h1 := (hp 1).ne'
  simp only [sProj, SaC, potNHe, dI1, sNHe]
  rw [f_D, f_Gori f, f_cinv f hA hp, f_J f hA h]
  generalize Jsq l = J
  field_simp
  ring

theorem sNHe_frame2 (p : Par) (f : Frame A C P (sqs l)) (hA : det2 A ≠ 0) (hp : ∀ c, 0 < l c)
    (h : l 2 ^ 2 = c33) : SaC (potNHe p) l 2 = sNHe p (cdata (data A C) c33) 2 2 := by
  have h2 := (hp 2).ne'
  simp only [SaC, potNHe, dI1, sNHe]
  rw [f_D, f_cinv22 h, f_J f hA h]
  simp only [data, embed_22]
  generalize Jsq l = J
  field_simp

theorem sNHc_frame (p : Par) (f : Frame A C P (sqs l)) (hA : det2 A ≠ 0) (hs : A 0 1 = A 1 0)
    (hp : ∀ c, 0 < l c) (h : l 2 ^ 2 = c33) (i j : Fin 2) : sProj (SaC (potNHc p) l) P i j
      = sNHc p (cdata (data A C) c33) (up i) (up j) := by
  have h0 := (hp 0).ne'
  have h1 := (hp 1).ne'
  simp only [sProj, SaC, potNHc, dI1, vol1, sNHc]
  rw [f_D, f_Gori f, f_cinv f hA hp, f_J f hA h, f_I1 f hA hs h]
  generalize Jsq l ^ (-1 / 3 : ℝ) = J3
  generalize Jsq l = J
  generalize I1 l = I
  field_simp
  ring

theorem sNHc_frame2 (p : Par) (f : Frame A C P (sqs l)) (hA : det2 A ≠ 0) (hs : A 0 1 = A 1 0)
    (hp : ∀ c, 0 < l c) (h : l 2 ^ 2 = c33) :
    SaC (potNHc p) l 2 = sNHc p (cdata (data A C) c33) 2 2 := by
  have h2 := (hp 2).ne'
  simp only [SaC, potNHc, dI1, vol1, sNHc]
  rw [f_D, f_cinv22 h, f_J f hA h, f_I1 f hA hs h]
  simp only [data, embed_22]
  generalize Jsq l ^ (-1 / 3 : ℝ) = J3
  generalize Jsq l = J
  generalize I1 l = I
  field_simp
  ring

theorem sMRc_frame (p : Par) (f : Frame A C P (sqs l)) (hA : det2 A ≠ 0) (hs : A 0 1 = A 1 0)
    (hp : ∀ c, 0 < l c) (h : l 2 ^ 2 = c33) (i j : Fin 2) : sProj (SaC (potMRc p) l) P i j
      = sMRc p (cdata (data A C) c33) (up i) (up j) := by
  have h0 := (hp 0).ne'
  have h1 := (hp 1).ne'
  simp only [sProj, SaC, potMRc, dI1, dI2, vol1, sMRc]
  rw [f_D, f_Gori f, f_cinv f hA hp, f_J f hA h, f_I1 f hA hs h, f_I2 f hA hs h,
    f_dI2_up f hA hp h]
  generalize Jsq l ^ (-1 / 3 : ℝ) = J3
  generalize Jsq l ^ (-2 / 3 : ℝ) = J32
  generalize Jsq l = J
  generalize I2 l = II
  simp only [I1]
  field_simp
  ring

theorem sMRc_frame2 (p : Par) (f : Frame A C P (sqs l)) (hA : det2 A ≠ 0) (hs : A 0 1 = A 1 0)
    (hp : ∀ c, 0 < l c) (h : l 2 ^ 2 = c33) :
    SaC (potMRc p) l 2 = sMRc p (cdata (data A C) c33) 2 2 := by
  have h2 := (hp 2).ne'
  simp only [SaC, potMRc, dI1, dI2, vol1, sMRc]
  rw [f_D, f_cinv22 h, f_J f hA h, f_I1 f hA hs h, f_I2 f hA hs h, f_dI2_22 f hA hs]
  simp only [data, embed_22]
  generalize Jsq l ^ (-1 / 3 : ℝ) = J3
  generalize Jsq l ^ (-2 / 3 : ℝ) = J32
  generalize Jsq l = J
  generalize I2 l = II
  simp only [I1]
  field_simp
  ring

/-! ### Tangents -/

theorem cNHe_frame (p : Par) (hsym : ∀ l a b, (potNHe p).d2 l a b = (potNHe p).d2 l b a)
    (hCs : ∀ a c, CabC (potNHe p) l a a c c = CabC (potNHe p) l c c a a)
    (f : Frame A C P (sqs l)) (hA : det2 A ≠ 0) (hp : ∀ c, 0 < l c) (h : l 2 ^ 2 = c33)
    (hsep : Separated l) (i j k m : Fin 2) : cProj (CabCond (potNHe p) l) P i j k m
      = condense (cNHe p (cdata (data A C) c33)) (up i) (up j) (up k) (up m) := by
  have h0 := (hp 0).ne'
  have h1 := (hp 1).ne'
  have h2 := (hp 2).ne'
  obtain ⟨n01, n02, n12, n10, n20, n21⟩ := d_ne
  obtain ⟨e00, e11, e22, e01, e10, e02, e20, e12, e21⟩ := delta_vals
  have hfr : frac (SaC (potNHe p) l) (dSaC (potNHe p) l) l 0 1
      = (p.mu - p.lam / 2 * (Jsq l - 1)) / (l 0 ^ 2 * l 1 ^ 2) := by
    refine frac_eq hp hsep ?_ fun e => ?_
    · simp only [SaC, potNHe, dI1]
      generalize Jsq l = J
      field_simp; ring
    · simp only [dSaC, potNHe, dI1, d2I1, e00, e11, e22, e01, if_neg n01, if_true]
      generalize Jsq l = J
      rw [e]; field_simp; ring
  apply cond_frame (potNHe p) hsym _ _ _ hCs
  · intro i j k m
    simp only [cProj, CabC_diag, CabC_shear, hfr]
    simp only [dSaC, potNHe, dI1, d2I1, e00, e11, e22, e01, e10,
      if_neg n01, if_true, cNHe, dCinv]
    rw [f_cinv f hA hp, f_cinv f hA hp, f_cinv f hA hp, f_cinv f hA hp, f_cinv f hA hp,
      f_cinv f hA hp, f_J f hA h]
    generalize Jsq l = J
    field_simp
    ring
  · intro i j
    simp only [CabC_diag, dSaC, potNHe, dI1, d2I1, e02, e12, if_neg n02, if_neg n12, cNHe, dCinv]
    rw [f_cinv f hA hp, f_cinv22 h, f_cinv_up2, f_cinv_up2, f_J f hA h]
    generalize Jsq l = J
    field_simp
    ring
  · intro i j
    simp only [CabC_diag, dSaC, potNHe, dI1, d2I1, e02, e12, if_neg n02, if_neg n12, cNHe, dCinv]
    rw [f_cinv f hA hp, f_cinv22 h, f_cinv_2up, f_cinv_2up, f_J f hA h]
    generalize Jsq l = J
    field_simp
    ring
  · simp only [CabC_diag, dSaC, potNHe, dI1, d2I1, e22, if_true, cNHe, dCinv]
    rw [f_cinv22 h, f_J f hA h]
    generalize Jsq l = J
    field_simp
    ring

theorem cNHc_frame (p : Par) (hsym : ∀ l a b, (potNHc p).d2 l a b = (potNHc p).d2 l b a)
    (hCs : ∀ a c, CabC (potNHc p) l a a c c = CabC (potNHc p) l c c a a)
    (f : Frame A C P (sqs l)) (hA : det2 A ≠ 0) (hs : A 0 1 = A 1 0) (hp : ∀ c, 0 < l c)
    (h : l 2 ^ 2 = c33) (hsep : Separated l) (i j k m : Fin 2) :
    cProj (CabCond (potNHc p) l) P i j k m
      = condense (cNHc p (cdata (data A C) c33)) (up i) (up j) (up k) (up m) := by
  have h0 := (hp 0).ne'
  have h1 := (hp 1).ne'
  have h2 := (hp 2).ne'
  obtain ⟨n01, n02, n12, n10, n20, n21⟩ := d_ne
  obtain ⟨e00, e11, e22, e01, e10, e02, e20, e12, e21⟩ := delta_vals
  have hfr : frac (SaC (potNHc p) l) (dSaC (potNHc p) l) l 0 1
      = (p.mu * Jsq l ^ (-1 / 3 : ℝ) * (1 / 3) * I1 l - p.K / 2 * (Jsq l - 1))
        / (l 0 ^ 2 * l 1 ^ 2) := by
    refine frac_eq hp hsep ?_ fun e => ?_
    · simp only [SaC, potNHc, dI1, vol1]
      generalize Jsq l ^ (-1 / 3 : ℝ) = J3
      generalize Jsq l = J
      generalize I1 l = I
      field_simp; ring
    · simp only [dSaC, potNHc, dI1, d2I1, vol1, vol2, e00, e11, e22, e01, if_neg n01, if_true]
      generalize Jsq l ^ (-1 / 3 : ℝ) = J3
      generalize Jsq l = J
      generalize I1 l = I
      rw [e]; field_simp; ring
  apply cond_frame (potNHc p) hsym _ _ _ hCs
  · intro i j k m
    simp only [cProj, CabC_diag, CabC_shear, hfr]
    simp only [dSaC, potNHc, dI1, d2I1, vol1, vol2, e00, e11,
      e22, e01, e10, if_neg n01, if_true, cNHc, dCinv, f_D]
    rw [f_Gori f, f_Gori f, f_cinv f hA hp, f_cinv f hA hp, f_cinv f hA hp, f_cinv f hA hp,
      f_cinv f hA hp, f_cinv f hA hp, f_J f hA h, f_I1 f hA hs h]
    generalize Jsq l ^ (-1 / 3 : ℝ) = J3
    generalize Jsq l = J
    generalize I1 l = I
    field_simp
    ring
  · intro i j
    simp only [CabC_diag, dSaC, potNHc, dI1, d2I1, vol2, e02, e12, if_neg n02, if_neg n12, cNHc,
      dCinv, f_D]
    rw [f_Gori f, f_cinv f hA hp, f_cinv22 h, f_cinv_up2, f_cinv_up2, f_J f hA h, f_I1 f hA hs h]
    simp only [data, embed_22]
    generalize Jsq l ^ (-1 / 3 : ℝ) = J3
    generalize Jsq l = J
    generalize I1 l = I
    field_simp
    ring
  · intro i j
    simp only [CabC_diag, dSaC, potNHc, dI1, d2I1, vol2, e02, e12, if_neg n02, if_neg n12, cNHc,
      dCinv, f_D]
    rw [f_Gori f, f_cinv f hA hp, f_cinv22 h, f_cinv_2up, f_cinv_2up, f_J f hA h, f_I1 f hA hs h]
    simp only [data, embed_22]
    generalize Jsq l ^ (-1 / 3 : ℝ) = J3
    generalize Jsq l = J
    generalize I1 l = I
    field_simp
    ring
  · simp only [CabC_diag, dSaC, potNHc, dI1, d2I1, vol1, vol2, e22, if_true, cNHc, dCinv, f_D]
    rw [f_cinv22 h, f_J f hA h, f_I1 f hA hs h]
    simp only [data, embed_22]
    generalize Jsq l ^ (-1 / 3 : ℝ) = J3
    generalize Jsq l = J
    generalize I1 l = I
    field_simp
    ring

theorem cMRc_frame (p : Par) (hsym : ∀ l a b, (potMRc p).d2 l a b = (potMRc p).d2 l b a)
    (hCs : ∀ a c, CabC (potMRc p) l a a c c = CabC (potMRc p) l c c a a)
    (f : Frame A C P (sqs l)) (hA : det2 A ≠ 0) (hs : A 0 1 = A 1 0) (hp : ∀ c, 0 < l c)
    (h : l 2 ^ 2 = c33) (hsep : Separated l) (i j k m : Fin 2) :
    cProj (CabCond (potMRc p) l) P i j k m
      = condense (cMRc p (cdata (data A C) c33)) (up i) (up j) (up k) (up m) := by
  have h0 := (hp 0).ne'
  have h1 := (hp 1).ne'
  have h2 := (hp 2).ne'
  obtain ⟨n01, n02, n12, n10, n20, n21⟩ := d_ne
  obtain ⟨e00, e11, e22, e01, e10, e02, e20, e12, e21⟩ := delta_vals
  obtain ⟨i00, i11, i22, i01, i10, i02, i20, i12, i21⟩ := idelta_vals
  have hfr : frac (SaC (potMRc p) l) (dSaC (potMRc p) l) l 0 1
      = (p.c1 * Jsq l ^ (-1 / 3 : ℝ) * (1 / 3) * I1 l
          + p.c2 * Jsq l ^ (-2 / 3 : ℝ) * (2 / 3 * I2 l - l 0 ^ 2 * l 1 ^ 2)
          - p.K / 2 * (Jsq l - 1)) / (l 0 ^ 2 * l 1 ^ 2) := by
    refine frac_eq hp hsep ?_ fun e => ?_
    · simp only [SaC, potMRc, dI1, dI2, vol1]
      generalize Jsq l ^ (-1 / 3 : ℝ) = J3
      generalize Jsq l ^ (-2 / 3 : ℝ) = J32
      generalize Jsq l = J
      generalize I2 l = II
      generalize I1 l = I
      field_simp; ring
    · simp only [dSaC, potMRc, dI1, d2I1, dI2, d2I2, vol1, vol2, e00, e11, e22, e01, i11, i01,
        if_neg n01, if_true]
      generalize Jsq l ^ (-1 / 3 : ℝ) = J3
      generalize Jsq l ^ (-2 / 3 : ℝ) = J32
      generalize Jsq l = J
      generalize I2 l = II
      generalize I1 l = I
      rw [e]; field_simp; ring
  apply cond_frame (potMRc p) hsym _ _ _ hCs
  · intro i j k m
    simp only [cProj, CabC_diag, CabC_shear, hfr]
    simp only [dSaC, potMRc, dI1, d2I1, dI2, d2I2, vol1, vol2,
      e00, e11, e22, e01, e10, i00, i11, i01, i10, if_neg n01, if_true, cMRc, dCinv, Hyper.d2I2,
      Hyper.dI1, idelta_up, delta_up, f_D]
    rw [f_dI2_up f hA hp h, f_dI2_up f hA hp h, f_Gori f, f_Gori f, f_cinv f hA hp,
      f_cinv f hA hp, f_cinv f hA hp, f_cinv f hA hp,
      f_cinv f hA hp, f_cinv f hA hp, f_J f hA h, f_I1 f hA hs h, f_I2 f hA hs h, f_J0 f hA]
    generalize Jsq l ^ (-1 / 3 : ℝ) = J3
    generalize Jsq l ^ (-2 / 3 : ℝ) = J32
    generalize Jsq l = J
    generalize I2 l = II
    simp only [I1]
    field_simp
    ring
  · intro i j
    simp only [CabC_diag, dSaC, potMRc, dI1, d2I1, dI2, d2I2, vol2, e02, e12, i02, i12, if_neg n02,
      if_neg n12, cMRc, dCinv, Hyper.d2I2, Hyper.dI1, idelta_up, delta_up, idelta_two, delta_two,
      f_D]
    rw [f_dI2_up f hA hp h, f_dI2_22 f hA hs, f_Gori f, f_cinv f hA hp, f_cinv22 h, f_cinv_up2,
      f_cinv_up2, f_J f hA h, f_I1 f hA hs h, f_I2 f hA hs h]
    simp only [data, embed_22]
    generalize Jsq l ^ (-1 / 3 : ℝ) = J3
    generalize Jsq l ^ (-2 / 3 : ℝ) = J32
    generalize Jsq l = J
    generalize I2 l = II
    simp only [I1]
    field_simp
    ring
  · intro i j
    simp only [CabC_diag, dSaC, potMRc, dI1, d2I1, dI2, d2I2, vol2, e02, e12, i02, i12, if_neg n02,
      if_neg n12, cMRc, dCinv, Hyper.d2I2, Hyper.dI1, idelta_up, delta_up, idelta_two, delta_two,
      f_D]
    rw [f_dI2_up f hA hp h, f_dI2_22 f hA hs, f_Gori f, f_cinv f hA hp, f_cinv22 h, f_cinv_2up,
      f_cinv_2up, f_J f hA h, f_I1 f hA hs h, f_I2 f hA hs h]
    simp only [data, embed_22]
    generalize Jsq l ^ (-1 / 3 : ℝ) = J3
    generalize Jsq l ^ (-2 / 3 : ℝ) = J32
    generalize Jsq l = J
    generalize I2 l = II
    simp only [I1]
    field_simp
    ring
  · simp only [CabC_diag, dSaC, potMRc, dI1, d2I1, dI2, d2I2, vol1, vol2, e22, i22, if_true, cMRc,
      dCinv, Hyper.d2I2, Hyper.dI1, idelta_two, delta_two, f_D]
    rw [f_dI2_22 f hA hs, f_cinv22 h, f_J f hA h, f_I1 f hA hs h, f_I2 f hA hs h]
    simp only [data, embed_22]
    generalize Jsq l ^ (-1 / 3 : ℝ) = J3
    generalize Jsq l ^ (-2 / 3 : ℝ) = J32
    generalize Jsq l = J
    generalize I2 l = II
    simp only [I1]
    field_simp
    ring

end

end

end Verif.Spectral
