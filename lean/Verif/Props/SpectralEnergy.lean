import Verif.Lemmas.SpectralDeriv

/-! # Property C53 (energies): the coded derivatives are those of the energies -/

set_option linter.unusedSimpArgs false

namespace Verif.Spectral

open Verif.Hyper Spec.Spectral

/-- **C53** Incompressible neo-Hookean: first and second derivatives of the energy. -/
theorem C53_energy_NH (p : Par) :
    IsGradient (energyNH p.mu) (potNH p).d1 ∧ IsJacobian (potNH p).d1 (potNH p).d2 := by
  refine ⟨fun L h t hL hp => ?_, fun a L h t hL hp => ?_⟩
  · refine deriv_conv (((d_I1 hL).sub_const 3).const_mul (p.mu / 2)) (fun s => ?_) ?_
    · simp only [energyNH, inv1_eq]
    · simp only [potNH, dI1, Fin.sum_univ_three]; ring
  · refine deriv_conv ((hL a).const_mul p.mu) (fun s => ?_) ?_
    · simp only [potNH, dI1]; ring
    · rcases fin3_cases a with rfl | rfl | rfl <;>
        simp only [potNH, d2I1, Fin.sum_univ_three, delta] <;> simp

/-- Derivative of `dI2`. -/
theorem d_dI2 {L : ℝ → Fin 3 → ℝ} {h : Fin 3 → ℝ} {t : ℝ}
    (hL : ∀ c, HasDerivAt (fun s => L s c) (h c) t) (a : Fin 3) :
    HasDerivAt (fun s => dI2 (L s) a) (∑ b, d2I2 (L t) a b * h b) t := by
  refine deriv_conv (((hL a).const_mul 2).mul ((d_I1 hL).sub (d_sq hL a))) (fun s => ?_) ?_
  · simp only [dI2, Pi.mul_apply, Pi.sub_apply]
  · rcases fin3_cases a with rfl | rfl | rfl <;>
      simp only [d2I2, Fin.sum_univ_three, delta, idelta, Pi.sub_apply] <;> simp <;> ring

theorem d_dI1 {L : ℝ → Fin 3 → ℝ} {h : Fin 3 → ℝ} {t : ℝ}
    (hL : ∀ c, HasDerivAt (fun s => L s c) (h c) t) (a : Fin 3) :
    HasDerivAt (fun s => dI1 (L s) a) (∑ b, d2I1 a b * h b) t := by
  refine deriv_conv ((hL a).const_mul 2) (fun s => ?_) ?_
  · simp only [dI1]
  · rcases fin3_cases a with rfl | rfl | rfl <;>
      simp only [d2I1, Fin.sum_univ_three, delta] <;> simp

/-- **C53** Incompressible Mooney–Rivlin. -/
theorem C53_energy_MR (p : Par) :
    IsGradient (energyMR p.c1 p.c2) (potMR p).d1 ∧ IsJacobian (potMR p).d1 (potMR p).d2 := by
  refine ⟨fun L h t hL hp => ?_, fun a L h t hL hp => ?_⟩
  · refine deriv_conv ((((d_I1 hL).sub_const 3).const_mul (p.c1 / 2)).add
      (((d_I2 hL).sub_const 3).const_mul (p.c2 / 2))) (fun s => ?_) ?_
    · simp only [energyMR, inv1_eq, inv2_eq, Pi.add_apply]
    · simp only [potMR, dI1, Fin.sum_univ_three]; ring
  · refine deriv_conv (((d_dI1 hL a).const_mul (p.c1 / 2)).add
      ((d_dI2 hL a).const_mul (p.c2 / 2))) (fun s => ?_) ?_
    · simp only [potMR, Pi.add_apply]
    · simp only [potMR, Fin.sum_univ_three]; ring

/-- **C53** Incompressible Ogden, for any number of terms with non-zero exponents. -/
theorem C53_energy_OG (terms : List (ℝ × ℝ)) (h0 : ∀ x ∈ terms, x.2 ≠ 0) :
    IsGradient (energyOG terms) (potOG terms).d1 ∧
    IsJacobian (potOG terms).d1 (potOG terms).d2 := by
  refine ⟨fun L h t hL hp => ?_, fun a L h t hL hp => ?_⟩
  · have := d_list (t := t) (fun (x : ℝ × ℝ) s => x.1 / x.2 *
        (L s 0 ^ x.2 + L s 1 ^ x.2 + L s 2 ^ x.2 - 3))
      (fun x => x.1 / x.2 * (x.2 * L t 0 ^ (x.2 - 1) * h 0 + x.2 * L t 1 ^ (x.2 - 1) * h 1
        + x.2 * L t 2 ^ (x.2 - 1) * h 2))
      (fun x => ((((d_pow hL hp 0 x.2).add (d_pow hL hp 1 x.2)).add
        (d_pow hL hp 2 x.2)).sub_const 3).const_mul (x.1 / x.2)) terms
    refine deriv_conv this (fun s => rfl) ?_
    simp only [potOG, Fin.sum_univ_three]
    clear this
    induction terms with
    | nil => simp
    | cons x xs ih =>
      have hx := h0 x (by simp)
      have ih := ih (fun y hy => h0 y (by simp [hy]))
      simp only [List.map_cons, List.sum_cons]
      rw [ih]
      field_simp
      ring
  · have := d_list (t := t) (fun (x : ℝ × ℝ) s => x.1 * L s a ^ (x.2 - 1))
      (fun x => x.1 * ((x.2 - 1) * L t a ^ (x.2 - 1 - 1) * h a))
      (fun x => (d_pow hL hp a (x.2 - 1)).const_mul x.1) terms
    refine deriv_conv this (fun s => rfl) ?_
    simp only [potOG]
    clear this
    induction terms with
    | nil => simp
    | cons x xs ih =>
      have ih := ih (fun y hy => h0 y (by simp [hy]))
      simp only [List.map_cons, List.sum_cons, add_mul, Finset.sum_add_distrib]
      rw [ih]
      have e : x.2 - 1 - 1 = x.2 - 2 := by ring
      congr 1
      rw [e]
      rcases fin3_cases a with rfl | rfl | rfl <;>
        simp only [Fin.sum_univ_three, delta] <;> simp <;> ring

/-- **C53** Extended neo-Hookean. -/
theorem C53_energy_NHext (p : Par) :
    IsGradient (energyNHe p.mu p.lam) (potNHe p).d1 ∧
    IsJacobian (potNHe p).d1 (potNHe p).d2 := by
  refine ⟨fun L h t hL hp => ?_, fun a L h t hL hp => ?_⟩
  all_goals
    have p0 := (hp 0).ne'
    have p1 := (hp 1).ne'
    have p2 := (hp 2).ne'
  · refine deriv_conv (((((d_I1 hL).sub_const 3).sub (d_log hL hp)).const_mul (p.mu / 2)).add
      ((((d_Jsq hL hp).sub_const 1).sub (d_log hL hp)).const_mul (p.lam / 4))) (fun s => ?_) ?_
    · simp only [energyNHe, inv1_eq, inv3_eq, Pi.add_apply, Pi.sub_apply]
    · simp only [potNHe, dI1, Fin.sum_univ_three]; field_simp; ring
  · refine deriv_conv ((((hL a).const_mul p.mu).sub ((d_inv hL hp a).const_mul p.mu)).add
      (((d_inv hL hp a).const_mul (p.lam / 2)).mul ((d_Jsq hL hp).sub_const 1))) (fun s => ?_) ?_
    · simp only [potNHe, dI1, Pi.add_apply, Pi.sub_apply, Pi.mul_apply]
      by_cases h0 : L s a = 0
      · simp [h0]
      · field_simp
    · rcases fin3_cases a with rfl | rfl | rfl <;>
        simp only [potNHe, d2I1, Fin.sum_univ_three, delta] <;> simp <;> field_simp <;> ring

/-- Rewriting of the isochoric part for the derivative. -/
theorem d_iso {L : ℝ → Fin 3 → ℝ} {h : Fin 3 → ℝ} {t : ℝ}
    (hL : ∀ c, HasDerivAt (fun s => L s c) (h c) t) (hp : ∀ c, 0 < L t c) (al : ℝ)
    {I : Stretch → ℝ} {d1 : Stretch → Fin 3 → ℝ} {d2 : Stretch → Fin 3 → Fin 3 → ℝ}
    (hI : HasDerivAt (fun s => I (L s)) (∑ b, d1 (L t) b * h b) t) (a : Fin 3)
    (hd : HasDerivAt (fun s => d1 (L s) a) (∑ b, d2 (L t) a b * h b) t) :
    HasDerivAt (fun s => Jsq (L s) ^ al * (2 * al * I (L s) / L s a + d1 (L s) a))
      (∑ b, Jsq (L t) ^ al * (2 * al * 1 / L t b * (2 * al * I (L t) / L t a + d1 (L t) a)
        + 2 * al * 1 / L t a * d1 (L t) b + d2 (L t) a b
        - 2 * al * delta a b * I (L t) / (L t a * L t a)) * h b) t := by
  have p0 := (hp 0).ne'
  have p1 := (hp 1).ne'
  have p2 := (hp 2).ne'
  refine deriv_conv ((d_Jpow hL hp al).mul (((hI.const_mul (2 * al)).mul
    (d_inv hL hp a)).add hd)) (fun s => ?_) ?_
  · simp only [Pi.mul_apply, Pi.add_apply]; ring
  · simp only [Pi.mul_apply, Pi.add_apply]
    generalize Jsq (L t) ^ al = J
    rcases fin3_cases a with rfl | rfl | rfl <;>
      simp only [Fin.sum_univ_three, delta, if_true,
        if_neg (show (0 : Fin 3) ≠ 1 by decide), if_neg (show (0 : Fin 3) ≠ 2 by decide),
        if_neg (show (1 : Fin 3) ≠ 0 by decide), if_neg (show (1 : Fin 3) ≠ 2 by decide),
        if_neg (show (2 : Fin 3) ≠ 0 by decide), if_neg (show (2 : Fin 3) ≠ 1 by decide)] <;>
      field_simp <;> ring

theorem d_iso0 {L : ℝ → Fin 3 → ℝ} {h : Fin 3 → ℝ} {t : ℝ}
    (hL : ∀ c, HasDerivAt (fun s => L s c) (h c) t) (hp : ∀ c, 0 < L t c) (al : ℝ)
    {I : Stretch → ℝ} {d1 : Stretch → Fin 3 → ℝ}
    (hI : HasDerivAt (fun s => I (L s)) (∑ b, d1 (L t) b * h b) t) :
    HasDerivAt (fun s => Jsq (L s) ^ al * I (L s))
      (∑ b, Jsq (L t) ^ al * (2 * al * I (L t) / L t b + d1 (L t) b) * h b) t := by
  have p0 := (hp 0).ne'
  have p1 := (hp 1).ne'
  have p2 := (hp 2).ne'
  refine deriv_conv ((d_Jpow hL hp al).mul hI) (fun s => ?_) ?_
  · simp only [Pi.mul_apply]
  · simp only [Fin.sum_univ_three]; field_simp; ring

theorem d_I1' {L : ℝ → Fin 3 → ℝ} {h : Fin 3 → ℝ} {t : ℝ}
    (hL : ∀ c, HasDerivAt (fun s => L s c) (h c) t) :
    HasDerivAt (fun s => I1 (L s)) (∑ b, dI1 (L t) b * h b) t := by
  refine (d_I1 hL).congr_deriv ?_
  simp only [dI1, Fin.sum_univ_three]; ring

theorem d_I2' {L : ℝ → Fin 3 → ℝ} {h : Fin 3 → ℝ} {t : ℝ}
    (hL : ∀ c, HasDerivAt (fun s => L s c) (h c) t) :
    HasDerivAt (fun s => I2 (L s)) (∑ b, dI2 (L t) b * h b) t := by
  refine (d_I2 hL).congr_deriv ?_
  simp only [Fin.sum_univ_three]

/-- **C53** Compressible neo-Hookean. -/
theorem C53_energy_NHc (p : Par) :
    IsGradient (energyNHc p.mu p.K) (potNHc p).d1 ∧
    IsJacobian (potNHc p).d1 (potNHc p).d2 := by
  refine ⟨fun L h t hL hp => ?_, fun a L h t hL hp => ?_⟩
  · refine deriv_conv ((((d_iso0 hL hp (-1 / 3) (d_I1' hL)).sub_const 3).const_mul (p.mu / 2)).add
      (d_vol p L h t hL hp)) (fun s => ?_) ?_
    · simp only [energyNHc, inv1_eq, inv3_eq, Pi.add_apply]
    · simp only [potNHc, Fin.sum_univ_three]; ring
  · refine deriv_conv (((d_iso hL hp (-1 / 3) (d_I1' hL) (d2 := fun _ => d2I1) a
      (d_dI1 hL a)).const_mul (p.mu / 2)).add (d_vol2 p a L h t hL hp)) (fun s => ?_) ?_
    · simp only [potNHc, Pi.add_apply]; ring
    · simp only [potNHc, Fin.sum_univ_three]; ring

/-- **C53** Compressible Mooney–Rivlin. -/
theorem C53_energy_MRc (p : Par) :
    IsGradient (energyMRc p.c1 p.c2 p.K) (potMRc p).d1 ∧
    IsJacobian (potMRc p).d1 (potMRc p).d2 := by
  refine ⟨fun L h t hL hp => ?_, fun a L h t hL hp => ?_⟩
  · refine deriv_conv (((((d_iso0 hL hp (-1 / 3) (d_I1' hL)).sub_const 3).const_mul
      (p.c1 / 2)).add (((d_iso0 hL hp (-2 / 3) (d_I2' hL)).sub_const 3).const_mul
      (p.c2 / 2))).add (d_vol p L h t hL hp)) (fun s => ?_) ?_
    · simp only [energyMRc, inv1_eq, inv2_eq, inv3_eq, Pi.add_apply]
    · simp only [potMRc, Fin.sum_univ_three]; ring
  · refine deriv_conv ((((d_iso hL hp (-1 / 3) (d_I1' hL) (d2 := fun _ => d2I1) a
      (d_dI1 hL a)).const_mul (p.c1 / 2)).add ((d_iso hL hp (-2 / 3) (d_I2' hL) a
      (d_dI2 hL a)).const_mul (p.c2 / 2))).add (d_vol2 p a L h t hL hp)) (fun s => ?_) ?_
    · simp only [potMRc, Pi.add_apply]; ring
    · simp only [potMRc, Fin.sum_univ_three]; ring

/-- Gradient and second derivative of the power sum of the Ogden model. -/
theorem d_Lam {L : ℝ → Fin 3 → ℝ} {h : Fin 3 → ℝ} {t : ℝ}
    (hL : ∀ c, HasDerivAt (fun s => L s c) (h c) t) (hp : ∀ c, 0 < L t c) (al : ℝ) :
    HasDerivAt (fun s => Lam (L s) al) (∑ b, (al * L t b ^ (al - 1)) * h b) t := by
  refine deriv_conv (((d_pow hL hp 0 al).add (d_pow hL hp 1 al)).add (d_pow hL hp 2 al))
    (fun s => ?_) ?_
  · simp only [Lam, Pi.add_apply]
  · simp only [Fin.sum_univ_three]

theorem d_dLam {L : ℝ → Fin 3 → ℝ} {h : Fin 3 → ℝ} {t : ℝ}
    (hL : ∀ c, HasDerivAt (fun s => L s c) (h c) t) (hp : ∀ c, 0 < L t c) (al : ℝ) (a : Fin 3) :
    HasDerivAt (fun s => al * L s a ^ (al - 1))
      (∑ b, (delta a b * (al * ((al - 1) * L t a ^ (al - 2)))) * h b) t := by
  refine deriv_conv ((d_pow hL hp a (al - 1)).const_mul al) (fun s => rfl) ?_
  rw [show al - 1 - 1 = al - 2 by ring]
  rcases fin3_cases a with rfl | rfl | rfl <;>
    simp only [Fin.sum_univ_three, delta] <;> simp <;> ring

/-- **C53** Compressible Ogden, for any number of terms with non-zero exponents. -/
theorem C53_energy_OGc (p : Par) (terms : List (ℝ × ℝ)) (h0 : ∀ x ∈ terms, x.2 ≠ 0) :
    IsGradient (energyOGc terms p.K) (potOGc p terms).d1 ∧
    IsJacobian (potOGc p terms).d1 (potOGc p terms).d2 := by
  refine ⟨fun L h t hL hp => ?_, fun a L h t hL hp => ?_⟩
  · have := (d_list (t := t) (fun (x : ℝ × ℝ) s => x.1 / x.2 * (Jsq (L s) ^ (-x.2 / 6)
        * Lam (L s) x.2 - 3))
      (fun x => x.1 / x.2 * (∑ b, Jsq (L t) ^ (-x.2 / 6) * (2 * (-x.2 / 6) * Lam (L t) x.2 / L t b
        + x.2 * L t b ^ (x.2 - 1)) * h b))
      (fun x => ((d_iso0 hL hp (-x.2 / 6) (I := fun l => Lam l x.2)
        (d1 := fun l b => x.2 * l b ^ (x.2 - 1)) (d_Lam hL hp x.2)).sub_const 3).const_mul
          (x.1 / x.2)) terms).add (d_vol p L h t hL hp)
    refine deriv_conv this (fun s => ?_) ?_
    · simp only [energyOGc, inv3_eq, Pi.add_apply, Lam]
    simp only [potOGc, add_mul, Finset.sum_add_distrib]
    congr 1
    clear this
    induction terms with
    | nil => simp
    | cons x xs ih =>
      have hx := h0 x (by simp)
      have ih := ih (fun y hy => h0 y (by simp [hy]))
      simp only [List.map_cons, List.sum_cons, add_mul, Finset.sum_add_distrib]
      rw [ih]
      congr 1
      have p0 := (hp 0).ne'
      have p1 := (hp 1).ne'
      have p2 := (hp 2).ne'
      simp only [Fin.sum_univ_three]
      field_simp
      ring
  · have := (d_list (t := t) (fun (x : ℝ × ℝ) s => x.1 * (1 / x.2 * (Jsq (L s) ^ (-x.2 / 6)
        * (2 * (-x.2 / 6) * Lam (L s) x.2 / L s a + x.2 * L s a ^ (x.2 - 1)))))
      _
      (fun x => ((d_iso hL hp (-x.2 / 6) (I := fun l => Lam l x.2)
        (d1 := fun l b => x.2 * l b ^ (x.2 - 1))
        (d2 := fun l a b => delta a b * (x.2 * ((x.2 - 1) * l a ^ (x.2 - 2))))
        (d_Lam hL hp x.2) a (d_dLam hL hp x.2 a)).const_mul (1 / x.2)).const_mul
          x.1) terms).add (d_vol2 p a L h t hL hp)
    refine deriv_conv this (fun s => ?_) ?_
    · simp only [potOGc, Pi.add_apply]
      congr 1
      clear this
      induction terms with
      | nil => simp
      | cons x xs ih =>
        have hx := h0 x (by simp)
        have ih := ih (fun y hy => h0 y (by simp [hy]))
        simp only [List.map_cons, List.sum_cons]
        rw [ih]
        congr 1
        field_simp
        ring
    · simp only [potOGc, add_mul, Finset.sum_add_distrib]
      congr 1
      clear this
      induction terms with
      | nil => simp
      | cons x xs ih =>
        have hx := h0 x (by simp)
        have ih := ih (fun y hy => h0 y (by simp [hy]))
        simp only [List.map_cons, List.sum_cons, add_mul, Finset.sum_add_distrib]
        rw [ih]
        congr 1
        have p0 := (hp 0).ne'
        have p1 := (hp 1).ne'
        have p2 := (hp 2).ne'
        have e2 : L t a ^ (-2 : ℝ) = 1 / (L t a * L t a) := by
          rw [Real.rpow_neg (hp a).le, Real.rpow_two]
          rw [one_div, sq]
        rw [e2]
        generalize Jsq (L t) ^ (-x.2 / 6) = J
        generalize Lam (L t) x.2 = Λ
        have pa := (hp a).ne'
        rcases fin3_cases a with rfl | rfl | rfl <;>
          simp only [Fin.sum_univ_three, delta, if_true,
            if_neg (show (0 : Fin 3) ≠ 1 by decide), if_neg (show (0 : Fin 3) ≠ 2 by decide),
            if_neg (show (1 : Fin 3) ≠ 0 by decide), if_neg (show (1 : Fin 3) ≠ 2 by decide),
            if_neg (show (2 : Fin 3) ≠ 0 by decide),
            if_neg (show (2 : Fin 3) ≠ 1 by decide)] <;>
          field_simp <;> ring

/-- Non-vacuity: a curve of positive stretches with non-zero velocity. -/
example : (∀ c, HasDerivAt (fun s : ℝ => (fun _ => 1 + s : Fin 3 → ℝ) c) 1 0) ∧
    ∀ c : Fin 3, 0 < (fun _ => 1 + (0 : ℝ) : Fin 3 → ℝ) c := by
  refine ⟨fun _ => ?_, fun _ => by norm_num⟩
  simpa using (hasDerivAt_id (0 : ℝ)).const_add 1

end Verif.Spectral
