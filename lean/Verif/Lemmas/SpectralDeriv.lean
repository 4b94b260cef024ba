import Verif.Model.Spectral
import Verif.Spec.Spectral
import Verif.Lemmas.Hyper
import Mathlib.Analysis.SpecialFunctions.Log.Deriv

/-! # Helper lemmas: derivatives of the stretch energies -/

set_option linter.unusedSimpArgs false

namespace Verif.Spectral

open Verif.Hyper Spec.Spectral

section
variable {L : ℝ → Fin 3 → ℝ} {h : Fin 3 → ℝ} {t : ℝ}

theorem d_I1 (hL : ∀ c, HasDerivAt (fun s => L s c) (h c) t) :
    HasDerivAt (fun s => I1 (L s))
      (2 * (L t 0 * h 0 + L t 1 * h 1 + L t 2 * h 2)) t := by
  have := (((hL 0).mul (hL 0)).add ((hL 1).mul (hL 1))).add ((hL 2).mul (hL 2))
  refine deriv_conv this (fun s => ?_) ?_
  · simp only [I1, Pi.add_apply, Pi.mul_apply]
  · ring

theorem d_sq (hL : ∀ c, HasDerivAt (fun s => L s c) (h c) t) (c : Fin 3) :
    HasDerivAt (fun s => L s c ^ 2) (2 * L t c * h c) t := by
  refine deriv_conv ((hL c).mul (hL c)) (fun s => ?_) ?_
  · simp only [Pi.mul_apply]; ring
  · ring

theorem d_I2 (hL : ∀ c, HasDerivAt (fun s => L s c) (h c) t) :
    HasDerivAt (fun s => I2 (L s))
      (dI2 (L t) 0 * h 0 + dI2 (L t) 1 * h 1 + dI2 (L t) 2 * h 2) t := by
  have := (((d_sq hL 0).mul (d_sq hL 1)).add ((d_sq hL 1).mul (d_sq hL 2))).add
    ((d_sq hL 0).mul (d_sq hL 2))
  refine deriv_conv this (fun s => ?_) ?_
  · simp only [I2, Pi.add_apply, Pi.mul_apply]
  · simp only [dI2, I1]; ring

theorem d_Jsq (hL : ∀ c, HasDerivAt (fun s => L s c) (h c) t) (hp : ∀ c, 0 < L t c) :
    HasDerivAt (fun s => Jsq (L s))
      (2 * Jsq (L t) * (h 0 / L t 0 + h 1 / L t 1 + h 2 / L t 2)) t := by
  have h1 := ((hL 0).mul (hL 1)).mul (hL 2)
  have p0 := (hp 0).ne'
  have p1 := (hp 1).ne'
  have p2 := (hp 2).ne'
  refine deriv_conv (h1.mul h1) (fun s => ?_) ?_
  · simp only [Jsq, Pi.mul_apply]; ring
  · simp only [Jsq, Pi.mul_apply]; field_simp; ring

theorem Jsq_pos {l : Stretch} (hp : ∀ c, 0 < l c) : 0 < Jsq l := by
  have := hp 0; have := hp 1; have := hp 2
  unfold Jsq; positivity

theorem d_Jpow (hL : ∀ c, HasDerivAt (fun s => L s c) (h c) t) (hp : ∀ c, 0 < L t c) (al : ℝ) :
    HasDerivAt (fun s => Jsq (L s) ^ al)
      (2 * al * Jsq (L t) ^ al * (h 0 / L t 0 + h 1 / L t 1 + h 2 / L t 2)) t := by
  have hJ := Jsq_pos hp
  refine (hasDerivAt_rpow_const al (d_Jsq hL hp) hJ).congr_deriv ?_
  field_simp

theorem d_log (hL : ∀ c, HasDerivAt (fun s => L s c) (h c) t) (hp : ∀ c, 0 < L t c) :
    HasDerivAt (fun s => Real.log (Jsq (L s)))
      (2 * (h 0 / L t 0 + h 1 / L t 1 + h 2 / L t 2)) t := by
  have hJ := Jsq_pos hp
  refine ((d_Jsq hL hp).log hJ.ne').congr_deriv ?_
  field_simp

theorem d_inv (hL : ∀ c, HasDerivAt (fun s => L s c) (h c) t) (hp : ∀ c, 0 < L t c) (a : Fin 3) :
    HasDerivAt (fun s => 1 / L s a) (-h a / L t a ^ 2) t := by
  refine deriv_conv ((hL a).inv (hp a).ne') (fun s => ?_) rfl
  simp

theorem d_pow (hL : ∀ c, HasDerivAt (fun s => L s c) (h c) t) (hp : ∀ c, 0 < L t c) (a : Fin 3)
    (al : ℝ) : HasDerivAt (fun s => L s a ^ al) (al * L t a ^ (al - 1) * h a) t := by
  refine ((hL a).rpow_const (p := al) (Or.inl (hp a).ne')).congr_deriv ?_
  ring

/-- Sums over lists. -/
theorem d_list {ι : Type} (f : ι → ℝ → ℝ) (f' : ι → ℝ) (hf : ∀ i, HasDerivAt (f i) (f' i) t)
    (ts : List ι) :
    HasDerivAt (fun s => (ts.map fun i => f i s).sum) ((ts.map f').sum) t := by
  induction ts with
  | nil => simpa using hasDerivAt_const t (0 : ℝ)
  | cons i ts ih =>
    refine deriv_conv ((hf i).add ih) (fun s => ?_) ?_
    · simp only [List.map_cons, List.sum_cons, Pi.add_apply]
    · simp only [List.map_cons, List.sum_cons]

theorem inv1_eq (l : Stretch) : invI l = I1 l := by simp only [invI, I1]; ring
theorem inv2_eq (l : Stretch) : invII l = I2 l := by simp only [invII, I2]; ring
theorem inv3_eq (l : Stretch) : invIII l = Jsq l := by simp only [invIII, Jsq]

theorem d_vol (p : Par) : IsGradient (energyVol p.K) (vol1 p) := by
  intro L h t hL hp
  have p0 := (hp 0).ne'
  have p1 := (hp 1).ne'
  have p2 := (hp 2).ne'
  refine deriv_conv ((((d_Jsq hL hp).sub_const 1).sub (d_log hL hp)).const_mul (p.K / 4))
    (fun s => ?_) ?_
  · simp only [energyVol, inv3_eq, Pi.sub_apply]
  · simp only [vol1, Fin.sum_univ_three]; field_simp; ring

theorem d_vol2 (p : Par) : IsJacobian (vol1 p) (vol2 p) := by
  intro a L h t hL hp
  have p0 := (hp 0).ne'
  have p1 := (hp 1).ne'
  have p2 := (hp 2).ne'
  refine deriv_conv (((d_inv hL hp a).const_mul (p.K / -2)).mul ((d_Jsq hL hp).const_sub 1))
    (fun s => ?_) ?_
  · simp only [vol1, Pi.mul_apply]
    by_cases h0 : L s a = 0
    · simp [h0]
    · field_simp
  · rcases fin3_cases a with rfl | rfl | rfl <;>
      simp only [vol2, Fin.sum_univ_three, delta] <;> simp <;> field_simp <;> ring

end

end Verif.Spectral
