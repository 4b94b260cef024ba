import Verif.Model.BucklingTable
import Verif.Lemmas.ModalProgram
import Verif.Props.DWREigen

/-! # Helper lemmas: the table of the buckling example -/

namespace Verif.BucklingTable

open Verif.Geometry Verif.Variation Verif.DWR Verif.ModalProgram RealInnerProductSpace Spec.ModalProgram

variable {α : Type} {n N : ℕ} {D : EigSetup α}

theorem em2_part_left {J : Type} [Fintype J] (c : J → ℝ) (u : J → Surf) (v : Surf) (F : Voigt) :
    EmDer2 (part Finset.univ c u) v F = ∑ i, c i * EmDer2 (u i) v F := by
  simp only [EmDer2, part, V3.dot, Balance.vsum, V3.smul_x, V3.smul_y, V3.smul_z, Finset.sum_mul, mul_add,
    Finset.sum_add_distrib, add_mul, mul_assoc]

theorem em2_symm (u v : Surf) (F : Voigt) : EmDer2 u v F = EmDer2 v u F := by
  simp only [EmDer2, V3.dot]; ring

theorem em2_part_right {J : Type} [Fintype J] (c : J → ℝ) (u : J → Surf) (v : Surf) (F : Voigt) :
    EmDer2 v (part Finset.univ c u) F = ∑ i, c i * EmDer2 v (u i) F := by
  rw [em2_symm, em2_part_left]
  exact Finset.sum_congr rfl fun i _ => by rw [em2_symm]

theorem formT_left (hD : FlatState D) (φ : Fin n → α → EigFld) (c : EuclideanSpace ℝ (Fin n)) (u : α → EigFld) :
    formT D (comb φ c) u = ∑ i, c i * formT D (φ i) u := by
  rw [formT]
  simp only [formT]
  rw [← total_sum]
  congr 1
  funext q
  simp only [(hD q).2.2, stiffness_flat, mul_add, Finset.sum_add_distrib]
  congr 1
  · exact lin_part_left (fun i => c i) (fun i => (φ i q).d) _ _ _ _ _ _
  · exact em2_part_left (fun i => c i) (fun i => (φ i q).d) _ _

theorem formT_right (hD : FlatState D) (φ : Fin n → α → EigFld) (c : EuclideanSpace ℝ (Fin n)) (u : α → EigFld) :
    formT D u (comb φ c) = ∑ i, c i * formT D u (φ i) := by
  rw [formT]
  simp only [formT]
  rw [← total_sum]
  congr 1
  funext q
  simp only [(hD q).2.2, stiffness_flat, mul_add, Finset.sum_add_distrib]
  congr 1
  · exact lin_part_right (fun i => c i) (fun i => (φ i q).d) _ _ _ _ _ _
  · exact em2_part_right (fun i => c i) (fun i => (φ i q).d) _ _

theorem tang_form (hD : FlatState D) (φ : Fin n → α → EigFld) (c d : EuclideanSpace ℝ (Fin n)) :
    ⟪tang D φ c, d⟫ = formT D (comb φ d) (comb φ c) := by
  rw [formT_left hD]
  simp only [formT_right hD, PiLp.inner_apply, tang, LoadedShell.ofEntries_apply, ModalProgram.integral_eq]
  refine Finset.sum_congr rfl fun i _ => ?_
  simp only [RCLike.inner_apply, conj_trivial, Finset.mul_sum]
  exact Finset.sum_congr rfl fun j _ => by rw [formT]; ring

theorem diff_form (hD : FlatState D) (φ : Fin n → α → EigFld) (c d : EuclideanSpace ℝ (Fin n)) :
    ⟪(tang D φ - stiff D φ) c, d⟫ = formT D (comb φ d) (comb φ c) - formA D (comb φ d) (comb φ c) := by
  rw [sub_apply, inner_sub_left, tang_form hD, stiff_form]

theorem norm_form (hD : FlatState D) (u z : α → EigFld) : normBuckling D u z = formT D z u - formA D z u := by
  rw [formT, formA, ← eigTotal_sub, normBuckling, sum_flatten, eigTotal]
  congr 1
  refine List.map_congr_left fun q _ => ?_
  obtain ⟨h1, h2, h3⟩ := hD q
  simp only [KNL, KL, EfMinus_flat _ _ h1, EfMinus_flat _ _ h2, matPart_lin, EmDer_EmDer2, h3, stiffness_flat, Ef2,
    dotV_zero, neg_zero, add_zero, measure_area]
  ring

/-- The row in terms of the matrices of the finer basis. -/
theorem row_eq (hD : FlatState D) {ψ : Fin n → α → EigFld} {φ : Fin N → α → EigFld}
    {J : EuclideanSpace ℝ (Fin n) →ₗ[ℝ] EuclideanSpace ℝ (Fin N)} (hJ : ∀ c, comb ψ c = comb φ (J c))
    (vL : EuclideanSpace ℝ (Fin n)) (lL : ℝ) (vH : EuclideanSpace ℝ (Fin N)) (lH : ℝ) :
    ((⟪(tang D φ - stiff D φ) (J vL), J vL⟫ = 0 ∨ ⟪(tang D φ - stiff D φ) (J vL), vH⟫ = 0) →
      row D ψ φ vL lL vH lH = none) ∧
    (⟪(tang D φ - stiff D φ) (J vL), J vL⟫ ≠ 0 → ⟪(tang D φ - stiff D φ) (J vL), vH⟫ ≠ 0 →
      ∀ e, e = ⟪stiff D φ (J vL), vH⟫ / ⟪(tang D φ - stiff D φ) (J vL), vH⟫
        - ⟪stiff D φ (J vL), J vL⟫ / ⟪(tang D φ - stiff D φ) (J vL), J vL⟫
        + (lH - lL) * (1 / ⟪(tang D φ - stiff D φ) (J vL), J vL⟫ - 1) →
      row D ψ φ vL lL vH lH = some ⟨lL, e, lL + e⟩) := by
  have hn : ∀ c d, normBuckling D (comb φ c) (comb φ d) = ⟪(tang D φ - stiff D φ) c, d⟫ := fun c d => by
    rw [norm_form hD, diff_form hD]
  set G := tang D φ - stiff D φ with hG
  constructor
  · intro h
    simp only [row, hJ, hn, map_smul, real_inner_smul_left]
    rcases h with h | h
    · rw [if_pos h]
    · simp [h]
  · intro hb hc e he
    have hE : ∀ c d d' : EuclideanSpace ℝ (Fin N),
        (eigEstimate .total .buckling lL lL lH D (comb φ c) (comb φ d) (comb φ d') ⟨0, []⟩).error
          = (⟪stiff D φ c, d'⟫ - lL * ⟪G c, d'⟫) - (⟪stiff D φ c, d⟫ - lL * ⟪G c, d⟫)
            + (lH - lL) * (⟪G c, c⟫ - 1) := fun c d d' => by
      rw [C100_flat_partial D hD, hG, diff_form hD, diff_form hD, diff_form hD, stiff_form, stiff_form]
    simp only [row, hJ, hn, hE, map_smul, real_inner_smul_left, real_inner_smul_right]
    have h1 : 1 / ⟪G (J vL), J vL⟫ * ⟪G (J vL), J vL⟫ = 1 := one_div_mul_cancel hb
    have h2 : 1 / ⟪G (J vL), J vL⟫ * ⟪G (J vL), vH⟫ ≠ 0 := mul_ne_zero (one_div_ne_zero hb) hc
    rw [if_neg hb, h1, if_neg one_ne_zero, if_neg h2]
    have : ∀ x, x = e → (some ⟨lL, x, lL + x⟩ : Option Row) = some ⟨lL, e, lL + e⟩ := by rintro _ rfl; rfl
    refine this _ ?_
    rw [he]
    field_simp
    ring

end Verif.BucklingTable
