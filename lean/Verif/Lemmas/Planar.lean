import Verif.Spec.Planar
import Verif.Lemmas.Hyper
import Verif.Lemmas.Tensor
import Verif.Lemmas.Linear

/-! # Lemmas on planar problems -/

set_option linter.unusedSimpArgs false

namespace Verif.Planar

open V3 Verif.Geometry Verif.Hyper

variable (J K U V : Jac) (h k g : Fin 3 → Fin 2 → ℝ)

theorem sheet_d11 : (sheet J h).d11 = lift (h 0) := rfl
theorem sheet_d22 : (sheet J h).d22 = lift (h 1) := rfl
theorem sheet_d12 : (sheet J h).d12 = lift (h 2) := rfl

theorem normal_sheet (hJ : jdet J ≠ 0) :
    ∃ ε : ℝ, ε * ε = 1 ∧ normal (sheet J h) = ⟨0, 0, ε⟩ ∧ (0 < jdet J → ε = 1) ∧
      (jdet J < 0 → ε = -1) := by
  have hc : V3.norm (cross ((sheet J h).a 0) ((sheet J h).a 1)) = |jdet J| := by
    simp only [V3.norm, dot, cross, sheet, lift]
    rw [← Real.sqrt_sq_eq_abs]
    congr 1
    simp [jdet]; ring
  have ha : |jdet J| ≠ 0 := abs_ne_zero.2 hJ
  refine ⟨1 / |jdet J| * jdet J, ?_, ?_, ?_, ?_⟩
  · have : |jdet J| * |jdet J| = jdet J * jdet J := abs_mul_abs_self _
    field_simp
    nlinarith [this]
  · rw [normal, normalized, hc]
    ext <;> simp [cross, sheet, lift, jdet]
  · intro hp
    rw [abs_of_pos hp]; field_simp
  · intro hn
    rw [abs_of_neg hn]; field_simp

theorem Acov_sheet : Acov (sheet J h) = AcovPlanar J := by
  funext i j
  simp [Acov, dot, sheet, lift, AcovPlanar]

theorem Bcov_sheet (hJ : jdet J ≠ 0) (i j : Fin 2) : Bcov (sheet J h) i j = 0 := by
  obtain ⟨ε, _, hn, _⟩ := normal_sheet J h hJ
  rcases fin2_cases i with rfl | rfl <;> rcases fin2_cases j with rfl | rfl <;>
    simp [Bcov, hn, sheet_d11, sheet_d22, sheet_d12, lift, dot]

theorem mixedB_sheet (hJ : jdet J ≠ 0) (i j : Fin 2) : mixedB (sheet J h) i j = 0 := by
  simp [mixedB, Bcov_sheet J h hJ]

theorem ncov_sheet (hJ : jdet J ≠ 0) (i : Fin 2) : ncov (sheet J h) i = 0 := by
  ext <;> simp [ncov, mixedB_sheet J h hJ]

theorem Gblock_sheet (hJ : jdet J ≠ 0) (z : ℝ) : Gblock (sheet J h) z = AcovPlanar J := by
  funext i j
  simp [Gblock, Bcov_sheet J h hJ, ncov_sheet J h hJ, Acov_sheet, dot]

theorem det2_planar : det2 (AcovPlanar J) = jdet J ^ 2 := by
  simp [det2, AcovPlanar, jdet]; ring

theorem inv3_embed (G : T2) (hG : det2 G ≠ 0) : inv3 (embed G) = embed (inv2 G) := by
  have hd : G 0 0 * G 1 1 - G 0 1 * G 1 0 ≠ 0 := hG
  funext i j
  rcases fin3_cases i with rfl | rfl | rfl <;> rcases fin3_cases j with rfl | rfl | rfl <;>
    simp [inv3, det3, embed, inv2, det2]
  exact hd

theorem det3_embed' (G : T2) : det3 (embed G) = det2 G := by simp [det3, embed, det2]

theorem GconPlanar_eq (hJ : jdet J ≠ 0) : GconPlanar J = embed (inv2 (AcovPlanar J)) :=
  inv3_embed _ (by rw [det2_planar]; exact pow_ne_zero 2 hJ)

theorem data_sheet (hJ : jdet J ≠ 0) (hK : jdet K ≠ 0) (z : ℝ) :
    Hyper.data (Gblock (sheet J h) z) (Gblock (sheet K k) z) = data J K := by
  rw [Gblock_sheet J h hJ, Gblock_sheet K k hK]
  simp only [Hyper.data, data, GconPlanar_eq J hJ, GconPlanar_eq K hK, det3_embed']

theorem mvec_sheet : ∃ m : ℝ, Variation.mvec (sheet J h) (sheet U g) = ⟨0, 0, m⟩ := by
  refine ⟨(Variation.mvec (sheet J h) (sheet U g)).z, ?_⟩
  ext <;> simp [Variation.mvec, cross, sheet, lift]

theorem var1_sheet (hJ : jdet J ≠ 0) : Variation.var1 (sheet J h) (sheet U g) = 0 := by
  obtain ⟨ε, he, hn, _⟩ := normal_sheet J h hJ
  obtain ⟨m, hm⟩ := mvec_sheet J U h g
  ext
  · simp [Variation.var1, hn, hm, dot]
  · simp [Variation.var1, hn, hm, dot]
  · simp only [Variation.var1, hn, hm, dot, V3.sub_z, V3.smul_z, V3.zero_z]
    linear_combination -m * he

theorem muv_sheet : ∃ m : ℝ, Variation.muv (sheet J h) (sheet U g) (sheet V k) = ⟨0, 0, m⟩ := by
  refine ⟨(Variation.muv (sheet J h) (sheet U g) (sheet V k)).z, ?_⟩
  ext <;> simp [Variation.muv, cross, sheet, lift]

theorem var2_sheet (hJ : jdet J ≠ 0) :
    Variation.var2 (sheet J h) (sheet U g) (sheet V k) = 0 := by
  obtain ⟨ε, he, hn, _⟩ := normal_sheet J h hJ
  obtain ⟨m, hm⟩ := mvec_sheet J U h g
  obtain ⟨m', hm'⟩ := mvec_sheet J V h k
  obtain ⟨q, hq⟩ := muv_sheet J U V h k g
  have hv := var1_sheet J V h k hJ
  ext
  · simp [Variation.var2, Variation.var2From, hn, hm, hm', hq, hv, dot]
  · simp [Variation.var2, Variation.var2From, hn, hm, hm', hq, hv, dot]
  · simp only [Variation.var2, Variation.var2From, hn, hm, hm', hq, hv, dot, V3.sub_z, V3.smul_z,
      V3.zero_z, V3.zero_x, V3.zero_y, V3.sub_x, V3.smul_x, V3.sub_y, V3.smul_y]
    linear_combination (-(q - (0 * 0 + 0 * 0 + ε * m') * m)) * he

theorem EfDer_sheet (hJ : jdet J ≠ 0) (c : Fin 3) :
    Variation.EfDer (sheet J h) (sheet U g) c = 0 := by
  obtain ⟨ε, _, hn, _⟩ := normal_sheet J h hJ
  rcases fin3_cases c with rfl | rfl | rfl <;>
    simp [Variation.EfDer, Variation.dbl3, Variation.deriv2dot, hn, var1_sheet J U h g hJ, dot,
      sheet_d11, sheet_d22, sheet_d12, lift]

theorem EfDer2_sheet (hJ : jdet J ≠ 0) (M : Voigt) :
    Variation.EfDer2 (sheet J h) (sheet U g) (sheet V k) M = 0 := by
  simp [Variation.EfDer2, Variation.flatdot2, Variation.var2deriv2, var1_sheet J U h g hJ,
    var1_sheet J V h k hJ, var2_sheet J U V h k g hJ, Variation.deriv2dot, Variation.dbl3, dotV,
    Fin.sum_univ_three, dot]

theorem EmDer_sheet : Variation.EmDer (sheet K k) (sheet U g) = EmDer K U := by
  funext c
  rcases fin3_cases c with rfl | rfl | rfl <;>
    simp [Variation.EmDer, EmDer, dot, dot2, sheet, lift]

theorem EmDer2_sheet (N : Voigt) : Variation.EmDer2 (sheet U g) (sheet V k) N = EmDer2 U V N := by
  simp [Variation.EmDer2, EmDer2, dot, dot2, sheet, lift]

/-- `Cconstant + 2 mu` is positive for admissible constants. -/
theorem modulus_pos (E ν : ℝ) (hE : 0 < E) (h1 : -1 < ν) (h2 : ν < 1 / 2) :
    0 < Linear.Cconst E ν + 2 * Linear.mu E ν := by
  have a1 : 0 < 1 + ν := by linarith
  have a3 : 0 < 1 - ν := by linarith
  rw [Linear.Cconst_eq E ν a1.ne' (by linarith) a3.ne']
  have hm : 0 < Linear.mu E ν := by unfold Linear.mu; positivity
  have e : 2 * Linear.mu E ν * (ν / (1 - ν)) + 2 * Linear.mu E ν = 2 * Linear.mu E ν / (1 - ν) := by
    field_simp; ring
  rw [e]
  positivity

/-- A positive symmetric matrix with `x² = (y/d)²`, … is the identity. -/
theorem inverse_eq (a b c d : ℝ) (hd : d = a * c - b * b) (hp : 0 < d) (ha : 0 < a) (hc : 0 < c)
    (g0 : a * a - c / d * (c / d) = 0) (g1 : c * c - a / d * (a / d) = 0)
    (g2 : a * b - c / d * (-b / d) = 0) : a = 1 ∧ c = 1 ∧ b = 0 := by
  have p0 : 0 < c / d := div_pos hc hp
  have p1 : 0 < a / d := div_pos ha hp
  have q0 : a = c / d := by
    have : (a - c / d) * (a + c / d) = 0 := by linear_combination g0
    rcases mul_eq_zero.1 this with h | h <;> linarith
  have q1 : c = a / d := by
    have : (c - a / d) * (c + a / d) = 0 := by linear_combination g1
    rcases mul_eq_zero.1 this with h | h <;> linarith
  have r0 : a * d = c := (eq_div_iff hp.ne').1 q0
  have r1 : c * d = a := (eq_div_iff hp.ne').1 q1
  have r2 : a * (d * d) = a * 1 := by linear_combination r1 + d * r0
  have r3 : d * d = 1 := mul_left_cancel₀ ha.ne' r2
  have r4 : d = 1 := by
    have : (d - 1) * (d + 1) = 0 := by linear_combination r3
    rcases mul_eq_zero.1 this with h | h <;> linarith
  rw [r4] at r0 g2
  have s0 : c = a := by linarith
  have s1 : b = 0 := by
    have : 2 * a * b = 0 := by rw [s0] at g2; linarith
    rcases mul_eq_zero.1 this with h0 | h0
    · linarith
    · exact h0
  have s2 : (a - 1) * (a + 1) = 0 := by rw [s1, s0, r4] at hd; linarith
  have s3 : a = 1 := by
    rcases mul_eq_zero.1 s2 with h | h <;> linarith
  exact ⟨s3, by rw [s0, s3], s1⟩

/-- The tangent of the linear material with a metric and with its inverse. -/
theorem matrix_inv_iff (E ν : ℝ) (hc : 0 < Linear.Cconst E ν + 2 * Linear.mu E ν) (A : T2)
    (hs : A 1 0 = A 0 1) (ha : 0 ≤ A 0 0) (hcc : 0 ≤ A 1 1) (hd : 0 < det2 A) :
    Linear.matrix E ν A = Linear.matrix E ν (inv2 A) ↔ (A 0 0 = 1 ∧ A 1 1 = 1 ∧ A 0 1 = 0) := by
  have hdet : det2 A = A 0 0 * A 1 1 - A 0 1 * A 0 1 := by rw [det2, hs]
  have hp : 0 < A 0 0 * A 1 1 := by nlinarith [mul_self_nonneg (A 0 1)]
  have ha' : 0 < A 0 0 := lt_of_le_of_ne ha (fun h => by rw [← h] at hp; simp at hp)
  have hc' : 0 < A 1 1 := lt_of_le_of_ne hcc (fun h => by rw [← h] at hp; simp at hp)
  constructor
  · intro he
    have e0 := congrFun (congrFun he 0) 0
    have e1 := congrFun (congrFun he 1) 1
    have e2 := congrFun (congrFun he 0) 2
    simp only [Linear.matrix, mk3_zero, mk3_one, vec3_zero, vec3_one, vec3_two, Linear.Cval]
      at e0 e1 e2
    have i00 : inv2 A 0 0 = A 1 1 / det2 A := rfl
    have i11 : inv2 A 1 1 = A 0 0 / det2 A := rfl
    have i01 : inv2 A 0 1 = -(A 0 1) / det2 A := rfl
    rw [i00] at e0 e2
    rw [i11] at e1
    rw [i01] at e2
    have f0 : (Linear.Cconst E ν + 2 * Linear.mu E ν)
        * (A 0 0 * A 0 0 - A 1 1 / det2 A * (A 1 1 / det2 A)) = 0 := by linear_combination e0
    have f1 : (Linear.Cconst E ν + 2 * Linear.mu E ν)
        * (A 1 1 * A 1 1 - A 0 0 / det2 A * (A 0 0 / det2 A)) = 0 := by linear_combination e1
    have f2 : (Linear.Cconst E ν + 2 * Linear.mu E ν)
        * (A 0 0 * A 0 1 - A 1 1 / det2 A * (-(A 0 1) / det2 A)) = 0 := by linear_combination e2
    exact inverse_eq _ _ _ _ hdet hd ha' hc' ((mul_eq_zero.1 f0).resolve_left hc.ne')
      ((mul_eq_zero.1 f1).resolve_left hc.ne') ((mul_eq_zero.1 f2).resolve_left hc.ne')
  · rintro ⟨a0, a1, a2⟩
    have a3 : A 1 0 = 0 := by rw [hs, a2]
    have hI : inv2 A = A := by
      funext i j
      rcases fin2_cases i with rfl | rfl <;> rcases fin2_cases j with rfl | rfl <;>
        simp [inv2, det2, a0, a1, a2, a3]
    rw [hI]

end Verif.Planar
