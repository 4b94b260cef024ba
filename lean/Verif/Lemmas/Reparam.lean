import Verif.Spec.Reparam
import Verif.Lemmas.ShellTangent
import Verif.Props.Linear
import Verif.Model.Newton
import Verif.Lemmas.Boundary

/-! # Helper lemmas: change of parameters -/

set_option linter.unusedSimpArgs false

namespace Verif.Reparam

open V3 Verif.Geometry Verif.Hyper Verif.Integrate Verif.Variation Verif.ShellTangent
open Spec.Reparam Spec.ShellTangent Spec.Hyper

theorem co_eq (P M : T2) : co P M = Linear.congr P M := by
  funext i j
  simp only [co, Linear.congr, Fin.sum_univ_two]; ring

theorem det_co (P M : T2) : det2 (co P M) = det2 P ^ 2 * det2 M := by
  simp only [co_eq]; simp [det2, Linear.congr]; ring

theorem inv_co (P M : T2) (hP : det2 P ≠ 0) (i j : Fin 2) :
    inv2 (co P M) i j = contra P (inv2 M) i j := by
  by_cases hM : det2 M = 0
  · have h : det2 (co P M) = 0 := by rw [det_co, hM, mul_zero]
    have e : ∀ X : T2, det2 X = 0 → ∀ i j, inv2 X i j = 0 := by
      intro X hX i j
      rcases fin2_cases i with rfl | rfl <;> rcases fin2_cases j with rfl | rfl <;>
        simp [inv2, hX]
    rw [e _ h]
    simp [contra, e _ hM]
  · have h := det_co P M
    have hd : det2 P ^ 2 * det2 M ≠ 0 := mul_ne_zero (pow_ne_zero 2 hP) hM
    rcases fin2_cases i with rfl | rfl <;> rcases fin2_cases j with rfl | rfl <;>
      simp only [contra, Fin.sum_univ_two, inv2, h, Matrix.cons_val_zero, Matrix.cons_val_one,
        co] <;> field_simp <;> ring

theorem contra_co (P S M : T2) (hP : det2 P ≠ 0) :
    ∑ i, ∑ j, contra P S i j * co P M i j = ∑ i, ∑ j, S i j * M i j := by
  simp only [contra, co, Fin.sum_univ_two, inv2, Matrix.cons_val_zero, Matrix.cons_val_one]
  field_simp
  simp only [det2]
  ring

/-- Pairing with vectors. -/
theorem contra_vec (P S : T2) (hP : det2 P ≠ 0) (x y : Fin 2 → ℝ) :
    ∑ a, ∑ b, contra P S a b * (P a 0 * x 0 + P a 1 * x 1) * (P b 0 * y 0 + P b 1 * y 1)
      = ∑ a, ∑ b, S a b * x a * y b := by
  simp only [contra, Fin.sum_univ_two, inv2, Matrix.cons_val_zero, Matrix.cons_val_one]
  field_simp
  simp only [det2]
  ring

/-! ## Metric members -/

theorem J0_co (P A C : T2) (hP : det2 P ≠ 0) :
    (data (co P A) (co P C)).J0 = (data A C).J0 := by
  simp only [data, det_co]
  exact mul_div_mul_left _ _ (pow_ne_zero 2 hP)

theorem Gori_co (P A C : T2) (hP : det2 P ≠ 0) (i j : Fin 2) :
    (data (co P A) (co P C)).Gori (up i) (up j)
      = contra P (fun a b => (data A C).Gori (up a) (up b)) i j := by
  simp only [data, embed_up]; exact inv_co P A hP i j

theorem gcon_co (P A C : T2) (hP : det2 P ≠ 0) (i j : Fin 2) :
    (data (co P A) (co P C)).gcon (up i) (up j)
      = contra P (fun a b => (data A C).gcon (up a) (up b)) i j := by
  simp only [data, embed_up]; exact inv_co P C hP i j

theorem trace_co (P A C : T2) (hP : det2 P ≠ 0) :
    traceCt (data (co P A) (co P C)) = traceCt (data A C) := by
  have h := contra_co P (inv2 A) C hP
  have e : ∀ A C : T2, traceCt (data A C) = ∑ i, ∑ j, inv2 A i j * C i j := by
    intro A C
    simp only [traceCt, data, embed_00, embed_01, embed_10, embed_11, Fin.sum_univ_two]; ring
  rw [e, e, ← h]
  simp only [inv_co P A hP]

theorem cinv_co (P A C : T2) (x : ℝ) (hP : det2 P ≠ 0) (i j : Fin 2) :
    (cdata (data (co P A) (co P C)) x).cinv (up i) (up j)
      = contra P (fun a b => (cdata (data A C) x).cinv (up a) (up b)) i j := by
  simp only [cdata, withT_up]; exact gcon_co P A C hP i j

theorem cGori_co (P A C : T2) (x : ℝ) (hP : det2 P ≠ 0) (i j : Fin 2) :
    (cdata (data (co P A) (co P C)) x).D.Gori (up i) (up j)
      = contra P (fun a b => (cdata (data A C) x).D.Gori (up a) (up b)) i j :=
  Gori_co P A C hP i j

theorem J_co (P A C : T2) (x : ℝ) (hP : det2 P ≠ 0) :
    (cdata (data (co P A) (co P C)) x).J = (cdata (data A C) x).J := by
  simp only [cdata, J0_co P A C hP]

theorem cJ0_co (P A C : T2) (x : ℝ) (hP : det2 P ≠ 0) :
    (cdata (data (co P A) (co P C)) x).D.J0 = (cdata (data A C) x).D.J0 := J0_co P A C hP

theorem c22_co (D : Data) (x : ℝ) : (cdata D x).c 2 2 = x := rfl

theorem cinv22_co (D : Data) (x : ℝ) : (cdata D x).cinv 2 2 = 1 / x := rfl

theorem cinvi2_co (D : Data) (x : ℝ) (i : Fin 2) : (cdata D x).cinv (up i) 2 = 0 :=
  withT_up_two D.gcon (1 / x) i

theorem cinv2i_co (D : Data) (x : ℝ) (i : Fin 2) : (cdata D x).cinv 2 (up i) = 0 :=
  withT_two_up D.gcon (1 / x) i

theorem Gori22_co (A C : T2) (x : ℝ) : (cdata (data A C) x).D.Gori 2 2 = 1 := rfl

theorem Gorii2_co (A C : T2) (x : ℝ) (i : Fin 2) : (cdata (data A C) x).D.Gori (up i) 2 = 0 :=
  embed_up_two (inv2 A) i

theorem Gori2i_co (A C : T2) (x : ℝ) (i : Fin 2) : (cdata (data A C) x).D.Gori 2 (up i) = 0 :=
  embed_two_up (inv2 A) i

theorem I1_co (P A C : T2) (x : ℝ) (hP : det2 P ≠ 0) :
    I1 (cdata (data (co P A) (co P C)) x) = I1 (cdata (data A C) x) := by
  have h := trace_co P A C hP
  simp only [I1, c22_co]; simp only [cdata, h]

theorem ctrace_co (P A C : T2) (x : ℝ) (hP : det2 P ≠ 0) :
    traceCt (cdata (data (co P A) (co P C)) x).D = traceCt (cdata (data A C) x).D :=
  trace_co P A C hP

theorem I2_co (P A C : T2) (x : ℝ) (hP : det2 P ≠ 0) :
    I2 (cdata (data (co P A) (co P C)) x) = I2 (cdata (data A C) x) := by
  simp only [I2, c22_co, ctrace_co P A C x hP, cJ0_co P A C x hP]

/-- A stress law whose in-plane part is contravariant and whose thickness component is invariant. -/
def Stress3 (P : T2) (S' S : Fin 3 → Fin 3 → ℝ) : Prop :=
  (∀ i j, S' (up i) (up j) = contra P (fun a b => S (up a) (up b)) i j) ∧ S' 2 2 = S 2 2

/-- A three-dimensional tangent likewise. -/
def Tangent3 (P : T2) (T' T : Fin 3 → Fin 3 → Fin 3 → Fin 3 → ℝ) : Prop :=
  (∀ i j k l, T' (up i) (up j) (up k) (up l)
    = contra4 P (fun a b c d => T (up a) (up b) (up c) (up d)) i j k l) ∧
  (∀ i j, T' (up i) (up j) 2 2 = contra P (fun a b => T (up a) (up b) 2 2) i j) ∧
  (∀ i j, T' 2 2 (up i) (up j) = contra P (fun a b => T 2 2 (up a) (up b)) i j) ∧
  T' 2 2 2 2 = T 2 2 2 2

section laws
variable (p : Par) (P A C : T2) (x : ℝ) (hP : det2 P ≠ 0)
include hP

theorem sNHc_co :
    Stress3 P (sNHc p (cdata (data (co P A) (co P C)) x)) (sNHc p (cdata (data A C) x)) := by
  refine ⟨fun i j => ?_, ?_⟩
  · simp only [sNHc, J_co P A C x hP, I1_co P A C x hP, cGori_co P A C x hP, cinv_co P A C x hP,
      contra, Fin.sum_univ_two]
    ring
  · simp only [sNHc, J_co P A C x hP, I1_co P A C x hP, Gori22_co, cinv22_co]

theorem sMRc_co :
    Stress3 P (sMRc p (cdata (data (co P A) (co P C)) x)) (sMRc p (cdata (data A C) x)) := by
  refine ⟨fun i j => ?_, ?_⟩
  · simp only [sMRc, J_co P A C x hP, I1_co P A C x hP, I2_co P A C x hP, dI2, dI1, delta_up,
      idelta_up, c22_co, cJ0_co P A C x hP, cGori_co P A C x hP, cinv_co P A C x hP,
      contra, Fin.sum_univ_two]
    ring
  · simp only [sMRc, J_co P A C x hP, I1_co P A C x hP, I2_co P A C x hP, dI2, dI1, delta_two,
      idelta_two, ctrace_co P A C x hP, Gori22_co, cinv22_co, c22_co, cJ0_co P A C x hP]

theorem sNHe_co :
    Stress3 P (sNHe p (cdata (data (co P A) (co P C)) x)) (sNHe p (cdata (data A C) x)) := by
  refine ⟨fun i j => ?_, ?_⟩
  · simp only [sNHe, J_co P A C x hP, cGori_co P A C x hP, cinv_co P A C x hP, contra,
      Fin.sum_univ_two]
    ring
  · simp only [sNHe, J_co P A C x hP, Gori22_co, cinv22_co]

theorem cNHc_co :
    Tangent3 P (cNHc p (cdata (data (co P A) (co P C)) x)) (cNHc p (cdata (data A C) x)) := by
  refine ⟨fun i j k l => ?_, fun i j => ?_, fun i j => ?_, ?_⟩ <;>
    simp only [cNHc, dCinv, J_co P A C x hP, I1_co P A C x hP, cGori_co P A C x hP,
      cinv_co P A C x hP, Gori22_co, cinv22_co, cinvi2_co, cinv2i_co, Gorii2_co, Gori2i_co,
      contra, contra4, Fin.sum_univ_two] <;> ring

theorem cMRc_co :
    Tangent3 P (cMRc p (cdata (data (co P A) (co P C)) x)) (cMRc p (cdata (data A C) x)) := by
  refine ⟨fun i j k l => ?_, fun i j => ?_, fun i j => ?_, ?_⟩ <;>
    simp only [cMRc, dCinv, d2I2, dI2, dI1, delta_up, idelta_up, delta_two, idelta_two, c22_co,
      J_co P A C x hP, cJ0_co P A C x hP, ctrace_co P A C x hP, I1_co P A C x hP,
      I2_co P A C x hP, cGori_co P A C x hP,
      cinv_co P A C x hP, Gori22_co, cinv22_co, cinvi2_co, cinv2i_co, Gorii2_co, Gori2i_co,
      contra, contra4, Fin.sum_univ_two] <;> ring

theorem cNHe_co :
    Tangent3 P (cNHe p (cdata (data (co P A) (co P C)) x)) (cNHe p (cdata (data A C) x)) := by
  refine ⟨fun i j k l => ?_, fun i j => ?_, fun i j => ?_, ?_⟩ <;>
    simp only [cNHe, dCinv, J_co P A C x hP, cinv_co P A C x hP, cinv22_co, cinvi2_co, cinv2i_co,
      contra, contra4, Fin.sum_univ_two] <;> ring

end laws

/-- Static condensation keeps the transformation. -/
theorem condense_co (P : T2) (T' T : Fin 3 → Fin 3 → Fin 3 → Fin 3 → ℝ) (h : Tangent3 P T' T)
    (i j k l : Fin 2) : condense T' (up i) (up j) (up k) (up l)
      = contra4 P (fun a b c d => condense T (up a) (up b) (up c) (up d)) i j k l := by
  obtain ⟨h1, h2, h3, h4⟩ := h
  simp only [condense, h1, h2, h3, h4, contra, contra4, Fin.sum_univ_two]
  ring

/-- The same thickness stretch is found. -/
theorem c33_co (P A C : T2) (hP : det2 P ≠ 0) (s : CData → Fin 3 → Fin 3 → ℝ)
    (t : CData → Fin 3 → Fin 3 → Fin 3 → Fin 3 → ℝ)
    (hs : ∀ x, Stress3 P (s (cdata (data (co P A) (co P C)) x)) (s (cdata (data A C) x)))
    (ht : ∀ x, Tangent3 P (t (cdata (data (co P A) (co P C)) x)) (t (cdata (data A C) x))) :
    Newton.c33Of s t (data (co P A) (co P C)) = Newton.c33Of s t (data A C) := by
  have h1 : (fun c => s (cdata (data (co P A) (co P C)) c) 2 2)
      = fun c => s (cdata (data A C) c) 2 2 := funext fun c => (hs c).2
  have h2 : (fun c => t (cdata (data (co P A) (co P C)) c) 2 2 2 2)
      = fun c => t (cdata (data A C) c) 2 2 2 2 := funext fun c => (ht c).2.2.2
  simp only [Newton.c33Of, h1, h2, J0_co P A C hP]

/-! ## Surfaces -/

/-- Third fundamental form by the second one. -/
theorem third_eq (s : Surf) (i j : Fin 2) : dot (ncov s i) (ncov s j)
    = ∑ a, ∑ b, Acon s a b * Bcov s a i * Bcov s b j := by
  have hs := Acov_symm s 0 1
  have hA : ∀ a b, dot (s.a a) (s.a b) = Acov s a b := fun _ _ => rfl
  have h0 : dot (ncov s i) (ncov s j) = ∑ a, ∑ b, mixedB s a i * mixedB s b j * Acov s a b := by
    simp only [ncov, dot_sub_left, dot_sub_right, dot_smul_left, dot_smul_right, hA,
      Fin.sum_univ_two]
    ring
  have hB := Bcov_symm s 0 1
  rw [h0]
  by_cases hd : det2 (Acov s) = 0
  · have e : ∀ i j, Acon s i j = 0 := by
      intro i j
      rcases fin2_cases i with rfl | rfl <;> rcases fin2_cases j with rfl | rfl <;>
        simp [Acon, inv2, hd]
    simp [mixedB, e]
  · have c00 : Acon s 0 0 = Acov s 1 1 / det2 (Acov s) := rfl
    have c01 : Acon s 0 1 = -Acov s 0 1 / det2 (Acov s) := rfl
    have c10 : Acon s 1 0 = -Acov s 1 0 / det2 (Acov s) := rfl
    have c11 : Acon s 1 1 = Acov s 0 0 / det2 (Acov s) := rfl
    simp only [mixedB, Fin.sum_univ_two, c00, c01, c10, c11, ← hs]
    field_simp
    simp only [det2, ← hs]
    ring

variable (P : T2) (g1 g2 g3 : Fin 2 → ℝ)

theorem sign_pos (hP : 0 < det2 P) : det2 P / |det2 P| = 1 := by
  rw [abs_of_pos hP, div_self hP.ne']

theorem third_co (hP : 0 < det2 P) (s : Surf) (i j : Fin 2) :
    dot (ncov (Linear.reparam P g1 g2 g3 s) i) (ncov (Linear.reparam P g1 g2 g3 s) j)
      = co P (fun a b => dot (ncov s a) (ncov s b)) i j := by
  have hA : ∀ a b, Acon (Linear.reparam P g1 g2 g3 s) a b = contra P (Acon s) a b := by
    intro a b
    simp only [Acon, Linear.Acov_reparam, ← co_eq]
    exact inv_co P (Acov s) hP.ne' a b
  have hB : ∀ a i, Bcov (Linear.reparam P g1 g2 g3 s) a i
      = P a 0 * (P i 0 * Bcov s 0 0 + P i 1 * Bcov s 0 1)
        + P a 1 * (P i 0 * Bcov s 1 0 + P i 1 * Bcov s 1 1) := by
    intro a i
    rw [Linear.Bcov_reparam, sign_pos P hP]
    simp only [Linear.congr]; ring
  rw [third_eq]
  simp only [hA, hB]
  have h := contra_vec P (Acon s) hP.ne' (fun c => P i 0 * Bcov s c 0 + P i 1 * Bcov s c 1)
    (fun c => P j 0 * Bcov s c 0 + P j 1 * Bcov s c 1)
  rw [h]
  simp only [co, third_eq, Fin.sum_univ_two]
  ring

theorem Gblock_co (hP : 0 < det2 P) (s : Surf) (z : ℝ) :
    Gblock (Linear.reparam P g1 g2 g3 s) z = co P (Gblock s z) := by
  funext i j
  have h1 : Acov (Linear.reparam P g1 g2 g3 s) i j = Linear.congr P (Acov s) i j := by
    rw [Linear.Acov_reparam]
  have h2 := Linear.Bcov_reparam P g1 g2 g3 s i j
  rw [sign_pos P hP, one_mul] at h2
  have h3 := third_co P g1 g2 g3 hP s i j
  have hG : ∀ s : Surf, ∀ i j, Gblock s z i j
      = Acov s i j - 2 * z * Bcov s i j + z * z * dot (ncov s i) (ncov s j) := fun _ _ _ => rfl
  rw [hG, h1, h2, h3]
  simp only [co, Linear.congr, hG, Fin.sum_univ_two]
  ring

theorem shift_co (s v : Surf) (τ : ℝ) :
    shift (Linear.reparam P g1 g2 g3 s) (Linear.reparam P g1 g2 g3 v) τ
      = Linear.reparam P g1 g2 g3 (shift s v τ) := by
  simp only [shift, Linear.reparam]
  congr 1
  · funext i; ext <;> simp <;> ring
  all_goals ext <;> simp <;> ring

theorem normal_co (hP : 0 < det2 P) (s : Surf) :
    normal (Linear.reparam P g1 g2 g3 s) = normal s := by
  rw [Linear.normal_reparam, sign_pos P hP]
  ext <;> simp

theorem indep_co (hP : det2 P ≠ 0) (s : Surf) (h : Indep (s.a 0) (s.a 1)) :
    Indep ((Linear.reparam P g1 g2 g3 s).a 0) ((Linear.reparam P g1 g2 g3 s).a 1) := by
  intro c d e
  have := h (c * P 0 0 + d * P 1 0) (c * P 0 1 + d * P 1 1) (by
    rw [← e]
    ext <;> simp [Linear.reparam] <;> ring)
  obtain ⟨h1, h2⟩ := this
  constructor
  · have : c * det2 P = 0 := by simp only [det2]; linear_combination P 1 1 * h1 - P 1 0 * h2
    exact (mul_eq_zero.1 this).resolve_right hP
  · have : d * det2 P = 0 := by simp only [det2]; linear_combination P 0 0 * h2 - P 0 1 * h1
    exact (mul_eq_zero.1 this).resolve_right hP

theorem metricRate_co (hP : 0 < det2 P) (s u : Surf) (h : Indep (s.a 0) (s.a 1)) (T T' : T2)
    (hT : IsThirdRate s u T)
    (hT' : IsThirdRate (Linear.reparam P g1 g2 g3 s) (Linear.reparam P g1 g2 g3 u) T') (z : ℝ) :
    metricRate (Linear.reparam P g1 g2 g3 s) (Linear.reparam P g1 g2 g3 u) T' z
      = co P (metricRate s u T z) := by
  funext i j
  have h1 := metric_deriv _ _ (indep_co P g1 g2 g3 hP.ne' s h) T' hT' z i j
  simp only [shift_co, Gblock_co P g1 g2 g3 hP] at h1
  have h2 : HasDerivAt (fun τ => co P (Gblock (shift s u τ) z) i j)
      (co P (metricRate s u T z) i j) 0 := by
    simp only [co]
    exact HasDerivAt.fun_sum fun a _ => HasDerivAt.fun_sum fun b _ =>
      (metric_deriv s u h T hT z a b).const_mul (P i a * P j b)
  exact h1.unique h2

theorem third_rate_co (hP : 0 < det2 P) (s u : Surf) (T : T2) (hT : IsThirdRate s u T) :
    IsThirdRate (Linear.reparam P g1 g2 g3 s) (Linear.reparam P g1 g2 g3 u) (co P T) := by
  intro i j
  simp only [shift_co, third_co P g1 g2 g3 hP]
  simp only [co]
  exact HasDerivAt.fun_sum fun a _ => HasDerivAt.fun_sum fun b _ =>
    (hT a b).const_mul (P i a * P j b)

/-! ## Internal force and tangent -/

theorem metricRate_zero (s u : Surf) (T : T2) (z : ℝ) (i j : Fin 2) :
    metricRate s u 0 z i j = metricRate s u T z i j - z * z * T i j := by
  simp only [metricRate, Pi.zero_apply]; ring

theorem strainRate_co (hP : 0 < det2 P) (s u : Surf) (h : Indep (s.a 0) (s.a 1)) (z : ℝ) :
    metricRate (Linear.reparam P g1 g2 g3 s) (Linear.reparam P g1 g2 g3 u) 0 z
      = co P (metricRate s u 0 z) := by
  obtain ⟨T, hT⟩ := third_exists s u h
  have hT' := third_rate_co P g1 g2 g3 hP s u T hT
  have hm := metricRate_co P g1 g2 g3 hP s u h T _ hT hT' z
  funext i j
  rw [metricRate_zero _ _ (co P T), hm]
  simp only [co, Fin.sum_univ_two, metricRate_zero s u T]
  ring

theorem metricRate_symm (s u : Surf) (z : ℝ) : metricRate s u 0 z 0 1 = metricRate s u 0 z 1 0 := by
  simp only [metricRate, dot_comm (u.a 0) (s.a 1), dot_comm (s.a 0) (u.a 1)]
  simp; ring

theorem pair_eq (S : Fin 3 → Fin 3 → ℝ) (H : T2) (hS : S 0 1 = S 1 0) (hH : H 0 1 = H 1 0) :
    ∑ k, stressV S k * half H k = 1 / 2 * ∑ i, ∑ j, S (up i) (up j) * H i j := by
  simp only [Fin.sum_univ_two, Fin.sum_univ_three, up_zero, up_one, stressV, half, ← hS, ← hH]
  simp; ring

theorem co_symm (M : T2) (h : M 0 1 = M 1 0) : co P M 0 1 = co P M 1 0 := by
  simp only [co, Fin.sum_univ_two, h]; ring

theorem pair_co (hP : det2 P ≠ 0) (S S' : Fin 3 → Fin 3 → ℝ) (H : T2) (hS : S 0 1 = S 1 0)
    (hS' : ∀ i j, S' (up i) (up j) = contra P (fun a b => S (up a) (up b)) i j)
    (hH : H 0 1 = H 1 0) :
    ∑ k, stressV S' k * half (co P H) k = ∑ k, stressV S k * half H k := by
  have h1 : S' 0 1 = S' 1 0 := by
    have e1 := hS' 0 1
    have e2 := hS' 1 0
    simp only [up_zero, up_one] at e1 e2
    rw [e1, e2]
    simp only [contra, Fin.sum_univ_two, up_zero, up_one, hS]; ring
  rw [pair_eq S' _ h1 (co_symm P H hH), pair_eq S H hS hH]
  simp only [hS']
  rw [contra_co P _ H hP]

theorem force_eq (L : Law) (r : Rule) (t : ℝ) (s u : Surf) :
    force L r t s u = -∑ j, r.w j * t * ∑ k, stressV (L.stress (r.ξ j * t) (Gblock s (r.ξ j * t))) k
      * half (metricRate s u 0 (r.ξ j * t)) k := by
  have h0 : ∀ k, half (0 : T2) k = 0 := by
    intro k; rcases fin3_cases k with rfl | rfl | rfl <;> simp [half]
  simp only [force, internalForce, dotV, resultant, integrateZ, half_rate, h0, Fin.sum_univ_three,
    Finset.sum_mul, ← Finset.sum_add_distrib]
  congr 1
  refine Finset.sum_congr rfl fun j _ => ?_
  ring

/-- The stress of `L'` in the new parameters is the stress of `L`. -/
def LawCo (L' L : Law) : Prop :=
  ∀ z G, G 0 1 = G 1 0 → L.stress z G 0 1 = L.stress z G 1 0 ∧
    ∀ i j, L'.stress z (co P G) (up i) (up j) = contra P (fun a b => L.stress z G (up a) (up b)) i j

theorem force_co (hP : 0 < det2 P) (L' L : Law) (hL : LawCo P L' L) (r : Rule) (t : ℝ) (s u : Surf)
    (h : Indep (s.a 0) (s.a 1)) :
    force L' r t (Linear.reparam P g1 g2 g3 s) (Linear.reparam P g1 g2 g3 u) = force L r t s u := by
  rw [force_eq, force_eq]
  congr 1
  refine Finset.sum_congr rfl fun j _ => ?_
  rw [strainRate_co P g1 g2 g3 hP s u h, Gblock_co P g1 g2 g3 hP s]
  obtain ⟨h1, h2⟩ := hL (r.ξ j * t) (Gblock s (r.ξ j * t)) (metric_symm s _)
  rw [pair_co P hP.ne' _ _ _ h1 h2 (metricRate_symm s u _)]

theorem contra4_co (hP : det2 P ≠ 0) (T : Fin 2 → Fin 2 → Fin 2 → Fin 2 → ℝ) (H K : T2) :
    ∑ i, ∑ j, ∑ k, ∑ l, contra4 P T i j k l * co P H i j * co P K k l
      = ∑ i, ∑ j, ∑ k, ∑ l, T i j k l * H i j * K k l := by
  have h1 : ∀ i j, ∑ k, ∑ l, contra4 P T i j k l * co P K k l
      = contra P (fun a b => ∑ k, ∑ l, T a b k l * K k l) i j := by
    intro i j
    simp only [contra, ← contra_co P _ K hP]
    simp only [contra, contra4, Fin.sum_univ_two]
    ring
  have h2 := contra_co P (fun a b => ∑ k, ∑ l, T a b k l * K k l) H hP
  simp only [← h1] at h2
  have e1 : ∀ i j, ∑ k, ∑ l, contra4 P T i j k l * co P H i j * co P K k l
      = (∑ k, ∑ l, contra4 P T i j k l * co P K k l) * co P H i j := by
    intro i j; simp only [Fin.sum_univ_two]; ring
  have e2 : ∀ i j, ∑ k, ∑ l, T i j k l * H i j * K k l = (∑ k, ∑ l, T i j k l * K k l) * H i j := by
    intro i j; simp only [Fin.sum_univ_two]; ring
  simp only [e1, e2]
  exact h2

theorem quad_eq (T : Fin 3 → Fin 3 → Fin 3 → Fin 3 → ℝ) (hT : ElasticSymm T) (H K : T2)
    (hH : H 0 1 = H 1 0) (hK : K 0 1 = K 1 0) :
    ∑ k, ∑ j, half H k * fillMatrix T k j * half K j
      = 1 / 4 * ∑ i, ∑ j, ∑ k, ∑ l, T (up i) (up j) (up k) (up l) * H i j * K k l := by
  have a1 := (hT 0 0 0 1).2.1
  have a2 := (hT 1 1 0 1).2.1
  have a3 := (hT 0 1 0 1).2.1
  have a4 := (hT 0 1 0 0).1
  have a5 := (hT 0 1 1 1).1
  have a6 := (hT 0 1 0 1).1
  have a7 := (hT 1 0 0 1).2.1
  have a8 := (hT 0 0 1 1).2.2
  have a9 := (hT 0 0 0 1).2.2
  have a10 := (hT 1 1 0 1).2.2
  simp only [Fin.sum_univ_two, Fin.sum_univ_three, up_zero, up_one, half, fillMatrix, ← hH, ← hK,
    ← a7, ← a6, ← a5, ← a4, ← a3, ← a2, ← a1, ← a8, ← a9, ← a10]
  simp [mk3]
  ring

/-- What the tangent leaves out, as one sum. -/
noncomputable def restSum (L : Law) (r : Rule) (t : ℝ) (s u : Surf) (T : T2) : ℝ :=
  ∑ q, r.w q * t * (r.ξ q * t) ^ 2 * ∑ k, ∑ j, half (metricRate s u 0 (r.ξ q * t)) k
    * fillMatrix (L.tangent (r.ξ q * t) (Gblock s (r.ξ q * t))) k j * half T j

theorem rest_eq (L : Law) (r : Rule) (t : ℝ) (s u : Surf) (T : T2) :
    internalForce s u (defect L r t 0 s T) (defect L r t 1 s T) = -restSum L r t s u T := by
  have h0 : ∀ k, half (0 : T2) k = 0 := by
    intro k; rcases fin3_cases k with rfl | rfl | rfl <;> simp [half]
  simp only [restSum, internalForce, dotV, defect, modulus, integrateZ, half_rate, h0,
    Fin.sum_univ_three, Finset.sum_mul, ← Finset.sum_add_distrib]
  congr 1
  refine Finset.sum_congr rfl fun j _ => ?_
  ring

theorem rest_co (hP : 0 < det2 P) (L' L : Law) (r : Rule) (t : ℝ) (s u : Surf) (T : T2)
    (hT : T 0 1 = T 1 0) (h : Indep (s.a 0) (s.a 1))
    (hs' : ∀ z, ElasticSymm (L'.tangent z (Gblock (Linear.reparam P g1 g2 g3 s) z)))
    (hs : ∀ z, ElasticSymm (L.tangent z (Gblock s z)))
    (ht : ∀ z i j k l, L'.tangent z (co P (Gblock s z)) (up i) (up j) (up k) (up l)
      = contra4 P (fun a b c d => L.tangent z (Gblock s z) (up a) (up b) (up c) (up d)) i j k l) :
    restSum L' r t (Linear.reparam P g1 g2 g3 s) (Linear.reparam P g1 g2 g3 u) (co P T)
      = restSum L r t s u T := by
  unfold restSum
  refine Finset.sum_congr rfl fun q _ => ?_
  have h1 := quad_eq _ (hs' (r.ξ q * t)) (co P (metricRate s u 0 (r.ξ q * t))) (co P T)
    (co_symm P _ (metricRate_symm s u _)) (co_symm P T hT)
  have h2 := quad_eq _ (hs (r.ξ q * t)) (metricRate s u 0 (r.ξ q * t)) T
    (metricRate_symm s u _) hT
  rw [strainRate_co P g1 g2 g3 hP s u h, h1, h2]
  rw [Gblock_co P g1 g2 g3 hP s]
  simp only [ht]
  rw [contra4_co P hP.ne']

theorem indep_eventually (s v : Surf) (h : Indep (s.a 0) (s.a 1)) :
    ∀ᶠ τ in nhds (0 : ℝ), Indep ((shift s v τ).a 0) ((shift s v τ).a 1) := by
  have hd : ∀ x : Surf, det2 (Acov x) = dot (cross (x.a 0) (x.a 1)) (cross (x.a 0) (x.a 1)) := by
    intro x; simp [det2, Acov, dot, cross]; ring
  have hA : ∀ i j, HasDerivAt (fun τ => Acov (shift s v τ) i j)
      (dot (v.a i) (s.a j) + dot (s.a i) (v.a j)) 0 := by
    intro i j
    refine ((HasVDeriv.line (s.a i) (v.a i) 0).dot
      (HasVDeriv.line (s.a j) (v.a j) 0)).congr_deriv ?_
    simp [dot]
  have h0 : det2 (Acov (shift s v 0)) ≠ 0 := by
    rw [shift_zero, hd]; exact (dot_self_pos h.cross_ne).ne'
  have hc := (hasDerivAt_det2 (C := fun τ => Acov (shift s v τ)) hA h0).continuousAt
  filter_upwards [hc.eventually_ne h0] with τ hτ
  apply indep_of_cross
  intro hz
  apply hτ
  rw [hd, hz]; simp [dot]

theorem tangent_co (hP : 0 < det2 P) (L' L : Law) (hL : LawCo P L' L) (r : Rule) (t : ℝ)
    (s u v : Surf) (h : Indep (s.a 0) (s.a 1)) (hg : Good L r t s)
    (hg' : Good L' r t (Linear.reparam P g1 g2 g3 s))
    (hs' : ∀ z, ElasticSymm (L'.tangent z (Gblock (Linear.reparam P g1 g2 g3 s) z)))
    (hs : ∀ z, ElasticSymm (L.tangent z (Gblock s z)))
    (ht : ∀ z i j k l, L'.tangent z (co P (Gblock s z)) (up i) (up j) (up k) (up l)
      = contra4 P (fun a b c d => L.tangent z (Gblock s z) (up a) (up b) (up c) (up d)) i j k l) :
    tangentStiffness L' r t (Linear.reparam P g1 g2 g3 s) (Linear.reparam P g1 g2 g3 u)
      (Linear.reparam P g1 g2 g3 v) = tangentStiffness L r t s u v := by
  obtain ⟨T, hT⟩ := third_exists s v h
  have d1 := force_deriv L r t s u v h T hT hg
  have d2 := force_deriv L' r t _ (Linear.reparam P g1 g2 g3 u) _
    (indep_co P g1 g2 g3 hP.ne' s h) _ (third_rate_co P g1 g2 g3 hP s v T hT) hg'
  simp only [shift_co] at d2
  have e : (fun τ => force L r t (shift s v τ) u) =ᶠ[nhds 0]
      fun τ => force L' r t (Linear.reparam P g1 g2 g3 (shift s v τ))
        (Linear.reparam P g1 g2 g3 u) := by
    filter_upwards [indep_eventually s v h] with τ hτ
    exact (force_co P g1 g2 g3 hP L' L hL r t _ u hτ).symm
  have hu := (d2.congr_of_eventuallyEq e).unique d1
  rw [rest_eq, rest_eq, rest_co P g1 g2 g3 hP L' L r t s u T (third_symm s v T hT) h hs' hs ht]
    at hu
  linarith

theorem nh_law (p : Par) (hP : 0 < det2 P) (ori : Surf) :
    LawCo P (nh p (Linear.reparam P g1 g2 g3 ori)) (nh p ori) := by
  intro z G hG
  refine ⟨?_, fun i j => ?_⟩
  · have hs := data_symm (Gblock ori z) G (metric_symm ori z) hG
    simp only [nh, sNH, hs.1 0 1, hs.2 0 1]
  · simp only [nh, Gblock_co P g1 g2 g3 hP ori, sNH, J0_co P _ _ hP.ne', Gori_co P _ _ hP.ne',
      gcon_co P _ _ hP.ne', contra, Fin.sum_univ_two]
    ring

theorem mr_law (p : Par) (hP : 0 < det2 P) (ori : Surf) :
    LawCo P (mr p (Linear.reparam P g1 g2 g3 ori)) (mr p ori) := by
  intro z G hG
  refine ⟨?_, fun i j => ?_⟩
  · have hs := data_symm (Gblock ori z) G (metric_symm ori z) hG
    simp only [mr, sMR, hs.1 0 1, hs.2 0 1]
  · simp only [mr, Gblock_co P g1 g2 g3 hP ori, sMR, J0_co P _ _ hP.ne', Gori_co P _ _ hP.ne',
      gcon_co P _ _ hP.ne', trace_co P _ _ hP.ne', contra, Fin.sum_univ_two]
    ring

theorem cNH_co (p : Par) (A C : T2) (hP : det2 P ≠ 0) (i j k l : Fin 2) :
    cNH p (data (co P A) (co P C)) (up i) (up j) (up k) (up l)
      = contra4 P (fun a b c d => cNH p (data A C) (up a) (up b) (up c) (up d)) i j k l := by
  simp only [cNH, J0_co P A C hP, gcon_co P A C hP, contra, contra4, Fin.sum_univ_two]
  ring

theorem cMR_co (p : Par) (A C : T2) (hP : det2 P ≠ 0) (i j k l : Fin 2) :
    cMR p (data (co P A) (co P C)) (up i) (up j) (up k) (up l)
      = contra4 P (fun a b c d => cMR p (data A C) (up a) (up b) (up c) (up d)) i j k l := by
  simp only [cMR, J0_co P A C hP, gcon_co P A C hP, Gori_co P A C hP, trace_co P A C hP, contra,
    contra4, Fin.sum_univ_two]
  ring

theorem regular_co (hP : 0 < det2 P) (r : Rule) (t : ℝ) (ori s : Surf) (h : Regular r t ori s) :
    Regular r t (Linear.reparam P g1 g2 g3 ori) (Linear.reparam P g1 g2 g3 s) := by
  intro j
  rw [Gblock_co P g1 g2 g3 hP, Gblock_co P g1 g2 g3 hP, det_co, det_co]
  have := pow_ne_zero 2 hP.ne'
  exact ⟨mul_ne_zero this (h j).1, mul_ne_zero this (h j).2⟩

end Verif.Reparam
