import Verif.Model.PenaltyState
import Verif.Spec.PenaltyState
import Verif.Lemmas.Penalty
import Verif.Lemmas.Balance
import Verif.Lemmas.PlanarSystem

/-! # Lemmas for penalty factors in a deformed state -/

namespace Verif.PenaltyState

open V3 Verif.Geometry Verif.Integrate Verif.WeakForms Verif.Spec.PenaltyState Verif.Variation
open Verif.PlanarSystem (Solid weight integrate_const)

theorem Gblock_move (R : Rotation) (s : Surf) (z : ℝ) : Gblock (R.move s) z = Gblock s z := by
  have hA : Acon (R.move s) = Acon s := by unfold Acon; rw [R.Acov_move]
  have hm : ∀ i j, mixedB (R.move s) i j = mixedB s i j := by
    intro i j; unfold mixedB; rw [hA, R.Bcov_move]
  have h : ∀ i, ncov (R.move s) i = R.act (ncov s i) := by
    intro i
    unfold ncov
    rw [hm, hm, Balance.act_sub, Balance.act_smul, Balance.act_smul]
    rfl
  funext i j
  unfold Gblock
  rw [R.Acov_move, R.Bcov_move, h, h, R.dot_act]

theorem box_indep {l m : ℝ} (hl : l ≠ 0) (hm : m ≠ 0) : Indep ((box l m).a 0) ((box l m).a 1) := by
  intro x y h
  have hx := congrArg V3.x h
  have hy := congrArg V3.y h
  simp [box] at hx hy
  exact ⟨hx.resolve_right hl, hy.resolve_right hm⟩

theorem box_Gblock (l m z : ℝ) : Gblock (box l m) z = ![![l ^ 2, 0], ![0, m ^ 2]] := by
  have hb : Bcov (box l m) = fun _ _ => 0 := by
    funext i j
    rcases fin2_cases i with rfl | rfl <;> rcases fin2_cases j with rfl | rfl <;>
      simp [Bcov, box, dot]
  funext i j
  unfold Gblock
  have hn : ∀ i, ncov (box l m) i = 0 := by
    intro i
    unfold ncov mixedB
    rw [hb]
    ext <;> simp
  rw [hb, hn, hn]
  rcases fin2_cases i with rfl | rfl <;> rcases fin2_cases j with rfl | rfl <;>
    simp [Acov, box, dot] <;> ring

/-- In the unit square the matrix is not transformed. -/
theorem box_mmCart (A : T3) : Penalty.mmCart (box 1 1) A = A := by
  obtain ⟨p, q, r, hp, hr, h1, h2, h3, h4, g00, g01, g10, g11⟩ :=
    Penalty.coords (box 1 1) (box_indep one_ne_zero one_ne_zero)
  obtain ⟨hc, hi, -⟩ := Penalty.matrices (box 1 1) p q r hp hr h1 h2 h3 h4 g00 g01 g10 g11
  have a00 : Acov (box 1 1) 0 0 = 1 := by simp [Acov, box, dot]
  have a01 : Acov (box 1 1) 0 1 = 0 := by simp [Acov, box, dot]
  have a11 : Acov (box 1 1) 1 1 = 1 := by simp [Acov, box, dot]
  have hp1 : p = 1 := by nlinarith
  have hq : q = 0 := by
    have : p * q = 0 := by rw [← g01, a01]
    exact (mul_eq_zero.mp this).resolve_left hp.ne'
  subst hq hp1
  have hr1 : r = 1 := by nlinarith
  subst hr1
  unfold Penalty.mmCart
  rw [hc, hi]
  funext i j
  rcases fin3_cases i with rfl | rfl | rfl <;> rcases fin3_cases j with rfl | rfl | rfl <;>
    simp [mul3, Fin.sum_univ_three]

/-- Modulus of the neo-Hookean square. -/
theorem box_modulus (r : Rule) (p : Hyper.Par) (t : ℝ) {l m : ℝ} (hl : 0 < l) (hm : 0 < m) :
    ShellTangent.modulus (HyperShell.material .neoHooke p (box 1 1)) r t 0 (box l m)
      = mk3 (weight r t * (4 * p.mu / (l ^ 6 * m ^ 2))) (weight r t * (2 * p.mu / (l ^ 4 * m ^ 4))) 0
          (weight r t * (2 * p.mu / (l ^ 4 * m ^ 4))) (weight r t * (4 * p.mu / (l ^ 2 * m ^ 6))) 0
          0 0 (weight r t * (p.mu / (l ^ 4 * m ^ 4))) := by
  have hl' := hl.ne'
  have hm' := hm.ne'
  have key : ∀ i j, ShellTangent.modulus (HyperShell.material .neoHooke p (box 1 1)) r t 0 (box l m) i j
      = weight r t * Hyper.fillMatrix (Hyper.cNH p (Hyper.data ![![1, 0], ![0, 1]] ![![l ^ 2, 0], ![0, m ^ 2]])) i j := by
    intro i j
    rw [← integrate_const]
    unfold ShellTangent.modulus
    simp only [box_Gblock]
    have e : ∀ z, (HyperShell.material .neoHooke p (box 1 1)).tangent z ![![l ^ 2, 0], ![0, m ^ 2]]
        = Hyper.cNH p (Hyper.data ![![1, 0], ![0, 1]] ![![l ^ 2, 0], ![0, m ^ 2]]) := by
      intro z
      show Hyper.cNH p (Hyper.data (Gblock (box 1 1) z) _) = _
      rw [box_Gblock]; norm_num
    simp only [e]
  funext i j
  rw [key]
  rcases fin3_cases i with rfl | rfl | rfl <;> rcases fin3_cases j with rfl | rfl | rfl <;>
    simp [Hyper.fillMatrix, Hyper.cNH, Hyper.data, embed, inv2, det2, -mul_eq_mul_left_iff] <;> field_simp <;> ring_nf

theorem box_max (w μ : ℝ) (hw : 0 ≤ w) (hμ : 0 ≤ μ) {l m : ℝ} (hl : 0 < l) (hm : 0 < m) :
    Penalty.maxEntry (mk3 (w * (4 * μ / (l ^ 6 * m ^ 2))) (w * (2 * μ / (l ^ 4 * m ^ 4))) 0
          (w * (2 * μ / (l ^ 4 * m ^ 4))) (w * (4 * μ / (l ^ 2 * m ^ 6))) 0
          0 0 (w * (μ / (l ^ 4 * m ^ 4)))) = w * (4 * μ / (l ^ 2 * m ^ 2 * (min l m) ^ 4)) := by
  have hn : 0 < min l m := lt_min hl hm
  have hml : min l m ≤ l := min_le_left _ _
  have hmm : min l m ≤ m := min_le_right _ _
  have hd : 0 < l ^ 2 * m ^ 2 * (min l m) ^ 4 := by positivity
  have b4 : ∀ c, 0 ≤ c → c ≤ 4 → w * (c * μ / (l ^ 4 * m ^ 4)) ≤ w * (4 * μ / (l ^ 2 * m ^ 2 * (min l m) ^ 4)) := by
    intro c h0 hc
    refine mul_le_mul_of_nonneg_left ?_ hw
    refine div_le_div₀ (by positivity) (mul_le_mul_of_nonneg_right hc hμ) hd ?_
    have : (min l m) ^ 4 ≤ l ^ 2 * m ^ 2 := by
      have h1 := pow_le_pow_left₀ hn.le hml 2
      have h2 := pow_le_pow_left₀ hn.le hmm 2
      calc (min l m) ^ 4 = (min l m) ^ 2 * (min l m) ^ 2 := by ring
        _ ≤ l ^ 2 * m ^ 2 := mul_le_mul h1 h2 (by positivity) (by positivity)
    nlinarith [mul_le_mul_of_nonneg_left this (by positivity : 0 ≤ l ^ 2 * m ^ 2)]
  have b0 : 0 ≤ w * (4 * μ / (l ^ 2 * m ^ 2 * (min l m) ^ 4)) := by positivity
  have bl : w * (4 * μ / (l ^ 6 * m ^ 2)) ≤ w * (4 * μ / (l ^ 2 * m ^ 2 * (min l m) ^ 4)) := by
    refine mul_le_mul_of_nonneg_left (div_le_div_of_nonneg_left (by positivity) hd ?_) hw
    have := mul_le_mul_of_nonneg_left (pow_le_pow_left₀ hn.le hml 4) (by positivity : 0 ≤ l ^ 2 * m ^ 2)
    linarith
  have bm : w * (4 * μ / (l ^ 2 * m ^ 6)) ≤ w * (4 * μ / (l ^ 2 * m ^ 2 * (min l m) ^ 4)) := by
    refine mul_le_mul_of_nonneg_left (div_le_div_of_nonneg_left (by positivity) hd ?_) hw
    have := mul_le_mul_of_nonneg_left (pow_le_pow_left₀ hn.le hmm 4) (by positivity : 0 ≤ l ^ 2 * m ^ 2)
    linarith
  apply le_antisymm
  · apply Penalty.maxEntry_le
    intro i j
    have b2 := b4 2 (by norm_num) (by norm_num)
    have b1 := b4 1 (by norm_num) (by norm_num)
    rw [one_mul] at b1
    rcases fin3_cases i with rfl | rfl | rfl <;> rcases fin3_cases j with rfl | rfl | rfl
    · exact bl
    · exact b2
    · exact b0
    · exact b2
    · exact bm
    · exact b0
    · exact b0
    · exact b0
    · exact b1
  · rcases le_total l m with h | h
    · rw [min_eq_left h]
      refine le_trans (le_of_eq ?_) (Penalty.le_maxEntry _ 0 0)
      show _ = w * (4 * μ / (l ^ 6 * m ^ 2))
      congr 2; ring
    · rw [min_eq_right h]
      refine le_trans (le_of_eq ?_) (Penalty.le_maxEntry _ 1 1)
      show _ = w * (4 * μ / (l ^ 2 * m ^ 6))
      congr 2; ring

/-- A factor times the C0 coupling along a line. -/
theorem c0_line (a : ℝ → ℝ) (a' μ : ℝ) (ha : HasDerivAt a a' 0) {d : ℕ} (uL uR vL vR wL wR : Vd d) :
    HasDerivAt (fun τ => c0Vec3 (a τ) μ (along uL wL τ) (along uR wR τ) vL vR)
      (-c0Mat (a 0) μ vL vR wL wR + a' * c0Vec3 1 μ uL uR vL vR) 0 := by
  have lin : ∀ v u w : Vd d, HasDerivAt (fun τ => dotd v (along u w τ)) (dotd v w) 0 := by
    intro v u w
    unfold dotd along
    refine (HasDerivAt.fun_sum (u := Finset.univ) (A := fun i τ => v i * (u i + τ * w i))
      (A' := fun i => v i * w i) (x := (0 : ℝ)) fun i _ => ?_)
    exact (((hasDerivAt_id' (0 : ℝ)).mul_const (w i)).const_add (u i)).const_mul (v i) |>.congr_deriv (by ring)
  have split : ∀ v u u' : Vd d, dotd v (fun i => u i - u' i) = dotd v u - dotd v u' := by
    intro v u u'; simp only [dotd, mul_sub, Finset.sum_sub_distrib]
  have h := (((ha.neg.mul ((lin vL uL wL).sub (lin vL uR wR))).mul_const μ).add
    ((ha.mul ((lin vR uL wL).sub (lin vR uR wR))).mul_const μ))
  refine (h.congr_of_eventuallyEq (Filter.Eventually.of_forall fun τ => ?_)).congr_deriv ?_
  · simp only [c0Vec3, split, Pi.add_apply, Pi.mul_apply, Pi.sub_apply, Pi.neg_apply]
  · have z : ∀ u w : Vd d, along u w 0 = u := by intro u w; funext i; simp [along]
    simp only [c0Vec3, c0Mat, split, z, Pi.sub_apply, Pi.neg_apply]
    ring

end Verif.PenaltyState
