import Verif.Lemmas.Shortcut
import Verif.Props.HyperReference

/-!
# C122: the stress of hyperelastic materials and the unit of length

Property theorems.
-/

namespace Verif.Shortcut

open Verif.Hyper Verif.Geometry Spec.Shortcut

/-- C122 (partial): the formulas of all hyperelastic models are independent of the unit of length,
the compressible ones for a given thickness stretch.  Missing: the shortcut in front of them. -/
theorem C122_formulas_partial (p : Par) (L : ℝ) (hL : 0 < L) (A C : T2) (x : ℝ) :
    UnitFree (fun A C i j => sNH p (data A C) (up i) (up j)) L A C ∧
    UnitFree (fun A C i j => sMR p (data A C) (up i) (up j)) L A C ∧
    UnitFree (fun A C i j => sNHc p (cdata (data A C) x) (up i) (up j)) L A C ∧
    UnitFree (fun A C i j => sMRc p (cdata (data A C) x) (up i) (up j)) L A C ∧
    UnitFree (fun A C i j => sNHe p (cdata (data A C) x) (up i) (up j)) L A C := by
  have h0 := hL.ne'
  have hG (i j : Fin 2) : (cdata (data (scaled L A) (scaled L C)) x).D.Gori (up i) (up j)
      = (cdata (data A C) x).D.Gori (up i) (up j) / L ^ 2 := Gori_scaled L h0 A C i j
  refine ⟨fun i j => ?_, fun i j => ?_, fun i j => ?_, fun i j => ?_, fun i j => ?_⟩
  · simp only [sNH, J0_scaled L h0, Gori_scaled L h0, gcon_scaled L h0]; ring
  · simp only [sMR, J0_scaled L h0, Gori_scaled L h0, gcon_scaled L h0, traceCt_scaled L h0]; ring
  · simp only [sNHc, hG, cinv_scaled L x h0, J_scaled L x h0, I1_scaled L x h0]; ring
  · simp only [sMRc, hG, cinv_scaled L x h0, J_scaled L x h0, I1_scaled L x h0,
      I2_scaled L x h0, dI2_scaled L x h0]; ring
  · simp only [sNHe, hG, cinv_scaled L x h0, J_scaled L x h0]; ring

/-- C122 (partial): where the metrics are not close, in neither unit, the returned stress is
independent of the unit if the formula is.  Missing: metrics that are close in one unit. -/
theorem C122_apart_partial (S : Data → Fin 3 → Fin 3 → ℝ) (L : ℝ) (A C : T2)
    (h1 : ¬ allClose (data A C).Gori (data A C).gcon (1 / 10 ^ 12))
    (h2 : ¬ allClose (data (scaled L A) (scaled L C)).Gori (data (scaled L A) (scaled L C)).gcon
      (1 / 10 ^ 12))
    (hS : UnitFree (fun A C i j => S (data A C) (up i) (up j)) L A C) :
    UnitFree (fun A C i j => evalStress S (data A C) i j) L A C := by
  intro i j
  simp only [evalStress, if_neg h1, if_neg h2]
  exact hS i j

/-- C122 (partial): where an in-plane entry of each inverse metric is at least the thickness entry 1, in
both units, the returned stress is independent of the unit, close metrics or not.  Missing: long units of the
parametrised lengths, for which the thickness entry dominates. -/
theorem C122_dominant_partial (S : Data → Fin 3 → Fin 3 → ℝ) (L : ℝ) (hL : 0 < L) (A C : T2) (a b c d : Fin 2)
    (hA : 1 ≤ |inv2 A a b| ∧ L ^ 2 ≤ |inv2 A a b|) (hC : 1 ≤ |inv2 C c d| ∧ L ^ 2 ≤ |inv2 C c d|)
    (hS : UnitFree (fun A C i j => S (data A C) (up i) (up j)) L A C) :
    UnitFree (fun A C i j => evalStress S (data A C) i j) L A C := by
  have hL2 : 0 < L ^ 2 := by positivity
  have h : allClose (data (scaled L A) (scaled L C)).Gori (data (scaled L A) (scaled L C)).gcon (1 / 10 ^ 12)
      ↔ allClose (data A C).Gori (data A C).gcon (1 / 10 ^ 12) := by
    simp only [allClose, data]
    rw [maxAbs_diff_scaled L hL, maxAbs_scaled L hL A a b hA.1 hA.2, maxAbs_scaled L hL C c d hC.1 hC.2,
      max_div_div_right hL2.le, ← mul_div_assoc, div_le_div_iff_of_pos_right hL2]
  intro i j
  by_cases hc : allClose (data A C).Gori (data A C).gcon (1 / 10 ^ 12)
  · simp only [evalStress, if_pos hc, if_pos (h.2 hc), zero_div]
  · simp only [evalStress, if_neg hc, if_neg (fun q => hc (h.1 q))]
    exact hS i j

/-- The unit square, stretched by a ten-billionth, in kilometres. -/
example (p : Par) : UnitFree (fun A C i j => evalStress (sNH p) (data A C) i j) (1 / 1000)
    ![![1, 0], ![0, 1]] ![![(1 + 1 / 10 ^ 10) ^ 2, 0], ![0, 1]] := by
  refine C122_dominant_partial _ _ (by norm_num) _ _ 0 0 1 1 ?_ ?_
    (C122_formulas_partial p _ (by norm_num) _ _ 1).1
  · norm_num [inv2, det2]
  · norm_num [inv2, det2]

/-- C122: violated.  Whatever the material, the undeformed and the deformed metric: in a
sufficiently small unit of length (lengths multiplied by `L`) the returned stress is zero, and it
remains so in all smaller units.  The reason is that the compared matrices contain the thickness
entry 1, to which the tolerance is relative. -/
theorem C122_units_violated (S : Data → Fin 3 → Fin 3 → ℝ) (A C : T2) :
    ∃ L₀ : ℝ, 0 < L₀ ∧ ∀ L, L₀ ≤ L → ∀ i j : Fin 2,
      evalStress S (data (scaled L A) (scaled L C)) i j = 0 := by
  obtain ⟨m, hm⟩ : ∃ m : ℝ, m = maxAbs (fun i j => embed (inv2 A) i j - embed (inv2 C) i j) :=
    ⟨_, rfl⟩
  have hm0 : 0 ≤ m := by
    rw [hm]
    exact le_trans (abs_nonneg _) (le_maxAbs (fun i j => embed (inv2 A) i j - embed (inv2 C) i j) 0 0)
  have hab (a b : Fin 2) : |inv2 A a b - inv2 C a b| ≤ m := by
    have := le_maxAbs (fun i j => embed (inv2 A) i j - embed (inv2 C) i j) (up a) (up b)
    simp only [embed_up] at this
    rw [hm]; exact this
  refine ⟨10 ^ 12 * m + 1, by positivity, fun L hL i j => ?_⟩
  have hL1 : 1 ≤ L := by
    have : 0 ≤ 10 ^ 12 * m := by positivity
    linarith
  have hclose : allClose (data (scaled L A) (scaled L C)).Gori
      (data (scaled L A) (scaled L C)).gcon (1 / 10 ^ 12) := by
    refine allClose_of _ _ fun a b => ?_
    rw [inv2_scaled L (by linarith), inv2_scaled L (by linarith), ← sub_div, abs_div,
      abs_of_nonneg (sq_nonneg L), div_le_div_iff₀ (by positivity) (by positivity)]
    have h1 := hab a b
    nlinarith
  simp only [evalStress, if_pos hclose]

/-- C122: violated, with numbers: a square plate of 1000 mm parametrised on the unit square and
stretched in both directions by half a millionth.  For every material the stress returned is zero,
while the neo-Hookean formula gives a positive one, and so does the evaluation of the same plate
given in metres. -/
theorem C122_millimetres_violated (S : Data → Fin 3 → Fin 3 → ℝ) (p : Par) (hp : 0 < p.mu) :
    let A : T2 := ![![1, 0], ![0, 1]]
    let C : T2 := ![![1 + 1 / 10 ^ 6, 0], ![0, 1 + 1 / 10 ^ 6]]
    (∀ i j, evalStress S (data (scaled 1000 A) (scaled 1000 C)) i j = 0) ∧
    0 < sNH p (data (scaled 1000 A) (scaled 1000 C)) 0 0 ∧
    0 < evalStress (sNH p) (data A C) 0 0 := by
  intro A C
  have hA00 : inv2 A 0 0 = 1 := by simp [inv2, det2, A]
  have hA01 : inv2 A 0 1 = 0 := by simp [inv2, det2, A]
  have hA10 : inv2 A 1 0 = 0 := by simp [inv2, det2, A]
  have hA11 : inv2 A 1 1 = 1 := by simp [inv2, det2, A]
  have hC00 : inv2 C 0 0 = 1000000 / 1000001 := by simp [inv2, det2, C]; norm_num
  have hC01 : inv2 C 0 1 = 0 := by simp [inv2, det2, C]
  have hC10 : inv2 C 1 0 = 0 := by simp [inv2, det2, C]
  have hC11 : inv2 C 1 1 = 1000000 / 1000001 := by simp [inv2, det2, C]; norm_num
  have hJ : (data A C).J0 = (1 + 1 / 10 ^ 6) ^ 2 := by simp [data, det2, A, C]; ring
  have hpos : 0 < sNH p (data A C) 0 0 := by
    have h1 : (data A C).Gori 0 0 = 1 := by simp [data, hA00]
    have h2 : (data A C).gcon 0 0 = 1000000 / 1000001 := by simp [data, hC00]
    simp only [sNH, hJ, h1, h2]
    apply mul_pos hp
    norm_num
  have h1000 : (0 : ℝ) < 1000 := by norm_num
  refine ⟨fun i j => ?_, ?_, ?_⟩
  · have hclose : allClose (data (scaled 1000 A) (scaled 1000 C)).Gori
        (data (scaled 1000 A) (scaled 1000 C)).gcon (1 / 10 ^ 12) := by
      refine allClose_of _ _ fun a b => ?_
      rw [inv2_scaled 1000 h1000.ne', inv2_scaled 1000 h1000.ne']
      rcases fin2_cases a with rfl | rfl <;> rcases fin2_cases b with rfl | rfl
      · rw [hA00, hC00, abs_le]; constructor <;> norm_num
      · rw [hA01, hC01]; norm_num
      · rw [hA10, hC10]; norm_num
      · rw [hA11, hC11, abs_le]; constructor <;> norm_num
    simp only [evalStress, if_pos hclose]
  · have := (C122_formulas_partial p 1000 h1000 A C 1).1 0 0
    simp only [up_zero] at this
    rw [this]
    positivity
  · have hfar : ¬ allClose (data A C).Gori (data A C).gcon (1 / 10 ^ 12) := by
      refine not_allClose _ _ ?_ ?_ ?_
      · rw [hA00, hA01, hA10, hA11]; norm_num
      · rw [hC00, hC01, hC10, hC11]; norm_num
      · rw [hA00, hC00]; norm_num
    simp only [evalStress, if_neg hfar]
    exact hpos

/-- C122: the shortcut does no harm where it is meant to act, in the undeformed state. -/
theorem C122_undeformed_partial (p : Par) (A : T2) (hA : det2 A ≠ 0) (i j : Fin 2) :
    evalStress (sNH p) (data A A) i j = sNH p (data A A) (up i) (up j) := by
  have hclose : allClose (data A A).Gori (data A A).gcon (1 / 10 ^ 12) :=
    allClose_of _ _ fun a b => by simp
  rw [C46_NH p A hA]
  simp only [evalStress, if_pos hclose]

/-- A steel plate: Young's modulus 210000, Poisson's ratio 0.3 (hypothesis of
`C122_millimetres_violated`). -/
example : (0 : ℝ) < (Par.mu ⟨210000, 3 / 10, 0⟩) := by norm_num [Par.mu]

/-- A square stretched to twice its size, in two units, meets the hypotheses of
`C122_apart_partial`; the hypothesis on the formula is `C122_formulas_partial`. -/
example (p : Par) : UnitFree (fun A C i j => evalStress (sMR p) (data A C) i j) 2
    ![![1, 0], ![0, 1]] ![![4, 0], ![0, 4]] := by
  have hA00 : inv2 ![![1, 0], ![0, 1]] 0 0 = 1 := by simp [inv2, det2]
  have hA01 : inv2 ![![1, 0], ![0, 1]] 0 1 = 0 := by simp [inv2, det2]
  have hA10 : inv2 ![![1, 0], ![0, 1]] 1 0 = 0 := by simp [inv2, det2]
  have hA11 : inv2 ![![1, 0], ![0, 1]] 1 1 = 1 := by simp [inv2, det2]
  have hC00 : inv2 ![![4, 0], ![0, 4]] 0 0 = 1 / 4 := by simp [inv2, det2]
  have hC01 : inv2 ![![4, 0], ![0, 4]] 0 1 = 0 := by simp [inv2, det2]
  have hC10 : inv2 ![![4, 0], ![0, 4]] 1 0 = 0 := by simp [inv2, det2]
  have hC11 : inv2 ![![4, 0], ![0, 4]] 1 1 = 1 / 4 := by simp [inv2, det2]
  refine C122_apart_partial _ 2 _ _ ?_ ?_ (C122_formulas_partial p 2 (by norm_num) _ _ 1).2.1
  · refine not_allClose _ _ ?_ ?_ ?_
    · rw [hA00, hA01, hA10, hA11]; norm_num
    · rw [hC00, hC01, hC10, hC11]; norm_num
    · rw [hA00, hC00]; norm_num
  · have e (A : T2) (i j : Fin 2) := inv2_scaled 2 (by norm_num) A i j
    refine not_allClose _ _ ?_ ?_ ?_
    · rw [e, e, e, e, hA00, hA01, hA10, hA11]; norm_num
    · rw [e, e, e, e, hC00, hC01, hC10, hC11]; norm_num
    · rw [e, e, hA00, hC00]; norm_num

end Verif.Shortcut
