import Verif.Model.Shortcut
import Verif.Spec.Shortcut
import Verif.Lemmas.Hyper

/-! # Helper lemmas: entries of scaled metrics, largest entries -/

namespace Verif.Shortcut

open Verif.Hyper Verif.Geometry Spec.Shortcut

theorem le_maxAbs (M : T3) (i j : Fin 3) : |M i j| ≤ maxAbs M :=
  Finset.le_sup' (fun q : Fin 3 × Fin 3 => |M q.1 q.2|) (Finset.mem_univ (i, j))

theorem maxAbs_le (M : T3) (x : ℝ) (h : ∀ i j, |M i j| ≤ x) : maxAbs M ≤ x :=
  Finset.sup'_le _ _ fun q _ => h q.1 q.2

theorem det2_scaled (L : ℝ) (A : T2) : det2 (scaled L A) = L ^ 4 * det2 A := by
  simp only [det2, scaled]; ring

theorem inv2_scaled (L : ℝ) (hL : L ≠ 0) (A : T2) (i j : Fin 2) :
    inv2 (scaled L A) i j = inv2 A i j / L ^ 2 := by
  have hd := det2_scaled L A
  rcases eq_or_ne (det2 A) 0 with h0 | h0
  · rcases fin2_cases i with rfl | rfl <;> rcases fin2_cases j with rfl | rfl <;>
      simp [inv2, hd, h0]
  · rcases fin2_cases i with rfl | rfl <;> rcases fin2_cases j with rfl | rfl <;>
      simp only [inv2, hd] <;> simp [scaled] <;> field_simp

theorem embed_diff (M N : T2) (i j : Fin 3) (x : ℝ) (hx : 0 ≤ x)
    (h : ∀ a b : Fin 2, |M a b - N a b| ≤ x) : |embed M i j - embed N i j| ≤ x := by
  rcases fin3_cases i with rfl | rfl | rfl <;> rcases fin3_cases j with rfl | rfl | rfl
  · exact h 0 0
  · exact h 0 1
  · simpa [embed] using hx
  · exact h 1 0
  · exact h 1 1
  · simpa [embed] using hx
  · simpa [embed] using hx
  · simpa [embed] using hx
  · simpa using hx

theorem one_le_maxAbs (M : T2) : 1 ≤ maxAbs (embed M) := by
  have := le_maxAbs (embed M) 2 2
  simpa using this

theorem allClose_of (M N : T2) (h : ∀ a b : Fin 2, |M a b - N a b| ≤ 1 / 10 ^ 12) :
    allClose (embed M) (embed N) (1 / 10 ^ 12) := by
  refine le_trans (maxAbs_le _ (1 / 10 ^ 12) fun i j => ?_) ?_
  · exact embed_diff M N i j _ (by positivity) h
  · have h1 : 1 ≤ max (maxAbs (embed M)) (maxAbs (embed N)) :=
      le_trans (one_le_maxAbs M) (le_max_left _ _)
    linarith

theorem maxAbs_embed_le (M : T2)
    (h : |M 0 0| ≤ 1 ∧ |M 0 1| ≤ 1 ∧ |M 1 0| ≤ 1 ∧ |M 1 1| ≤ 1) : maxAbs (embed M) ≤ 1 := by
  obtain ⟨h0, h1, h2, h3⟩ := h
  refine maxAbs_le _ _ fun i j => ?_
  rcases fin3_cases i with rfl | rfl | rfl <;> rcases fin3_cases j with rfl | rfl | rfl <;>
    simp [embed, mk3, h0, h1, h2, h3]

theorem not_allClose (M N : T2)
    (hM : |M 0 0| ≤ 1 ∧ |M 0 1| ≤ 1 ∧ |M 1 0| ≤ 1 ∧ |M 1 1| ≤ 1)
    (hN : |N 0 0| ≤ 1 ∧ |N 0 1| ≤ 1 ∧ |N 1 0| ≤ 1 ∧ |N 1 1| ≤ 1)
    (h : 1 / 10 ^ 12 < M 0 0 - N 0 0) : ¬ allClose (embed M) (embed N) (1 / 10 ^ 12) := by
  intro hc
  have h1 : |embed M 0 0 - embed N 0 0| ≤ maxAbs fun i j => embed M i j - embed N i j :=
    le_maxAbs (fun i j => embed M i j - embed N i j) 0 0
  have h2 : max (maxAbs (embed M)) (maxAbs (embed N)) ≤ 1 :=
    max_le (maxAbs_embed_le M hM) (maxAbs_embed_le N hN)
  have h3 := le_abs_self (embed M 0 0 - embed N 0 0)
  simp only [embed_00] at h1 h3
  have h4 := le_trans h3 (le_trans h1 hc)
  linarith

/-- Where the in-plane entries dominate, the largest entry scales as they do. -/
theorem maxAbs_scaled (L : ℝ) (hL : 0 < L) (A : T2) (a b : Fin 2) (h1 : 1 ≤ |inv2 A a b|)
    (h2 : L ^ 2 ≤ |inv2 A a b|) :
    maxAbs (embed (inv2 (scaled L A))) = maxAbs (embed (inv2 A)) / L ^ 2 := by
  have hL2 : 0 < L ^ 2 := by positivity
  have e (i j : Fin 2) := inv2_scaled L hL.ne' A i j
  have hm := le_maxAbs (embed (inv2 A)) (up a) (up b)
  have hm' := le_maxAbs (embed (inv2 (scaled L A))) (up a) (up b)
  rw [embed_up] at hm hm'
  rw [e, abs_div, abs_of_pos hL2] at hm'
  have d : 1 ≤ |inv2 A a b| / L ^ 2 := (one_le_div hL2).2 h2
  apply le_antisymm
  · refine maxAbs_le _ _ fun i j => ?_
    have hu (i j : Fin 2) : |inv2 (scaled L A) i j| ≤ maxAbs (embed (inv2 A)) / L ^ 2 := by
      have := le_maxAbs (embed (inv2 A)) (up i) (up j)
      rw [embed_up] at this
      rw [e, abs_div, abs_of_pos hL2]
      gcongr
    have h0 : 0 ≤ maxAbs (embed (inv2 A)) / L ^ 2 := le_trans (abs_nonneg _) (hu 0 0)
    have ht : 1 ≤ maxAbs (embed (inv2 A)) / L ^ 2 := le_trans d (by gcongr)
    rcases fin3_cases i with rfl | rfl | rfl <;> rcases fin3_cases j with rfl | rfl | rfl
    · exact hu 0 0
    · exact hu 0 1
    · simpa [embed] using h0
    · exact hu 1 0
    · exact hu 1 1
    · simpa [embed] using h0
    · simpa [embed] using h0
    · simpa [embed] using h0
    · simpa using ht
  · rw [div_le_iff₀ hL2]
    refine maxAbs_le _ _ fun i j => ?_
    have hu (i j : Fin 2) : |inv2 A i j| ≤ maxAbs (embed (inv2 (scaled L A))) * L ^ 2 := by
      have := le_maxAbs (embed (inv2 (scaled L A))) (up i) (up j)
      rw [embed_up, e, abs_div, abs_of_pos hL2, div_le_iff₀ hL2] at this
      exact this
    have h0 := le_trans (abs_nonneg _) (hu 0 0)
    have ht := le_trans h1 (hu a b)
    rcases fin3_cases i with rfl | rfl | rfl <;> rcases fin3_cases j with rfl | rfl | rfl
    · exact hu 0 0
    · exact hu 0 1
    · simpa [embed] using h0
    · exact hu 1 0
    · exact hu 1 1
    · simpa [embed] using h0
    · simpa [embed] using h0
    · simpa [embed] using h0
    · simpa using ht

theorem maxAbs_diff_scaled (L : ℝ) (hL : 0 < L) (A C : T2) :
    maxAbs (fun i j => embed (inv2 (scaled L A)) i j - embed (inv2 (scaled L C)) i j)
      = maxAbs (fun i j => embed (inv2 A) i j - embed (inv2 C) i j) / L ^ 2 := by
  have hL2 : 0 < L ^ 2 := by positivity
  have e (i j : Fin 3) : embed (inv2 (scaled L A)) i j - embed (inv2 (scaled L C)) i j
      = (embed (inv2 A) i j - embed (inv2 C) i j) / L ^ 2 := by
    have q (M : T2) (i j : Fin 2) := inv2_scaled L hL.ne' M i j
    rcases fin3_cases i with rfl | rfl | rfl <;> rcases fin3_cases j with rfl | rfl | rfl <;>
      simp [embed, mk3, q, sub_div]
  simp only [e]
  apply le_antisymm
  · refine maxAbs_le _ _ fun i j => ?_
    rw [abs_div, abs_of_pos hL2]
    have := le_maxAbs (fun i j => embed (inv2 A) i j - embed (inv2 C) i j) i j
    gcongr
  · rw [div_le_iff₀ hL2]
    refine maxAbs_le _ _ fun i j => ?_
    have := le_maxAbs (fun i j => (embed (inv2 A) i j - embed (inv2 C) i j) / L ^ 2) i j
    simp only [abs_div, abs_of_pos hL2, div_le_iff₀ hL2] at this
    exact this

theorem traceCt_scaled (L : ℝ) (hL : L ≠ 0) (A C : T2) :
    traceCt (data (scaled L A) (scaled L C)) = traceCt (data A C) := by
  simp only [traceCt, data, embed_00, embed_01, embed_10, embed_11, inv2_scaled L hL]
  simp only [scaled]
  field_simp

theorem J0_scaled (L : ℝ) (hL : L ≠ 0) (A C : T2) :
    (data (scaled L A) (scaled L C)).J0 = (data A C).J0 := by
  simp only [data, det2_scaled]
  exact mul_div_mul_left _ _ (pow_ne_zero 4 hL)

theorem Gori_scaled (L : ℝ) (hL : L ≠ 0) (A C : T2) (i j : Fin 2) :
    (data (scaled L A) (scaled L C)).Gori (up i) (up j) = (data A C).Gori (up i) (up j) / L ^ 2 := by
  simp only [data, embed_up, inv2_scaled L hL]

theorem gcon_scaled (L : ℝ) (hL : L ≠ 0) (A C : T2) (i j : Fin 2) :
    (data (scaled L A) (scaled L C)).gcon (up i) (up j) = (data A C).gcon (up i) (up j) / L ^ 2 := by
  simp only [data, embed_up, inv2_scaled L hL]

theorem cinv_scaled (L x : ℝ) (hL : L ≠ 0) (A C : T2) (i j : Fin 2) :
    (cdata (data (scaled L A) (scaled L C)) x).cinv (up i) (up j)
      = (cdata (data A C) x).cinv (up i) (up j) / L ^ 2 := by
  simp only [cdata, withT_up, gcon_scaled L hL]

theorem I1_scaled (L x : ℝ) (hL : L ≠ 0) (A C : T2) :
    I1 (cdata (data (scaled L A) (scaled L C)) x) = I1 (cdata (data A C) x) := by
  simp only [I1, cdata, withT_22, traceCt_scaled L hL]

theorem I2_scaled (L x : ℝ) (hL : L ≠ 0) (A C : T2) :
    I2 (cdata (data (scaled L A) (scaled L C)) x) = I2 (cdata (data A C) x) := by
  simp only [I2, cdata, withT_22, traceCt_scaled L hL, J0_scaled L hL]

theorem J_scaled (L x : ℝ) (hL : L ≠ 0) (A C : T2) :
    (cdata (data (scaled L A) (scaled L C)) x).J = (cdata (data A C) x).J := by
  simp only [cdata, J0_scaled L hL]

theorem dI2_scaled (L x : ℝ) (hL : L ≠ 0) (A C : T2) (i j : Fin 2) :
    dI2 (cdata (data (scaled L A) (scaled L C)) x) (up i) (up j)
      = dI2 (cdata (data A C) x) (up i) (up j) / L ^ 2 := by
  have h1 := cinv_scaled L x hL A C i j
  have h2 : (cdata (data (scaled L A) (scaled L C)) x).D.Gori (up i) (up j)
      = (cdata (data A C) x).D.Gori (up i) (up j) / L ^ 2 := Gori_scaled L hL A C i j
  have h3 : (cdata (data (scaled L A) (scaled L C)) x).D.J0 = (cdata (data A C) x).D.J0 :=
    J0_scaled L hL A C
  have h4 : (cdata (data (scaled L A) (scaled L C)) x).c 2 2 = (cdata (data A C) x).c 2 2 := rfl
  simp only [dI2, dI1, delta_up, idelta_up, h1, h2, h3, h4]
  ring

end Verif.Shortcut
