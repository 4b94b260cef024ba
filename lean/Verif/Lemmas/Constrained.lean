import Verif.Lemmas.LocalNewton
import Verif.Lemmas.LoadedShell
import Mathlib.Analysis.InnerProductSpace.Projection.Submodule
import Mathlib.Analysis.InnerProductSpace.Projection.FiniteDimensional
import Mathlib.Analysis.InnerProductSpace.Symmetric

/-!
# Helper lemmas: linear problems with a large penalty of either sign, as operators
-/

namespace Verif.Constrained

open RealInnerProductSpace

variable {V : Type} [NormedAddCommGroup V] [InnerProductSpace ℝ V] [FiniteDimensional ℝ V]
variable {K M : V →L[ℝ] V}

/-- An injective linear map on a subspace of a finite-dimensional space is bounded below. -/
theorem below (W : Submodule ℝ V) (h : ∀ w ∈ W, M w = 0 → w = 0) : ∃ m > 0, ∀ w ∈ W, m * ‖w‖ ≤ ‖M w‖ := by
  have hk : LinearMap.ker (M.toLinearMap.comp W.subtype) = ⊥ := by
    rw [LinearMap.ker_eq_bot']
    intro w hw
    exact Subtype.ext (h w w.2 hw)
  obtain ⟨L, hL, ha⟩ := (M.toLinearMap.comp W.subtype).exists_antilipschitzWith hk
  refine ⟨(L : ℝ)⁻¹, inv_pos.2 hL, fun w hw => ?_⟩
  have := ha.le_mul_dist (⟨w, hw⟩ : W) 0
  rw [dist_zero_right, map_zero, dist_zero_right] at this
  rw [inv_mul_le_iff₀ (NNReal.coe_pos.2 hL)]
  exact this

/-- The matrix is bounded below uniformly for all large penalties of either sign. -/
theorem uniform (hs : ∀ u v, ⟪M u, v⟫ = ⟪u, M v⟫) (hp : ∀ v, M v = 0 → v ≠ 0 → 0 < ⟪K v, v⟫) :
    ∃ α₀ c : ℝ, 0 < α₀ ∧ 0 < c ∧ ∀ α : ℝ, α₀ ≤ |α| → ∀ v, c * ‖v‖ ≤ ‖K v + α • M v‖ := by
  let N : Submodule ℝ V := LinearMap.ker M.toLinearMap
  have memN : ∀ v, v ∈ N ↔ M v = 0 := fun v => LinearMap.mem_ker
  obtain ⟨m, hm, hm'⟩ := below (M := M) Nᗮ fun w hw h0 => by
    have := hw w ((memN w).2 h0)
    exact inner_self_eq_zero.1 this
  obtain ⟨k, hk, hk'⟩ := Solve.coercive (V := N)
    (N.orthogonalProjectionOnto ∘L K ∘L N.subtypeL) (fun v hv => by
      rw [ContinuousLinearMap.comp_apply, ContinuousLinearMap.comp_apply, Submodule.inner_orthogonalProjectionOnto_eq_of_mem_right]
      exact hp v ((memN _).1 v.2) fun h => hv (Subtype.ext h))
  have hk2 : ∀ p ∈ N, k * ‖p‖ ^ 2 ≤ ⟪K p, p⟫ := by
    intro p hp'
    have := hk' ⟨p, hp'⟩
    rw [ContinuousLinearMap.comp_apply, ContinuousLinearMap.comp_apply, Submodule.inner_orthogonalProjectionOnto_eq_of_mem_right] at this
    exact this
  set κ := ‖K‖ with hκ
  have hκ0 : 0 ≤ κ := norm_nonneg K
  refine ⟨(κ ^ 2 + k * κ + (k + κ)) / (k * m), 1 / ((1 + κ) / k + 1), by positivity, by positivity, fun α hα v => ?_⟩
  obtain ⟨p, hpN, w, hw, rfl⟩ := N.exists_add_mem_mem_orthogonal v
  set r := ‖K (p + w) + α • M (p + w)‖ with hr
  have hMp : M p = 0 := (memN p).1 hpN
  have h1 : |α| * (m * ‖w‖) ≤ r + κ * (‖p‖ + ‖w‖) := by
    have e : α • M w = (K (p + w) + α • M (p + w)) - K (p + w) := by rw [map_add M, hMp, zero_add]; abel
    calc |α| * (m * ‖w‖) ≤ |α| * ‖M w‖ := mul_le_mul_of_nonneg_left (hm' w hw) (abs_nonneg _)
      _ = ‖α • M w‖ := by rw [norm_smul, Real.norm_eq_abs]
      _ ≤ r + ‖K (p + w)‖ := by rw [e]; exact norm_sub_le _ _
      _ ≤ r + κ * (‖p‖ + ‖w‖) := by
        have := K.le_opNorm (p + w)
        have h2 := mul_le_mul_of_nonneg_left (norm_add_le p w) hκ0
        linarith
  have h2 : k * ‖p‖ ≤ r + κ * ‖w‖ := by
    have e : ⟪K p, p⟫ = ⟪K (p + w) + α • M (p + w), p⟫ - ⟪K w, p⟫ := by
      rw [inner_add_left, inner_smul_left, hs, hMp, inner_zero_right, map_add, inner_add_left]; simp
    have b1 := hk2 p hpN
    have b2 := real_inner_le_norm (K (p + w) + α • M (p + w)) p
    have b3 := (abs_le.1 (abs_real_inner_le_norm (K w) p)).1
    have b4 := mul_le_mul_of_nonneg_right (K.le_opNorm w) (norm_nonneg p)
    rcases (norm_nonneg p).eq_or_lt with h0 | h0
    · rw [← h0, mul_zero]; positivity
    · refine le_of_mul_le_mul_right ?_ h0
      nlinarith
  rw [div_le_iff₀ (by positivity)] at hα
  have h3 : ‖w‖ ≤ r := by
    have g1 : k * (|α| * (m * ‖w‖)) ≤ k * r + κ * (r + κ * ‖w‖) + k * κ * ‖w‖ := by
      have := mul_le_mul_of_nonneg_left h1 hk.le
      have := mul_le_mul_of_nonneg_left h2 hκ0
      nlinarith
    have g2 := mul_le_mul_of_nonneg_right hα (norm_nonneg w)
    have g3 : (k + κ) * ‖w‖ ≤ (k + κ) * r := by nlinarith
    exact le_of_mul_le_mul_left g3 (by positivity)
  have h4 : ‖p‖ ≤ (1 + κ) / k * r := by
    rw [div_mul_eq_mul_div, le_div_iff₀ hk]
    have := mul_le_mul_of_nonneg_left h3 hκ0
    nlinarith
  rw [div_mul_eq_mul_div, one_mul, div_le_iff₀ (by positivity)]
  have := norm_add_le p w
  nlinarith

/-- A vector orthogonal to the kernel of a symmetric map is in its range. -/
theorem multiplier (hs : ∀ u v, ⟪M u, v⟫ = ⟪u, M v⟫) {f : V} (h : ∀ v, M v = 0 → ⟪f, v⟫ = 0) : ∃ l, M l = f := by
  have h1 : f ∈ (LinearMap.range M.toLinearMap)ᗮᗮ := by
    rw [Submodule.mem_orthogonal]
    intro u hu
    have : M u = 0 := by
      refine inner_self_eq_zero.1 (?_ : ⟪M u, M u⟫ = (0 : ℝ))
      rw [hs u (M u)]
      have := (Submodule.mem_orthogonal _ _).1 hu (M (M u)) ⟨M u, rfl⟩
      rwa [real_inner_comm]
    rw [real_inner_comm]
    exact h u this
  rw [Submodule.orthogonal_orthogonal] at h1
  exact h1

/-- Solutions with large penalties of either sign approach the constrained solution. -/
theorem limit (hs : ∀ u v, ⟪M u, v⟫ = ⟪u, M v⟫) (hp : ∀ v, M v = 0 → v ≠ 0 → 0 < ⟪K v, v⟫) {F G xs : V}
    (hG : M xs = G) (hF : ∀ v, M v = 0 → ⟪K xs - F, v⟫ = 0) :
    ∃ α₀ C : ℝ, 0 < α₀ ∧ ∀ α : ℝ, α₀ ≤ |α| → ∃ x, (∀ y, K y + α • M y = F + α • G ↔ y = x) ∧ ‖x - xs‖ ≤ C / |α| := by
  obtain ⟨α₀, c, hα0, hc, h⟩ := uniform hs hp
  obtain ⟨l, hl⟩ := multiplier hs (f := F - K xs) fun v hv => by
    rw [← neg_sub, inner_neg_left, hF v hv, neg_zero]
  refine ⟨α₀, ‖l‖ + ‖K l‖ / c, hα0, fun α hα => ?_⟩
  have ha : 0 < |α| := hα0.trans_le hα
  have hα' : α ≠ 0 := abs_pos.1 ha
  let A : V →ₗ[ℝ] V := (K + α • M).toLinearMap
  have hA : ∀ v, A v = K v + α • M v := fun v => rfl
  have hinj : Function.Injective A := by
    rw [injective_iff_map_eq_zero]
    intro v hv
    have := h α hα v
    rw [← hA, hv, norm_zero] at this
    have h0 : ‖v‖ ≤ 0 := by
      by_contra hcon
      push Not at hcon
      have := mul_pos hc hcon
      linarith
    exact norm_le_zero_iff.1 h0
  obtain ⟨x, hx⟩ := (LinearMap.injective_iff_surjective.1 hinj) (F + α • G)
  refine ⟨x, fun y => ⟨fun hy => hinj ((hA y).trans (hy.trans hx.symm)), fun hy => by rw [hy, ← hA, hx]⟩, ?_⟩
  have e : A (x - xs - α⁻¹ • l) = -(α⁻¹ • K l) := by
    rw [map_sub, map_sub, hx, hA xs, hG, hA (α⁻¹ • l), map_smul, map_smul, hl, smul_inv_smul₀ hα']
    abel
  have h1 : ‖x - xs - α⁻¹ • l‖ ≤ ‖K l‖ / c / |α| := by
    have := h α hα (x - xs - α⁻¹ • l)
    rw [← hA, e, norm_neg, norm_smul, norm_inv, Real.norm_eq_abs] at this
    rw [div_div, le_div_iff₀ (by positivity)]
    calc ‖x - xs - α⁻¹ • l‖ * (c * |α|) = (c * ‖x - xs - α⁻¹ • l‖) * |α| := by ring
      _ ≤ (|α|⁻¹ * ‖K l‖) * |α| := mul_le_mul_of_nonneg_right this ha.le
      _ = ‖K l‖ := by field_simp
  calc ‖x - xs‖ = ‖(x - xs - α⁻¹ • l) + α⁻¹ • l‖ := by congr 1; abel
    _ ≤ ‖x - xs - α⁻¹ • l‖ + ‖α⁻¹ • l‖ := norm_add_le _ _
    _ ≤ ‖K l‖ / c / |α| + ‖l‖ / |α| := by
      have : ‖α⁻¹ • l‖ = ‖l‖ / |α| := by rw [norm_smul, norm_inv, Real.norm_eq_abs]; ring
      linarith
    _ = _ := by ring

end Verif.Constrained
