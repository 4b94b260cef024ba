import Mathlib.Analysis.Normed.Module.FiniteDimension
import Mathlib.Analysis.Normed.Operator.NormedSpace
import Mathlib.Analysis.Normed.Operator.BoundedLinearMaps
import Mathlib.LinearAlgebra.Dual.Lemmas
import Mathlib.Topology.Algebra.Module.FiniteDimensionBilinear
import Mathlib.Tactic.Linarith
import Mathlib.Tactic.Positivity
import Mathlib.Tactic.FieldSimp

/-! # Helper lemmas: bilinear forms with a large multiple of a semi-definite form -/

namespace Verif.PenaltyLimit

variable {V : Type*} [NormedAddCommGroup V] [NormedSpace ℝ V] [FiniteDimensional ℝ V]

theorem bounded (Q : V →ₗ[ℝ] V →ₗ[ℝ] ℝ) : ∃ B, 0 ≤ B ∧ ∀ x y, |Q x y| ≤ B * ‖x‖ * ‖y‖ := by
  refine ⟨‖Q.toContinuousBilinearMap‖, ContinuousLinearMap.opNorm_nonneg _, fun x y => ?_⟩
  have h1 : ‖Q.toContinuousBilinearMap x y‖ ≤ ‖Q.toContinuousBilinearMap x‖ * ‖y‖ :=
    (Q.toContinuousBilinearMap x).le_opNorm y
  have h2 := Q.toContinuousBilinearMap.le_opNorm x
  calc |Q x y| = ‖Q.toContinuousBilinearMap x y‖ := rfl
    _ ≤ ‖Q.toContinuousBilinearMap x‖ * ‖y‖ := h1
    _ ≤ _ := mul_le_mul_of_nonneg_right h2 (norm_nonneg y)

theorem continuous_form (Q : V →ₗ[ℝ] V →ₗ[ℝ] ℝ) : Continuous fun x => Q x x := by
  have : (fun x => Q x x) = fun x => Q.toContinuousBilinearMap x x := rfl
  rw [this]
  exact (Q.toContinuousBilinearMap.continuous).clm_apply continuous_id

theorem bounded1 (r : V →ₗ[ℝ] ℝ) : ∃ B, 0 ≤ B ∧ ∀ x, |r x| ≤ B * ‖x‖ :=
  ⟨‖LinearMap.toContinuousLinearMap r‖, ContinuousLinearMap.opNorm_nonneg _, fun x =>
    (LinearMap.toContinuousLinearMap r).le_opNorm x⟩

/-- A form that is positive on a subspace is bounded below there. -/
theorem coercive (W : Submodule ℝ V) (Q : V →ₗ[ℝ] V →ₗ[ℝ] ℝ)
    (h : ∀ w ∈ W, w ≠ 0 → 0 < Q w w) : ∃ c, 0 < c ∧ ∀ w ∈ W, c * ‖w‖ ^ 2 ≤ Q w w := by
  by_cases hW : ∃ w ∈ W, w ≠ 0
  · obtain ⟨w0, hw0, hn0⟩ := hW
    have hc : IsCompact (Metric.sphere (0 : V) 1 ∩ (W : Set V)) :=
      (isCompact_sphere 0 1).inter_right W.closed_of_finiteDimensional
    have hne : (Metric.sphere (0 : V) 1 ∩ (W : Set V)).Nonempty := by
      refine ⟨‖w0‖⁻¹ • w0, ?_, W.smul_mem _ hw0⟩
      rw [mem_sphere_zero_iff_norm, norm_smul, norm_inv, norm_norm,
        inv_mul_cancel₀ (norm_ne_zero_iff.2 hn0)]
    obtain ⟨m, ⟨hm1, hm2⟩, hmin⟩ := hc.exists_isMinOn hne (continuous_form Q).continuousOn
    have hm0 : m ≠ 0 := by
      rintro rfl
      rw [mem_sphere_zero_iff_norm, norm_zero] at hm1
      exact zero_ne_one hm1
    refine ⟨Q m m, h m hm2 hm0, fun w hw => ?_⟩
    by_cases hw0 : w = 0
    · simp [hw0]
    have hn : ‖w‖ ≠ 0 := norm_ne_zero_iff.2 hw0
    have hmem : ‖w‖⁻¹ • w ∈ Metric.sphere (0 : V) 1 ∩ (W : Set V) := by
      refine ⟨?_, W.smul_mem _ hw⟩
      rw [mem_sphere_zero_iff_norm, norm_smul, norm_inv, norm_norm, inv_mul_cancel₀ hn]
    have h1 : Q m m ≤ Q (‖w‖⁻¹ • w) (‖w‖⁻¹ • w) := hmin hmem
    simp only [map_smul, LinearMap.smul_apply, smul_eq_mul] at h1
    have h2 : 0 < ‖w‖ ^ 2 := by positivity
    calc Q m m * ‖w‖ ^ 2 ≤ ‖w‖⁻¹ * (‖w‖⁻¹ * Q w w) * ‖w‖ ^ 2 :=
          mul_le_mul_of_nonneg_right h1 h2.le
      _ = Q w w := by field_simp
  · refine ⟨1, one_pos, fun w hw => ?_⟩
    have : w = 0 := by
      by_contra h0
      exact hW ⟨w, hw, h0⟩
    simp [this]

/-- A form that is positive on a subspace represents every functional there. -/
theorem represent (W : Submodule ℝ V) (Q : V →ₗ[ℝ] V →ₗ[ℝ] ℝ)
    (h : ∀ w ∈ W, w ≠ 0 → 0 < Q w w) (r : V →ₗ[ℝ] ℝ) : ∃ w ∈ W, ∀ v ∈ W, Q w v = r v := by
  let T : W →ₗ[ℝ] Module.Dual ℝ W :=
    (LinearMap.lcomp ℝ ℝ W.subtype).comp (Q.comp W.subtype)
  have hT : ∀ a b : W, T a b = Q a b := fun _ _ => rfl
  have hinj : Function.Injective T := by
    rw [← LinearMap.ker_eq_bot, LinearMap.ker_eq_bot']
    intro a ha
    by_contra h0
    have h1 : T a a = 0 := by rw [ha]; rfl
    have h2 := h a a.2 fun h => h0 (Subtype.ext h)
    rw [hT] at h1
    exact h2.ne' h1
  have hs := (LinearMap.injective_iff_surjective_of_finrank_eq_finrank
    (Subspace.dual_finrank_eq (K := ℝ) (V := W)).symm).1 hinj
  obtain ⟨w, hw⟩ := hs (r.comp W.subtype)
  refine ⟨w, w.2, fun v hv => ?_⟩
  have := congrArg (fun f => f ⟨v, hv⟩) hw
  exact this

omit [FiniteDimensional ℝ V] in
/-- For a semi-definite symmetric form, null vectors are orthogonal to everything. -/
theorem null {P : V →ₗ[ℝ] V →ₗ[ℝ] ℝ} (hs : ∀ x y, P x y = P y x) (hP : ∀ x, 0 ≤ P x x) {n : V}
    (hn : P n n = 0) (v : V) : P n v = 0 := by
  have key : ∀ t : ℝ, 0 ≤ 2 * t * P n v + t ^ 2 * P v v := by
    intro t
    have h := hP (n + t • v)
    simp only [map_add, map_smul, LinearMap.add_apply, LinearMap.smul_apply, smul_eq_mul, hn,
      hs v n] at h
    nlinarith [h]
  have hv := hP v
  by_contra h0
  rcases eq_or_lt_of_le hv with h | h
  · have h1 := key (-(P n v))
    rw [← h] at h1
    have h2 : 0 < P n v ^ 2 := by positivity
    nlinarith
  · have h1 := key (-(P n v) / P v v)
    have h2 : 2 * (-(P n v) / P v v) * P n v + (-(P n v) / P v v) ^ 2 * P v v
        = -(P n v ^ 2) / P v v := by field_simp; ring
    rw [h2] at h1
    have h3 : 0 < P n v ^ 2 / P v v := by positivity
    rw [neg_div] at h1
    linarith

/-- The null space of a semi-definite symmetric form. -/
def kernel (P : V →ₗ[ℝ] V →ₗ[ℝ] ℝ) : Submodule ℝ V := LinearMap.ker P

omit [FiniteDimensional ℝ V] in
theorem mem_kernel {P : V →ₗ[ℝ] V →ₗ[ℝ] ℝ} (hs : ∀ x y, P x y = P y x) (hP : ∀ x, 0 ≤ P x x)
    {n : V} : n ∈ kernel P ↔ P n n = 0 := by
  constructor
  · intro h
    have : P n = 0 := h
    rw [this]; rfl
  · intro h
    show P n = 0
    ext v
    exact null hs hP h v

section Main

variable {K P : V →ₗ[ℝ] V →ₗ[ℝ] ℝ} (hs : ∀ x y, P x y = P y x) (hP : ∀ x, 0 ≤ P x x)
  (hK : ∀ n, P n n = 0 → n ≠ 0 → 0 < K n n)

include hs hP hK

/-- For large multiples of `P`, of either sign, solutions are bounded by the loads. -/
theorem stable : ∃ C τ₀ : ℝ, 0 ≤ C ∧ 0 < τ₀ ∧ ∀ τ : ℝ, τ₀ ≤ |τ| → ∀ (d : V) (F : ℝ), 0 ≤ F →
    (∀ v, |K d v + τ * P d v| ≤ F * ‖v‖) → ‖d‖ ≤ C * F := by
  obtain ⟨M, hM⟩ := (kernel P).exists_isCompl
  obtain ⟨B, hB0, hB⟩ := bounded K
  obtain ⟨k, hk0, hk⟩ := coercive (kernel P) K fun w hw h0 =>
    hK w ((mem_kernel hs hP).1 hw) h0
  obtain ⟨p, hp0, hp⟩ := coercive M P fun w hw h0 => lt_of_le_of_ne (hP w) fun h => by
    have h1 : w ∈ kernel P := (mem_kernel hs hP).2 h.symm
    have h2 : w ∈ kernel P ⊓ M := ⟨h1, hw⟩
    rw [hM.inf_eq_bot] at h2
    exact h0 h2
  refine ⟨(1 + B / k) + (1 / k + B / k * (1 + B / k)), (B + B ^ 2 / k + 1) / p, by positivity,
    by positivity, fun τ hτ d F hF h => ?_⟩
  obtain ⟨n, hn, m, hm, rfl⟩ : ∃ n ∈ kernel P, ∃ m ∈ M, n + m = d :=
    Submodule.mem_sup.1 (by rw [hM.sup_eq_top]; exact Submodule.mem_top)
  have hPn : ∀ v, P n v = 0 := null hs hP ((mem_kernel hs hP).1 hn)
  have hPn' : ∀ v, P v n = 0 := fun v => by rw [hs, hPn]
  -- the part in the null space
  have e1 : k * ‖n‖ ≤ F + B * ‖m‖ := by
    by_cases h0 : ‖n‖ = 0
    · rw [h0]; have := norm_nonneg m; nlinarith [mul_nonneg hB0 this]
    have hpos : 0 < ‖n‖ := lt_of_le_of_ne (norm_nonneg n) (Ne.symm h0)
    have h1 := h n
    rw [hPn', mul_zero, add_zero, map_add, LinearMap.add_apply] at h1
    have h2 := hk n hn
    have h3 := hB m n
    have h4 := (abs_le.1 h1).2
    have h5 := (abs_le.1 h3).1
    have h6 : k * ‖n‖ * ‖n‖ ≤ (F + B * ‖m‖) * ‖n‖ := by nlinarith
    exact le_of_mul_le_mul_right h6 hpos
  have e2 : |τ| * p * ‖m‖ ≤ F + B * (‖n‖ + ‖m‖) := by
    by_cases h0 : ‖m‖ = 0
    · rw [h0]; have := norm_nonneg n; nlinarith [mul_nonneg hB0 this]
    have hpos : 0 < ‖m‖ := lt_of_le_of_ne (norm_nonneg m) (Ne.symm h0)
    have h1 := h m
    have h2 := hp m hm
    have h3 := hB (n + m) m
    have h4 : |τ * P (n + m) m| ≤ |K (n + m) m + τ * P (n + m) m| + |K (n + m) m| := by
      have := abs_sub (K (n + m) m + τ * P (n + m) m) (K (n + m) m)
      rwa [add_sub_cancel_left] at this
    have h5 : P (n + m) m = P m m := by rw [map_add, LinearMap.add_apply, hPn, zero_add]
    rw [h5, abs_mul, abs_of_nonneg (hP m)] at h4
    have h6 : B * ‖n + m‖ * ‖m‖ ≤ B * (‖n‖ + ‖m‖) * ‖m‖ :=
      mul_le_mul_of_nonneg_right (mul_le_mul_of_nonneg_left (norm_add_le n m) hB0) hpos.le
    have h7 : |τ| * (p * ‖m‖ ^ 2) ≤ |τ| * P m m := mul_le_mul_of_nonneg_left h2 (abs_nonneg τ)
    rw [h5] at h1
    have h8 : |τ| * p * ‖m‖ * ‖m‖ ≤ (F + B * (‖n‖ + ‖m‖)) * ‖m‖ := by nlinarith
    exact le_of_mul_le_mul_right h8 hpos
  have e3 : ‖n‖ ≤ F / k + B / k * ‖m‖ := by
    rw [← sub_nonneg]
    have : F / k + B / k * ‖m‖ - ‖n‖ = (F + B * ‖m‖ - k * ‖n‖) / k := by field_simp
    rw [this]; exact div_nonneg (by linarith) hk0.le
  have e4 : (B + B ^ 2 / k + 1) * ‖m‖ ≤ |τ| * p * ‖m‖ := by
    refine mul_le_mul_of_nonneg_right ?_ (norm_nonneg m)
    rwa [div_le_iff₀ hp0] at hτ
  have e5 : B * ‖n‖ ≤ B * (F / k + B / k * ‖m‖) := mul_le_mul_of_nonneg_left e3 hB0
  have e6 : ‖m‖ ≤ (1 + B / k) * F := by
    have : B * (F / k + B / k * ‖m‖) = B / k * F + B ^ 2 / k * ‖m‖ := by field_simp
    nlinarith
  have e7 : B / k * ‖m‖ ≤ B / k * ((1 + B / k) * F) :=
    mul_le_mul_of_nonneg_left e6 (by positivity)
  calc ‖n + m‖ ≤ ‖n‖ + ‖m‖ := norm_add_le n m
    _ ≤ (F / k + B / k * ((1 + B / k) * F)) + (1 + B / k) * F := by linarith
    _ = _ := by ring

/-- Solutions tend to zero like `1/τ` if the load does no work on the null space of `P`. -/
theorem limit : ∃ τ₀ : ℝ, 0 < τ₀ ∧
    (∀ τ : ℝ, τ₀ ≤ |τ| → ∀ d, (∀ v, K d v + τ * P d v = 0) → d = 0) ∧
    ∀ r : V →ₗ[ℝ] ℝ, (∀ n, P n n = 0 → r n = 0) →
      ∃ C : ℝ, ∀ τ : ℝ, τ₀ ≤ |τ| → ∀ e, (∀ v, K e v + τ * P e v = r v) → ‖e‖ ≤ C / |τ| := by
  obtain ⟨C, τ₀, hC, h0, h⟩ := stable hs hP hK
  refine ⟨τ₀, h0, fun τ hτ d hd => ?_, fun r hr => ?_⟩
  · have := h τ hτ d 0 le_rfl fun v => by simp [hd v]
    rw [mul_zero] at this
    exact norm_le_zero_iff.1 this
  · obtain ⟨M, hM⟩ := (kernel P).exists_isCompl
    obtain ⟨l, hl, hlr⟩ := represent M P (fun w hw h0 => lt_of_le_of_ne (hP w) fun h => by
      have h2 : w ∈ kernel P ⊓ M := ⟨(mem_kernel hs hP).2 h.symm, hw⟩
      rw [hM.inf_eq_bot] at h2
      exact h0 h2) r
    have hall : ∀ v, P l v = r v := by
      intro v
      obtain ⟨n, hn, m, hm, rfl⟩ : ∃ n ∈ kernel P, ∃ m ∈ M, n + m = v :=
        Submodule.mem_sup.1 (by rw [hM.sup_eq_top]; exact Submodule.mem_top)
      have hn' := (mem_kernel hs hP).1 hn
      rw [map_add, map_add, hr n hn', hlr m hm, hs l n, null hs hP hn']
    obtain ⟨B, hB0, hB⟩ := bounded K
    refine ⟨‖l‖ + C * (B * ‖l‖), fun τ hτ e he => ?_⟩
    have hpos : 0 < |τ| := h0.trans_le hτ
    have hne : τ ≠ 0 := abs_pos.1 hpos
    have h1 := h τ hτ (e - τ⁻¹ • l) (|τ|⁻¹ * (B * ‖l‖)) (by positivity) fun v => by
      have : K (e - τ⁻¹ • l) v + τ * P (e - τ⁻¹ • l) v = -(τ⁻¹ * K l v) := by
        simp only [map_sub, map_smul, LinearMap.sub_apply, LinearMap.smul_apply, smul_eq_mul,
          hall]
        have := he v
        field_simp
        linear_combination τ * this
      rw [this, abs_neg, abs_mul, abs_inv]
      have := hB l v
      calc |τ|⁻¹ * |K l v| ≤ |τ|⁻¹ * (B * ‖l‖ * ‖v‖) :=
            mul_le_mul_of_nonneg_left this (by positivity)
        _ = _ := by ring
    have h2 : ‖e‖ ≤ ‖e - τ⁻¹ • l‖ + ‖τ⁻¹ • l‖ := by
      have := norm_add_le (e - τ⁻¹ • l) (τ⁻¹ • l)
      rwa [sub_add_cancel] at this
    rw [norm_smul, norm_inv, Real.norm_eq_abs] at h2
    calc ‖e‖ ≤ C * (|τ|⁻¹ * (B * ‖l‖)) + |τ|⁻¹ * ‖l‖ := by linarith
      _ = _ := by rw [div_eq_mul_inv]; ring

end Main

/-- Subtracting enough of a semi-definite form makes a definite form singular. -/
theorem singular {K P : V →ₗ[ℝ] V →ₗ[ℝ] ℝ} (hKs : ∀ x y, K x y = K y x)
    (hK : ∀ x, x ≠ 0 → 0 < K x x) (hPs : ∀ x y, P x y = P y x) (hP : ∀ x, 0 ≤ P x x) {x₀ : V}
    (h₀ : P x₀ x₀ ≠ 0) :
    ∃ τ : ℝ, 0 < τ ∧ (∀ x, 0 ≤ K x x - τ * P x x) ∧
      (∃ x, x ≠ 0 ∧ ∀ v, K x v - τ * P x v = 0) ∧ ∀ σ, τ < σ → ∃ x, K x x - σ * P x x < 0 := by
  have hx₀ : x₀ ≠ 0 := fun h => h₀ (by rw [h]; simp)
  have hc : IsCompact (Metric.sphere (0 : V) 1) := isCompact_sphere 0 1
  have unit : ∀ x : V, x ≠ 0 → ‖x‖⁻¹ • x ∈ Metric.sphere (0 : V) 1 := fun x hx => by
    rw [mem_sphere_zero_iff_norm, norm_smul, norm_inv, norm_norm,
      inv_mul_cancel₀ (norm_ne_zero_iff.2 hx)]
  have ne : ∀ x ∈ Metric.sphere (0 : V) 1, x ≠ 0 := by
    rintro x hx rfl
    rw [mem_sphere_zero_iff_norm, norm_zero] at hx
    exact zero_ne_one hx
  have hcont : ContinuousOn (fun x => P x x / K x x) (Metric.sphere (0 : V) 1) :=
    (continuous_form P).continuousOn.div (continuous_form K).continuousOn fun x hx =>
      (hK x (ne x hx)).ne'
  obtain ⟨m, hm, hmax⟩ := hc.exists_isMaxOn ⟨_, unit x₀ hx₀⟩ hcont
  have ratio : ∀ x, x ≠ 0 → P x x / K x x ≤ P m m / K m m := fun x hx => by
    have h1 : P (‖x‖⁻¹ • x) (‖x‖⁻¹ • x) / K (‖x‖⁻¹ • x) (‖x‖⁻¹ • x) ≤ P m m / K m m :=
      hmax (unit x hx)
    have hn : ‖x‖ ≠ 0 := norm_ne_zero_iff.2 hx
    have hk := (hK x hx).ne'
    simp only [map_smul, LinearMap.smul_apply, smul_eq_mul] at h1
    have h2 : ‖x‖⁻¹ * (‖x‖⁻¹ * P x x) / (‖x‖⁻¹ * (‖x‖⁻¹ * K x x)) = P x x / K x x := by
      field_simp
    rwa [h2] at h1
  have hm0 := ne m hm
  have hKm := hK m hm0
  have hpos : 0 < P m m / K m m :=
    (div_pos (lt_of_le_of_ne (hP x₀) (Ne.symm h₀)) (hK x₀ hx₀)).trans_le (ratio x₀ hx₀)
  have hPm : 0 < P m m := by
    rcases (div_pos_iff.1 hpos) with h | h
    · exact h.1
    · exact absurd h.2 (not_lt.2 hKm.le)
  have semi : ∀ x, 0 ≤ K x x - K m m / P m m * P x x := by
    intro x
    by_cases hx : x = 0
    · simp [hx]
    have h1 := ratio x hx
    rw [div_le_div_iff₀ (hK x hx) hKm] at h1
    have : K x x - K m m / P m m * P x x = (P m m * K x x - P x x * K m m) / P m m := by
      field_simp
    rw [this]
    exact div_nonneg (by linarith) hPm.le
  refine ⟨K m m / P m m, div_pos hKm hPm, semi, ⟨m, hm0, fun v => ?_⟩, fun σ hσ => ⟨m, ?_⟩⟩
  · have h1 := null (P := K - (K m m / P m m) • P) (n := m)
      (fun x y => by simp [hKs x y, hPs x y]) (fun x => by simpa using semi x)
      (by simp [hPm.ne']) v
    simpa using h1
  · have : K m m / P m m * P m m < σ * P m m := mul_lt_mul_of_pos_right hσ hPm
    rw [div_mul_cancel₀ _ hPm.ne'] at this
    linarith

end Verif.PenaltyLimit
