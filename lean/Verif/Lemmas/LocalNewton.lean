import Verif.Props.Solve
import Verif.Spec.ShellSystem
import Mathlib.Analysis.Calculus.ContDiff.RCLike
import Mathlib.Analysis.Calculus.ContDiff.Comp
import Mathlib.Analysis.Calculus.FDeriv.Add
import Mathlib.Analysis.Calculus.Deriv.MeanValue
import Mathlib.Analysis.InnerProductSpace.Basic
import Mathlib.Analysis.Calculus.InverseFunctionTheorem.FDeriv
import Mathlib.Analysis.Normed.Module.FiniteDimension
import Mathlib.Analysis.Calculus.Gradient.Basic

/-! # Helper lemmas: systems that are smooth near a state with a regular tangent -/

namespace Verif.Solve

open Spec.Solve Spec.ShellSystem Filter Topology

variable {V : Type} [NormedAddCommGroup V] [NormedSpace ℝ V] [FiniteDimensional ℝ V]

omit [FiniteDimensional ℝ V] in
/-- Constants near a state at which the residual is twice differentiable. -/
theorem local_lipschitz {R : V → V} {K : V → V →L[ℝ] V} {xs : V} (hR : ContDiffAt ℝ 2 R xs)
    (hK : ∀ᶠ x in 𝓝 xs, HasFDerivAt R (-K x) x) :
    ∃ L r : ℝ, 0 ≤ L ∧ 0 < r ∧ ∀ x ∈ Metric.closedBall xs r, HasFDerivAt R (-K x) x ∧
      ∀ y ∈ Metric.closedBall xs r, ‖-K y + K x‖ ≤ L * ‖y - x‖ := by
  have h1 : ContDiffAt ℝ 1 (fderiv ℝ R) xs := hR.fderiv_right (by norm_num)
  obtain ⟨L, t, ht, hL⟩ := h1.exists_lipschitzOnWith
  obtain ⟨r, hr, hsub⟩ := Metric.nhds_basis_closedBall.mem_iff.1 (Filter.inter_mem ht hK)
  refine ⟨L, r, L.2, hr, fun x hx => ⟨(hsub hx).2, fun y hy => ?_⟩⟩
  have e1 : fderiv ℝ R x = -K x := HasFDerivAt.fderiv (hsub hx).2
  have e2 : fderiv ℝ R y = -K y := HasFDerivAt.fderiv (hsub hy).2
  have := hL.dist_le_mul y (hsub hy).1 x (hsub hx).1
  rwa [dist_eq_norm, dist_eq_norm, e1, e2, sub_neg_eq_add] at this

/-- The same, in a ball in which the tangents are regular and Newton's method contracts. -/
theorem local_constants {R : V → V} {K : V → V →L[ℝ] V} {xs : V} (hR : ContDiffAt ℝ 2 R xs)
    (hK : ∀ᶠ x in 𝓝 xs, HasFDerivAt R (-K x) x) (hi : Function.Injective (K xs))
    {S : Set V} (hS : S ∈ 𝓝 xs) :
    ∃ L β ρ : ℝ, 0 ≤ L ∧ 0 < β ∧ 0 < ρ ∧ ρ ≤ 1 ∧ β * (L * ρ) ≤ 1 / 2 ∧
      Metric.closedBall xs ρ ⊆ S ∧
      Tangent R (fun x => -K x) K (Metric.closedBall xs ρ) L 0 ∧
      ∀ x ∈ Metric.closedBall xs ρ, ∀ v, ‖v‖ ≤ β * ‖K x v‖ := by
  obtain ⟨L, r, hL, hr, h⟩ := local_lipschitz hR hK
  obtain ⟨c, hc, hanti⟩ := (K xs : V →ₗ[ℝ] V).exists_antilipschitzWith (LinearMap.ker_eq_bot.2 hi)
  have hc' : (0 : ℝ) < c := hc
  have hb : ∀ v, ‖v‖ ≤ c * ‖K xs v‖ := fun v => by
    have := hanti.le_mul_dist v 0
    simpa [dist_eq_norm] using this
  obtain ⟨r', hr', hsub⟩ := Metric.nhds_basis_closedBall.mem_iff.1 hS
  have hk : 0 < 4 * c * (L + 1) := by positivity
  have hρ0 : 0 < min (min r r') (min 1 (1 / (4 * c * (L + 1)))) := by positivity
  generalize hρ : min (min r r') (min 1 (1 / (4 * c * (L + 1)))) = ρ at hρ0
  have hρr : ρ ≤ r := hρ ▸ (min_le_left _ _).trans (min_le_left _ _)
  have hρr' : ρ ≤ r' := hρ ▸ (min_le_left _ _).trans (min_le_right _ _)
  have hρ1 : ρ ≤ 1 := hρ ▸ (min_le_right _ _).trans (min_le_left _ _)
  have hρk : ρ ≤ 1 / (4 * c * (L + 1)) := hρ ▸ (min_le_right _ _).trans (min_le_right _ _)
  have hq : c * (L * ρ) ≤ 1 / 4 := by
    have h1 : ρ * (4 * c * (L + 1)) ≤ 1 := by rwa [le_div_iff₀ hk] at hρk
    have h2 : 0 ≤ ρ * (4 * c) := by positivity
    nlinarith
  have hin : ∀ x ∈ Metric.closedBall xs ρ, x ∈ Metric.closedBall xs r := fun x hx =>
    Metric.closedBall_subset_closedBall hρr hx
  refine ⟨L, 2 * c, ρ, hL, by positivity, hρ0, hρ1, by linarith,
    (Metric.closedBall_subset_closedBall hρr').trans hsub,
    ⟨fun x hx => (h x (hin x hx)).1, fun x hx y hy => ?_⟩, fun x hx v => ?_⟩
  · rw [add_zero]; exact (h x (hin x hx)).2 y (hin y hy)
  · have hs : xs ∈ Metric.closedBall xs r := Metric.mem_closedBall_self hr.le
    have h1 := (h x (hin x hx)).2 xs hs
    have h2 : ‖xs - x‖ ≤ ρ := by
      rw [← dist_eq_norm, dist_comm]; exact hx
    have h3 : ‖(-K xs + K x) v‖ ≤ L * ρ * ‖v‖ :=
      (ContinuousLinearMap.le_opNorm _ _).trans
        (mul_le_mul_of_nonneg_right (h1.trans (mul_le_mul_of_nonneg_left h2 hL)) (norm_nonneg _))
    have h4 : ‖K xs v‖ ≤ ‖K x v‖ + L * ρ * ‖v‖ := by
      have : K xs v = K x v - (-K xs + K x) v := by
        simp
      rw [this]
      exact (norm_sub_le _ _).trans (by linarith)
    have h5 := hb v
    have h6 : c * ‖K xs v‖ ≤ c * (‖K x v‖ + L * ρ * ‖v‖) := mul_le_mul_of_nonneg_left h4 hc'.le
    have h7 : c * (L * ρ) * ‖v‖ ≤ 1 / 4 * ‖v‖ := mul_le_mul_of_nonneg_right hq (norm_nonneg _)
    nlinarith [norm_nonneg v, norm_nonneg (K x v)]

omit [FiniteDimensional ℝ V] in
theorem inverse_of {solve : (V →L[ℝ] V) → V → V} (hs : Solver solve) {m : V →L[ℝ] V} {β : ℝ}
    (h : ∀ v, ‖v‖ ≤ β * ‖m v‖) : Inverse solve m β := by
  have hi : Function.Injective m := (injective_iff_map_eq_zero m).2 fun v hv => by
    have := h v
    rw [hv, norm_zero, mul_zero] at this
    exact norm_le_zero_iff.1 this
  exact fun r => ⟨hs m hi r, h⟩

/-- The loop converges to a regular equilibrium from near it. -/
theorem local_newton {R : V → V} {K : V → V →L[ℝ] V} {xs : V} (hR : ContDiffAt ℝ 2 R xs)
    (hK : ∀ᶠ x in 𝓝 xs, HasFDerivAt R (-K x) x) (hi : Function.Injective (K xs)) (h0 : R xs = 0)
    {S : Set V} (hS : S ∈ 𝓝 xs) :
    ∃ ρ C : ℝ, 0 < ρ ∧ ∀ (s : Sys V) (solve : (V →L[ℝ] V) → V → V), Assembles s R K S → Solver solve →
      ‖solve s.K0 s.F - xs‖ ≤ ρ →
      ∃ res, program s solve = .ok res ∧ res.broke = true ∧ ‖res.x - xs‖ ≤ C * (1 / 10 ^ 6) ^ 2 := by
  obtain ⟨L, β, ρ, hL, hβ, hρ, hρ1, hc, hsub, ht, hb⟩ := local_constants hR hK hi hS
  refine ⟨ρ, 4 * β * L, hρ, fun s solve ha hs hx => ?_⟩
  obtain ⟨res, h1, h2, h3⟩ := C139_converges (ρ := ρ) (β := β) (L := L) (ε := 0)
    ⟨fun x hx => ha.residual x (hsub hx), fun x hx => ha.jacobian x (hsub hx)⟩ ht hL le_rfl h0 hβ.le
    (fun x hx => inverse_of hs (hb x hx)) (by linarith) (by linarith [show (1:ℝ) ≤ 10 ^ 20 by norm_num]) hx
  exact ⟨res, h1, h2, h3.trans (le_of_eq (by ring))⟩

/-- A regular state without loads: for small loads there is an equilibrium near it, the linear solution
is its first approximation, and the loop finds it. -/
theorem small_loads {R : V → V} {K : V → V →L[ℝ] V} (hR : ContDiffAt ℝ 2 R 0)
    (hK : ∀ᶠ x in 𝓝 0, HasFDerivAt R (-K x) x) (hi : Function.Injective (K 0)) (h0 : R 0 = 0)
    {S : Set V} (hS : S ∈ 𝓝 0) (F xl : V) (hl : K 0 xl = F) :
    ∃ l₀ ρ C : ℝ, 0 < l₀ ∧ 0 < ρ ∧ ∀ l : ℝ, |l| ≤ l₀ → ∃ xs ∈ S, R xs + l • F = 0 ∧
      ‖xs - l • xl‖ ≤ C * l ^ 2 ∧
      (∀ x, ‖x‖ ≤ ρ → R x + l • F = 0 → x = xs) ∧
      ∀ (s : Sys V) (solve : (V →L[ℝ] V) → V → V), Assembles s (fun x => R x + l • F) K S →
        Solver solve → s.K0 = K 0 → s.F = l • F →
        ∃ res, program s solve = .ok res ∧ res.broke = true ∧ ‖res.x - xs‖ ≤ C * (1 / 10 ^ 6) ^ 2 := by
  obtain ⟨L, β, ρ, hL, hβ, hρ, hρ1, hc, hsub, ht, hb⟩ := local_constants hR hK hi hS
  have hcx := convex_closedBall (0 : V) ρ
  have h0m : (0 : V) ∈ Metric.closedBall (0 : V) ρ := Metric.mem_closedBall_self hρ.le
  have key : ∀ x ∈ Metric.closedBall (0 : V) (ρ / 2), ∀ l : ℝ, R x + l • F = 0 →
      ‖x - l • xl‖ ≤ β * L * ‖x‖ ^ 2 ∧ ‖x‖ ≤ 2 * (|l| * ‖xl‖) := by
    intro x hx l hxl
    have hxρ : x ∈ Metric.closedBall (0 : V) ρ := Metric.closedBall_subset_closedBall (by linarith) hx
    have h1 := ht.remainder hL hcx h0m hxρ
    rw [h0, sub_zero, sub_zero, add_zero] at h1
    have h2 : R x + K 0 x = K 0 (x - l • xl) := by
      rw [map_sub, map_smul, hl, eq_neg_of_add_eq_zero_left hxl]; abel
    rw [h2] at h1
    have h3 : ‖x - l • xl‖ ≤ β * L * ‖x‖ ^ 2 := by
      refine (hb 0 h0m _).trans ((mul_le_mul_of_nonneg_left h1 hβ.le).trans (le_of_eq (by ring)))
    refine ⟨h3, ?_⟩
    have hxn : ‖x‖ ≤ ρ := by simpa using hxρ
    have h4 : β * L * ‖x‖ ^ 2 ≤ 1 / 2 * ‖x‖ := by
      have : β * (L * ‖x‖) ≤ 1 / 2 := (mul_le_mul_of_nonneg_left (mul_le_mul_of_nonneg_left hxn hL) hβ.le).trans hc
      calc β * L * ‖x‖ ^ 2 = β * (L * ‖x‖) * ‖x‖ := by ring
        _ ≤ _ := mul_le_mul_of_nonneg_right this (norm_nonneg _)
    have h5 : ‖x‖ ≤ ‖x - l • xl‖ + ‖l • xl‖ := by
      calc ‖x‖ = ‖(x - l • xl) + l • xl‖ := by congr 1; abel
        _ ≤ _ := norm_add_le _ _
    rw [norm_smul, Real.norm_eq_abs] at h5
    linarith
  -- existence
  have hsd : HasStrictFDerivAt R (-K 0) 0 := by
    have := hR.hasStrictFDerivAt (by norm_num)
    rwa [HasFDerivAt.fderiv (ht.deriv 0 h0m)] at this
  have hsurj : (-K 0).range = ⊤ := by
    have h1 : Function.Injective (-K 0 : V →L[ℝ] V) := fun a b hab => hi (neg_injective hab)
    exact LinearMap.range_eq_top.2 ((LinearMap.injective_iff_surjective (f := ((-K 0 : V →L[ℝ] V) : V →ₗ[ℝ] V))).1 h1)
  have hmap := hsd.map_nhds_eq_of_surj hsurj
  have hball : R '' (Metric.closedBall 0 (ρ / 2)) ∈ 𝓝 (R 0) := by
    rw [← hmap]; exact image_mem_map (Metric.closedBall_mem_nhds _ (by linarith))
  rw [h0] at hball
  have htend : Tendsto (fun l : ℝ => -(l • F)) (𝓝 0) (𝓝 0) := by
    have : Continuous fun l : ℝ => -(l • F) := by fun_prop
    simpa using this.tendsto 0
  obtain ⟨l₁, hl₁, hsub₁⟩ := Metric.nhds_basis_closedBall.mem_iff.1 (htend hball)
  have hk : 0 < 2 * (4 * β * L * ‖xl‖ ^ 2 + 1) := by positivity
  refine ⟨min l₁ (min 1 (ρ / (2 * (4 * β * L * ‖xl‖ ^ 2 + 1)))), ρ / 2, 4 * β * L * ‖xl‖ ^ 2 + 4 * β * L, by positivity,
    by positivity, fun l hlb => ?_⟩
  have hl1 : |l| ≤ l₁ := hlb.trans (min_le_left _ _)
  have hl2 : |l| ≤ 1 := hlb.trans ((min_le_right _ _).trans (min_le_left _ _))
  have hl3 : |l| ≤ ρ / (2 * (4 * β * L * ‖xl‖ ^ 2 + 1)) := hlb.trans ((min_le_right _ _).trans (min_le_right _ _))
  obtain ⟨xs, hxs, hxe⟩ := hsub₁ (show l ∈ Metric.closedBall (0 : ℝ) l₁ by simpa using hl1)
  have he : R xs + l • F = 0 := by rw [hxe]; simp
  obtain ⟨k1, k2⟩ := key xs hxs l he
  have hxsρ : xs ∈ Metric.closedBall (0 : V) ρ := Metric.closedBall_subset_closedBall (by linarith) hxs
  have k3 : ‖xs - l • xl‖ ≤ 4 * β * L * ‖xl‖ ^ 2 * l ^ 2 := by
    have : ‖xs‖ ^ 2 ≤ (2 * (|l| * ‖xl‖)) ^ 2 := by gcongr
    rw [mul_pow, mul_pow, sq_abs] at this
    have hβL : 0 ≤ β * L := by positivity
    nlinarith
  have hnn : 0 ≤ 4 * β * L := by positivity
  refine ⟨xs, hsub hxsρ, he, ?_, fun x hx hxe' => ?_, fun s solve ha hs hK0 hF => ?_⟩
  · nlinarith [sq_nonneg l]
  · -- uniqueness
    have hxm : x ∈ Metric.closedBall (0 : V) ρ := by
      rw [mem_closedBall_zero_iff]; linarith
    have h1 := ht.remainder hL hcx hxsρ hxm
    have h2 : R x = R xs := by
      rw [eq_neg_of_add_eq_zero_left hxe', eq_neg_of_add_eq_zero_left he]
    rw [h2, sub_self, zero_add, add_zero] at h1
    have h3 := hb xs hxsρ (x - xs)
    have h4 : ‖x - xs‖ ≤ ρ := by
      have a : ‖xs‖ ≤ ρ / 2 := by simpa using hxs
      exact (norm_sub_le _ _).trans (by linarith)
    have h5 : ‖x - xs‖ ≤ 1 / 2 * ‖x - xs‖ := by
      calc ‖x - xs‖ ≤ β * (L * ‖x - xs‖ * ‖x - xs‖) := h3.trans (mul_le_mul_of_nonneg_left h1 hβ.le)
        _ = β * (L * ‖x - xs‖) * ‖x - xs‖ := by ring
        _ ≤ β * (L * ρ) * ‖x - xs‖ := by gcongr
        _ ≤ 1 / 2 * ‖x - xs‖ := mul_le_mul_of_nonneg_right hc (norm_nonneg _)
    have h6 : ‖x - xs‖ ≤ 0 := by linarith [norm_nonneg (x - xs)]
    exact sub_eq_zero.1 (norm_le_zero_iff.1 h6)
  · have hin : Metric.closedBall xs (ρ / 2) ⊆ Metric.closedBall (0 : V) ρ := by
      refine Metric.closedBall_subset_closedBall' ?_
      have := Metric.mem_closedBall.1 hxs
      linarith
    have hst : solve s.K0 s.F = l • xl := by
      rw [hK0, hF]
      apply hi
      rw [hs (K 0) hi (l • F), map_smul, hl]
    have hd : ‖solve s.K0 s.F - xs‖ ≤ ρ / 2 := by
      rw [hst, norm_sub_rev]
      refine k3.trans ?_
      have h1 : |l| * (2 * (4 * β * L * ‖xl‖ ^ 2 + 1)) ≤ ρ := by rwa [le_div_iff₀ hk] at hl3
      have h2 : l ^ 2 ≤ |l| := by
        rw [← sq_abs]; nlinarith [abs_nonneg l]
      have h3 : 0 ≤ 4 * β * L * ‖xl‖ ^ 2 := by positivity
      nlinarith [abs_nonneg l]
    obtain ⟨res, h1, h2, h3⟩ := C139_converges (s := s) (ρ := ρ / 2) (β := β) (L := L) (ε := 0) (xs := xs)
      (R := fun x => R x + l • F) (R' := fun x => -K x) (K := K)
      ⟨fun x hx => ha.residual x (hsub (hin hx)), fun x hx => ha.jacobian x (hsub (hin hx))⟩
      ⟨fun x hx => (ht.deriv x (hin hx)).add_const _, fun x hx y hy => ht.close x (hin hx) y (hin hy)⟩
      hL le_rfl he hβ.le
      (fun x hx => inverse_of hs (hb x (hin hx))) (by
        have : β * (L * (ρ / 2)) = β * (L * ρ) / 2 := by ring
        rw [add_zero, this]; linarith [show 0 ≤ β * (L * ρ) by positivity])
      (by linarith [show (1:ℝ) ≤ 10 ^ 20 by norm_num]) hd
    refine ⟨res, h1, h2, h3.trans ?_⟩
    have ht2 : (0 : ℝ) ≤ (1 / 10 ^ 6) ^ 2 := sq_nonneg _
    have h4 : 0 ≤ 4 * β * L * ‖xl‖ ^ 2 := by positivity
    calc 2 * β * (2 * L * (1 / 10 ^ 6) + 0) * (1 / 10 ^ 6) = 4 * β * L * (1 / 10 ^ 6) ^ 2 := by ring
      _ ≤ _ := by nlinarith

end Verif.Solve

namespace Verif.Solve

open Spec.Solve Filter Topology RealInnerProductSpace

variable {V : Type} [NormedAddCommGroup V] [InnerProductSpace ℝ V] [FiniteDimensional ℝ V]

theorem coercive (m : V →L[ℝ] V) (h : ∀ v, v ≠ 0 → 0 < ⟪m v, v⟫) : ∃ c > 0, ∀ v, c * ‖v‖ ^ 2 ≤ ⟪m v, v⟫ := by
  have hcont : ContinuousOn (fun v => ⟪m v, v⟫) (Metric.sphere (0 : V) 1) := by fun_prop
  rcases (Metric.sphere (0 : V) 1).eq_empty_or_nonempty with he | hne
  · refine ⟨1, one_pos, fun v => ?_⟩
    by_cases hv : v = 0
    · simp [hv]
    · have : (‖v‖⁻¹ • v) ∈ Metric.sphere (0 : V) 1 := by
        simp [norm_smul, hv]
      rw [he] at this
      exact this.elim
  · obtain ⟨w, hw, hmin⟩ := (isCompact_sphere (0 : V) 1).exists_isMinOn hne hcont
    have hw0 : w ≠ 0 := by
      intro h0; simp [h0] at hw
    refine ⟨⟪m w, w⟫, h w hw0, fun v => ?_⟩
    by_cases hv : v = 0
    · simp [hv]
    · have hm : (‖v‖⁻¹ • v) ∈ Metric.sphere (0 : V) 1 := by
        simp [norm_smul, hv]
      have h1 : ⟪m w, w⟫ ≤ ⟪m (‖v‖⁻¹ • v), ‖v‖⁻¹ • v⟫ := hmin hm
      rw [map_smul, real_inner_smul_left, real_inner_smul_right] at h1
      have hp : 0 < ‖v‖ := norm_pos_iff.2 hv
      have h2 : ⟪m w, w⟫ * ‖v‖ ^ 2 ≤ (‖v‖⁻¹ * (‖v‖⁻¹ * ⟪m v, v⟫)) * ‖v‖ ^ 2 :=
        mul_le_mul_of_nonneg_right h1 (by positivity)
      refine h2.trans (le_of_eq ?_)
      field_simp

/-- An equilibrium with a positive definite tangent is a strict local minimum of the potential. -/
theorem local_min {Φ : V → ℝ} {R : V → V} {K : V → V →L[ℝ] V} {xs : V} [CompleteSpace V]
    (hΦ : ∀ᶠ x in 𝓝 xs, HasGradientAt Φ (-R x) x) (hR : ContDiffAt ℝ 2 R xs)
    (hK : ∀ᶠ x in 𝓝 xs, HasFDerivAt R (-K x) x) (h0 : R xs = 0) (hp : ∀ v, v ≠ 0 → 0 < ⟪K xs v, v⟫) :
    ∃ ρ > 0, ∀ x, x ≠ xs → ‖x - xs‖ ≤ ρ → Φ xs < Φ x := by
  obtain ⟨L, r, hL, hr, hl⟩ := local_lipschitz hR hK
  obtain ⟨c, hc, hco⟩ := coercive (K xs) hp
  obtain ⟨r', hr', hsub⟩ := Metric.nhds_basis_closedBall.mem_iff.1 hΦ
  have hρ0 : 0 < min (min r r') (c / (2 * (L + 1))) := by positivity
  generalize hρ : min (min r r') (c / (2 * (L + 1))) = ρ at hρ0
  have hρr : ρ ≤ r := hρ ▸ (min_le_left _ _).trans (min_le_left _ _)
  have hρr' : ρ ≤ r' := hρ ▸ (min_le_left _ _).trans (min_le_right _ _)
  have hρc : ρ ≤ c / (2 * (L + 1)) := hρ ▸ min_le_right _ _
  have hLρ : L * ρ < c := by
    have : ρ * (2 * (L + 1)) ≤ c := by rwa [le_div_iff₀ (by positivity)] at hρc
    nlinarith
  have ht : Tangent R (fun x => -K x) K (Metric.closedBall xs r) L 0 :=
    ⟨fun x hx => (hl x hx).1, fun x hx y hy => by rw [add_zero]; exact (hl x hx).2 y hy⟩
  refine ⟨ρ, hρ0, fun x hx hxρ => ?_⟩
  have hv : x - xs ≠ 0 := sub_ne_zero.2 hx
  generalize hw : x - xs = v at hv hxρ
  have hn : 0 < ‖v‖ := norm_pos_iff.2 hv
  have hmem : ∀ τ ∈ Set.Icc (0 : ℝ) 1, xs + τ • v ∈ Metric.closedBall xs ρ := by
    intro τ hτ
    rw [Metric.mem_closedBall, dist_eq_norm, add_sub_cancel_left, norm_smul, Real.norm_of_nonneg hτ.1]
    nlinarith [hτ.2]
  have hder : ∀ τ ∈ Set.Icc (0 : ℝ) 1, HasDerivAt (fun τ : ℝ => Φ (xs + τ • v)) ⟪-R (xs + τ • v), v⟫ τ := by
    intro τ hτ
    have h1 : HasGradientAt Φ (-R (xs + τ • v)) (xs + τ • v) :=
      hsub (Metric.closedBall_subset_closedBall hρr' (hmem τ hτ))
    have h2 : HasDerivAt (fun τ : ℝ => xs + τ • v) v τ := by
      simpa using ((hasDerivAt_id' τ).smul_const v).const_add xs
    have h3 := h1.hasFDerivAt.comp_hasDerivAt τ h2
    refine HasDerivAt.congr_deriv (f := fun τ : ℝ => Φ (xs + τ • v)) h3 ?_
    simp [InnerProductSpace.toDual_apply_apply]
  have hpos : ∀ τ ∈ Set.Ioo (0 : ℝ) 1, 0 < ⟪-R (xs + τ • v), v⟫ := by
    intro τ hτ
    have hτ' : τ ∈ Set.Icc (0 : ℝ) 1 := ⟨hτ.1.le, hτ.2.le⟩
    have h1 := ht.remainder hL (convex_closedBall xs r) (Metric.mem_closedBall_self hr.le)
      (Metric.closedBall_subset_closedBall hρr (hmem τ hτ'))
    rw [h0, sub_zero, add_sub_cancel_left, add_zero, map_smul, norm_smul, Real.norm_of_nonneg hτ.1.le] at h1
    have h2 : ⟪-R (xs + τ • v), v⟫ = τ * ⟪K xs v, v⟫ - ⟪R (xs + τ • v) + τ • K xs v, v⟫ := by
      rw [inner_add_left, real_inner_smul_left, inner_neg_left]; ring
    have h3 : ⟪R (xs + τ • v) + τ • K xs v, v⟫ ≤ L * (τ * ‖v‖) * (τ * ‖v‖) * ‖v‖ :=
      (real_inner_le_norm _ _).trans (mul_le_mul_of_nonneg_right h1 (norm_nonneg _))
    have h4 := hco v
    rw [h2]
    have h5 : L * (τ * ‖v‖) < c := by
      refine lt_of_le_of_lt ?_ hLρ
      refine mul_le_mul_of_nonneg_left ?_ hL
      nlinarith [hτ.2]
    have h6 : L * (τ * ‖v‖) * (τ * ‖v‖) * ‖v‖ < τ * (c * ‖v‖ ^ 2) := by
      have : 0 < τ * ‖v‖ ^ 2 := by have := hτ.1; positivity
      nlinarith
    have h7 : τ * (c * ‖v‖ ^ 2) ≤ τ * ⟪K xs v, v⟫ := mul_le_mul_of_nonneg_left h4 hτ.1.le
    linarith
  have hmono : StrictMonoOn (fun τ : ℝ => Φ (xs + τ • v)) (Set.Icc 0 1) := by
    refine strictMonoOn_of_deriv_pos (convex_Icc 0 1)
      (fun τ hτ => (hder τ hτ).continuousAt.continuousWithinAt) fun τ hτ => ?_
    rw [interior_Icc] at hτ
    rw [(hder τ ⟨hτ.1.le, hτ.2.le⟩).deriv]
    exact hpos τ hτ
  have := hmono (Set.left_mem_Icc.2 zero_le_one) (Set.right_mem_Icc.2 zero_le_one) zero_lt_one
  simpa [← hw] using this

end Verif.Solve
