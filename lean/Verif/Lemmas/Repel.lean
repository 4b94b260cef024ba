import Verif.Lemmas.LocalNewton
import Verif.Lemmas.LoadedShell
import Mathlib.Algebra.QuadraticDiscriminant
import Mathlib.Analysis.InnerProductSpace.Basic
import Mathlib.Analysis.Normed.Module.FiniteDimension

/-!
# Helper lemmas: equilibria that repel Newton's method with a wrong tangent
-/

namespace Verif.Repel

open RealInnerProductSpace Filter Topology

variable {V : Type} [NormedAddCommGroup V] [InnerProductSpace ℝ V] [FiniteDimensional ℝ V]
variable {K M : V →L[ℝ] V}

omit [FiniteDimensional ℝ V] in
/-- Cauchy–Schwarz inequality of a positive semi-definite symmetric form. -/
theorem schwarz (hs : ∀ u v, ⟪M u, v⟫ = ⟪u, M v⟫) (hn : ∀ v, 0 ≤ ⟪M v, v⟫) (u v : V) :
    ⟪M u, v⟫ ^ 2 ≤ ⟪M u, u⟫ * ⟪M v, v⟫ := by
  have h : ∀ t : ℝ, 0 ≤ ⟪M v, v⟫ * (t * t) + 2 * ⟪M u, v⟫ * t + ⟪M u, u⟫ := by
    intro t
    have := hn (u + t • v)
    rw [map_add, map_smul, inner_add_left, inner_add_right, inner_add_right, inner_smul_left, inner_smul_left,
      inner_smul_right, inner_smul_right, hs v u, real_inner_comm (M u) v] at this
    simp only [conj_trivial] at this
    linarith
  have hd := discrim_le_zero h
  unfold discrim at hd
  nlinarith

/-- The largest ratio of two forms is an eigenvalue. -/
theorem top (hK : ∀ u v, ⟪K u, v⟫ = ⟪u, K v⟫) (hM : ∀ u v, ⟪M u, v⟫ = ⟪u, M v⟫) (hp : ∀ v, v ≠ 0 → 0 < ⟪K v, v⟫)
    {v : V} (hv0 : v ≠ 0) : ∃ (θ : ℝ) (w : V), w ≠ 0 ∧ M w = θ • K w ∧ ∀ u, ⟪M u, u⟫ ≤ θ * ⟪K u, u⟫ := by
  have hne : (Metric.sphere (0 : V) 1).Nonempty := ⟨‖v‖⁻¹ • v, by simp [norm_smul, hv0]⟩
  have hcont : ContinuousOn (fun u => ⟪M u, u⟫ / ⟪K u, u⟫) (Metric.sphere (0 : V) 1) := by
    refine ContinuousOn.div (by fun_prop) (by fun_prop) fun u hu => (hp u fun h => ?_).ne'
    simp [h] at hu
  obtain ⟨w, hw, hmax⟩ := (isCompact_sphere (0 : V) 1).exists_isMaxOn hne hcont
  have hw0 : w ≠ 0 := fun h => by simp [h] at hw
  set ρ := ⟪M w, w⟫ / ⟪K w, w⟫ with hρ
  have hall : ∀ u, ⟪M u, u⟫ ≤ ρ * ⟪K u, u⟫ := by
    intro u
    by_cases hu : u = 0
    · simp [hu]
    have hs : (‖u‖⁻¹ • u) ∈ Metric.sphere (0 : V) 1 := by simp [norm_smul, hu]
    have h1 : ⟪M (‖u‖⁻¹ • u), ‖u‖⁻¹ • u⟫ / ⟪K (‖u‖⁻¹ • u), ‖u‖⁻¹ • u⟫ ≤ ρ := hmax hs
    have hun : ‖u‖⁻¹ ≠ 0 := inv_ne_zero (norm_ne_zero_iff.2 hu)
    rw [map_smul, map_smul, inner_smul_left, inner_smul_left, inner_smul_right, inner_smul_right] at h1
    simp only [conj_trivial] at h1
    rw [mul_div_mul_left _ _ hun, mul_div_mul_left _ _ hun, div_le_iff₀ (hp u hu)] at h1
    exact h1
  have hTs : ∀ a b, ⟪(ρ • K - M) a, b⟫ = ⟪a, (ρ • K - M) b⟫ := fun a b => by
    show ⟪ρ • K a - M a, b⟫ = ⟪a, ρ • K b - M b⟫
    rw [inner_sub_left, inner_sub_right, inner_smul_left, inner_smul_right, hK, hM]; simp
  have hTn : ∀ a, 0 ≤ ⟪(ρ • K - M) a, a⟫ := fun a => by
    show 0 ≤ ⟪ρ • K a - M a, a⟫
    rw [inner_sub_left, inner_smul_left]
    have := hall a
    simp only [conj_trivial]; linarith
  have h0 : ⟪(ρ • K - M) w, w⟫ = 0 := by
    show ⟪ρ • K w - M w, w⟫ = 0
    rw [inner_sub_left, inner_smul_left, hρ, conj_trivial, div_mul_cancel₀ _ (hp w hw0).ne', sub_self]
  have hT : (ρ • K - M) w = 0 := by
    have := schwarz hTs hTn w ((ρ • K - M) w)
    rw [h0, zero_mul] at this
    exact inner_self_eq_zero.1 (pow_eq_zero_iff two_ne_zero |>.1 (le_antisymm this (sq_nonneg _)))
  exact ⟨ρ, w, hw0, (sub_eq_zero.1 hT).symm, hall⟩

omit [FiniteDimensional ℝ V] in
/-- One step in the direction of the eigenvector and across it. -/
theorem step (hK : ∀ u v, ⟪K u, v⟫ = ⟪u, K v⟫) (hM : ∀ u v, ⟪M u, v⟫ = ⟪u, M v⟫) (hn : ∀ v, 0 ≤ ⟪M v, v⟫)
    {k θ c A : ℝ} (hk : 0 < k) (hk' : ∀ u, k ^ 2 * ‖u‖ ^ 2 ≤ ⟪K u, u⟫) (hθ : 0 ≤ θ)
    (hall : ∀ u, ⟪M u, u⟫ ≤ θ * ⟪K u, u⟫) {v : V} (hv : M v = θ • K v) (hv1 : ⟪K v, v⟫ = 1)
    {e e' r : V} (he : K e' = M e + r) (hc : ‖v‖ ≤ c) (hck : 1 / k ≤ c) (hr : c * ‖r‖ ≤ A) :
    θ * |⟪K e, v⟫| - A ≤ |⟪K e', v⟫| ∧
      √⟪K (e' - ⟪K e', v⟫ • v), e' - ⟪K e', v⟫ • v⟫ ≤ θ * √⟪K (e - ⟪K e, v⟫ • v), e - ⟪K e, v⟫ • v⟫ + A := by
  have hpos : ∀ u, 0 ≤ ⟪K u, u⟫ := fun u => le_trans (by positivity) (hk' u)
  have hA : 0 ≤ A := le_trans (mul_nonneg ((norm_nonneg v).trans hc) (norm_nonneg r)) hr
  constructor
  · have h1 : ⟪K e', v⟫ = θ * ⟪K e, v⟫ + ⟪r, v⟫ := by
      rw [he, inner_add_left, hM, hv, inner_smul_right, hK e v]
    have h2 : |⟪r, v⟫| ≤ A := by
      refine (abs_real_inner_le_norm r v).trans (le_trans ?_ hr)
      rw [mul_comm]; exact mul_le_mul_of_nonneg_right hc (norm_nonneg r)
    rw [h1]
    have h3 : |θ * ⟪K e, v⟫| = θ * |⟪K e, v⟫| := by rw [abs_mul, abs_of_nonneg hθ]
    have h4 := abs_sub_abs_le_abs_sub (θ * ⟪K e, v⟫) (-⟪r, v⟫)
    rw [abs_neg, sub_neg_eq_add] at h4
    linarith
  · set a := ⟪K e, v⟫ with ha
    set a' := ⟪K e', v⟫ with ha'
    set f := e - a • v with hf
    set f' := e' - a' • v with hf'
    have hfv : ⟪K v, f'⟫ = 0 := by
      rw [hf', inner_sub_right, inner_smul_right, hv1, hK, real_inner_comm, ← ha']; ring
    have h1 : ⟪K f', f'⟫ = ⟪M f, f'⟫ + ⟪r, f'⟫ := by
      have : K f' = M f + r + (a * θ - a') • K v := by
        rw [hf', hf, map_sub, map_smul, he, map_sub, map_smul, hv, smul_smul, sub_smul]; abel
      rw [this, inner_add_left, inner_add_left, inner_smul_left, hfv, mul_zero, add_zero]
    set p := √⟪K f, f⟫ with hp
    set p' := √⟪K f', f'⟫ with hp'
    have hp0 : 0 ≤ p := Real.sqrt_nonneg _
    have hp0' : 0 ≤ p' := Real.sqrt_nonneg _
    have hpsq : p ^ 2 = ⟪K f, f⟫ := Real.sq_sqrt (hpos f)
    have hpsq' : p' ^ 2 = ⟪K f', f'⟫ := Real.sq_sqrt (hpos f')
    have h2 : ⟪M f, f'⟫ ≤ θ * p * p' := by
      refine abs_le_of_sq_le_sq' ?_ (by positivity) |>.2
      calc ⟪M f, f'⟫ ^ 2 ≤ ⟪M f, f⟫ * ⟪M f', f'⟫ := schwarz hM hn f f'
        _ ≤ (θ * ⟪K f, f⟫) * (θ * ⟪K f', f'⟫) :=
          mul_le_mul (hall f) (hall f') (hn f') (mul_nonneg hθ (hpos f))
        _ = (θ * p * p') ^ 2 := by rw [← hpsq, ← hpsq']; ring
    have h3 : ‖f'‖ ≤ c * p' := by
      have h4 : k * ‖f'‖ ≤ p' := by
        refine abs_le_of_sq_le_sq' ?_ hp0' |>.2
        rw [mul_pow, hpsq']; exact hk' f'
      have h5 : ‖f'‖ ≤ 1 / k * p' := by
        rw [one_div, inv_mul_eq_div, le_div_iff₀ hk, mul_comm]; exact h4
      exact h5.trans (mul_le_mul_of_nonneg_right hck hp0')
    have h4 : ⟪r, f'⟫ ≤ A * p' := by
      refine (real_inner_le_norm r f').trans ?_
      have := mul_le_mul_of_nonneg_left h3 (norm_nonneg r)
      have h5 := mul_le_mul_of_nonneg_right hr hp0'
      linarith
    rcases hp0'.eq_or_lt with h | h
    · rw [← h]; positivity
    · refine le_of_mul_le_mul_right ?_ h
      rw [← hpsq'] at h1
      nlinarith

/-- A sequence with `K e' = M e + O(‖e‖²)`, where the form of `M` exceeds that of `K` somewhere, leaves a ball when
it starts in the direction of an eigenvector, however close to zero. -/
theorem leaves (hK : ∀ u v, ⟪K u, v⟫ = ⟪u, K v⟫) (hM : ∀ u v, ⟪M u, v⟫ = ⟪u, M v⟫) (hp : ∀ v, v ≠ 0 → 0 < ⟪K v, v⟫)
    (hn : ∀ v, 0 ≤ ⟪M v, v⟫) {u : V} (hu : ⟪K u, u⟫ < ⟪M u, u⟫) {L r₀ : ℝ} (hL : 0 ≤ L) (hr₀ : 0 < r₀) :
    ∃ v : V, v ≠ 0 ∧ ∃ ρ : ℝ, 0 < ρ ∧ ∀ (e : ℕ → V) (a : ℝ), a ≠ 0 → e 0 = a • v →
      (∀ n, ‖e n‖ ≤ r₀ → ‖K (e (n + 1)) - M (e n)‖ ≤ L * ‖e n‖ ^ 2) → ∃ n, ρ < ‖e n‖ := by
  have hu0 : u ≠ 0 := fun h => by simp [h] at hu
  obtain ⟨θ, w, hw0, hw, hall⟩ := top hK hM hp hu0
  have hθ1 : 1 < θ := by
    have h1 := hall u
    have h2 := hp u hu0
    by_contra hcon
    push Not at hcon
    nlinarith
  obtain ⟨k2, hk2, hk2'⟩ := Solve.coercive K hp
  set k := √k2 with hkd
  have hk : 0 < k := Real.sqrt_pos.2 hk2
  have hksq : k ^ 2 = k2 := Real.sq_sqrt hk2.le
  have hk' : ∀ u, k ^ 2 * ‖u‖ ^ 2 ≤ ⟪K u, u⟫ := fun u => by rw [hksq]; exact hk2' u
  have hpos : ∀ u, 0 ≤ ⟪K u, u⟫ := fun u => le_trans (by positivity) (hk' u)
  have hs : 0 < √⟪K w, w⟫ := Real.sqrt_pos.2 (hp w hw0)
  set v := (√⟪K w, w⟫)⁻¹ • w with hvd
  have hv0 : v ≠ 0 := smul_ne_zero (inv_ne_zero hs.ne') hw0
  have hv : M v = θ • K v := by rw [hvd, map_smul, map_smul, hw, smul_comm]
  have hv1 : ⟪K v, v⟫ = 1 := by
    rw [hvd, map_smul, inner_smul_left, inner_smul_right, conj_trivial]
    have := Real.sq_sqrt (hpos w)
    field_simp
    exact this.symm
  set c := 1 / k with hc
  have hc0 : 0 < c := by positivity
  have bound : ∀ z, ‖z‖ ≤ c * √⟪K z, z⟫ := fun z => by
    have h4 : k * ‖z‖ ≤ √⟪K z, z⟫ := by
      refine abs_le_of_sq_le_sq' ?_ (Real.sqrt_nonneg _) |>.2
      rw [mul_pow, Real.sq_sqrt (hpos z)]; exact hk' z
    rw [hc, one_div, inv_mul_eq_div, le_div_iff₀ hk, mul_comm]; exact h4
  have hvc : ‖v‖ ≤ c := by
    have := bound v
    rwa [hv1, Real.sqrt_one, mul_one] at this
  set A := 4 * L * c ^ 3 + 1 with hA
  have hA0 : 0 < A := by positivity
  set δ := (θ - 1) / 2 with hδ
  have hδ0 : 0 < δ := by rw [hδ]; linarith
  set D := A / δ ^ 2 with hD
  have hD0 : 0 < D := by positivity
  set η := min (min (δ / A) (1 / D)) (r₀ / (2 * c)) with hη
  have hη0 : 0 < η := by positivity
  have hη1 : η * A ≤ δ := by
    have : η ≤ δ / A := (min_le_left _ _).trans (min_le_left _ _)
    rwa [le_div_iff₀ hA0] at this
  have hη2 : η * D ≤ 1 := by
    have : η ≤ 1 / D := (min_le_left _ _).trans (min_le_right _ _)
    rwa [le_div_iff₀ hD0] at this
  refine ⟨v, hv0, min r₀ (η / (‖K v‖ + 1)), by positivity, fun e a ha h0 he => ?_⟩
  by_contra hcon
  push Not at hcon
  have hin : ∀ n, ‖e n‖ ≤ r₀ := fun n => (hcon n).trans (min_le_left _ _)
  have hsmall : ∀ n, |⟪K (e n), v⟫| ≤ η := by
    intro n
    have h1 : ‖e n‖ ≤ η / (‖K v‖ + 1) := (hcon n).trans (min_le_right _ _)
    rw [le_div_iff₀ (by positivity)] at h1
    rw [hK]
    refine (abs_real_inner_le_norm _ _).trans ?_
    nlinarith [norm_nonneg (e n)]
  have key : ∀ n, √⟪K (e n - ⟪K (e n), v⟫ • v), e n - ⟪K (e n), v⟫ • v⟫ ≤ D * ⟪K (e n), v⟫ ^ 2 ∧
      (1 + δ) ^ n * |a| ≤ |⟪K (e n), v⟫| := by
    intro n
    induction n with
    | zero =>
      have h1 : ⟪K (e 0), v⟫ = a := by rw [h0, map_smul, inner_smul_left, hv1]; simp
      rw [h1, h0]
      simp only [sub_self, map_zero, inner_zero_left, Real.sqrt_zero, pow_zero, one_mul, le_refl, and_true]
      positivity
    | succ n ih =>
      obtain ⟨i1, i2⟩ := ih
      set b := |⟪K (e n), v⟫| with hb
      have hb0 : 0 ≤ b := abs_nonneg _
      have hbsq : ⟪K (e n), v⟫ ^ 2 = b ^ 2 := (sq_abs _).symm
      rw [hbsq] at i1
      have hbη := hsmall n
      have hbD : D * b ^ 2 ≤ b := by nlinarith [mul_nonneg hb0 hD0.le]
      have hnorm : ‖e n‖ ≤ 2 * c * b := by
        have h1 : ‖e n‖ ≤ ‖e n - ⟪K (e n), v⟫ • v‖ + ‖⟪K (e n), v⟫ • v‖ := by
          have := norm_add_le (e n - ⟪K (e n), v⟫ • v) (⟪K (e n), v⟫ • v)
          rwa [sub_add_cancel] at this
        have h2 := bound (e n - ⟪K (e n), v⟫ • v)
        have h3 : ‖⟪K (e n), v⟫ • v‖ ≤ b * c := by
          rw [norm_smul, Real.norm_eq_abs]; exact mul_le_mul_of_nonneg_left hvc hb0
        have h4 := mul_le_mul_of_nonneg_left (i1.trans hbD) hc0.le
        linarith
      have hrem := he n (hin n)
      have hrA : c * ‖K (e (n + 1)) - M (e n)‖ ≤ A * b ^ 2 := by
        have h1 : ‖e n‖ ^ 2 ≤ (2 * c * b) ^ 2 := pow_le_pow_left₀ (norm_nonneg _) hnorm 2
        have h2 := mul_le_mul_of_nonneg_left (hrem.trans (mul_le_mul_of_nonneg_left h1 hL)) hc0.le
        refine h2.trans ?_
        have : c * (L * (2 * c * b) ^ 2) = (4 * L * c ^ 3) * b ^ 2 := by ring
        rw [this, hA]
        nlinarith [sq_nonneg b]
      obtain ⟨s1, s2⟩ := step hK hM hn hk hk' (by linarith) hall hv hv1
        (e := e n) (e' := e (n + 1)) (r := K (e (n + 1)) - M (e n)) (by abel) hvc le_rfl hrA
      rw [← hb] at s1
      have hAb : A * b ^ 2 ≤ δ * b := by
        have : b * A ≤ δ := (mul_le_mul_of_nonneg_right hbη hA0.le).trans hη1
        nlinarith
      have hgrow : (1 + δ) * b ≤ |⟪K (e (n + 1)), v⟫| := by
        have : θ = 1 + 2 * δ := by rw [hδ]; ring
        rw [this] at s1
        linarith
      refine ⟨?_, ?_⟩
      · refine s2.trans ?_
        have h1 : ((1 + δ) * b) ^ 2 ≤ ⟪K (e (n + 1)), v⟫ ^ 2 := by
          rw [← sq_abs ⟪K (e (n + 1)), v⟫]; exact pow_le_pow_left₀ (by positivity) hgrow 2
        have h2 : θ * √⟪K (e n - ⟪K (e n), v⟫ • v), e n - ⟪K (e n), v⟫ • v⟫ ≤ θ * (D * b ^ 2) :=
          mul_le_mul_of_nonneg_left i1 (by linarith)
        have h3 : D * δ ^ 2 = A := by rw [hD]; field_simp
        have h4 : θ * (D * b ^ 2) + A * b ^ 2 = D * ((1 + δ) * b) ^ 2 := by
          have : θ = 1 + 2 * δ := by rw [hδ]; ring
          rw [this, ← h3]; ring
        have h5 := mul_le_mul_of_nonneg_left h1 hD0.le
        linarith
      · rw [pow_succ]
        have := mul_le_mul_of_nonneg_left i2 (by linarith : (0 : ℝ) ≤ 1 + δ)
        linarith
  obtain ⟨n, hn'⟩ := pow_unbounded_of_one_lt (η / |a|) (by linarith : 1 < 1 + δ)
  have h1 := (key n).2.trans (hsmall n)
  rw [div_lt_iff₀ (abs_pos.2 ha)] at hn'
  linarith

/-- Newton's method with the tangent `K`, where the derivative of the residual is `-(K - E)`: if at an equilibrium
the form of `E` exceeds that of `K` somewhere, there are starting points as close to the equilibrium as one likes from
which the method leaves a fixed ball around it. -/
theorem newton {R : V → V} {T S : V → V →L[ℝ] V} {xs : V} (hR : ContDiffAt ℝ 2 R xs)
    (hS : ∀ᶠ x in 𝓝 xs, HasFDerivAt R (-S x) x) (hT : ContDiffAt ℝ 1 T xs) (h0 : R xs = 0)
    (hs : ∀ u v, ⟪T xs u, v⟫ = ⟪u, T xs v⟫) (hp : ∀ v, v ≠ 0 → 0 < ⟪T xs v, v⟫)
    (hs' : ∀ u v, ⟪(T xs - S xs) u, v⟫ = ⟪u, (T xs - S xs) v⟫) (hn : ∀ v, 0 ≤ ⟪(T xs - S xs) v, v⟫)
    {u : V} (hu : ⟪S xs u, u⟫ < 0) :
    ∃ v : V, v ≠ 0 ∧ ∃ ρ : ℝ, 0 < ρ ∧ ∀ (x : ℕ → V) (a : ℝ), a ≠ 0 → x 0 = xs + a • v →
      (∀ n, T (x n) (x (n + 1) - x n) = R (x n)) → ∃ n, ρ < ‖x n - xs‖ := by
  obtain ⟨L, r, hL, hr, h⟩ := Solve.local_lipschitz hR hS
  obtain ⟨L', t, ht, hL'⟩ := hT.exists_lipschitzOnWith
  obtain ⟨r', hr', hsub⟩ := Metric.nhds_basis_closedBall.mem_iff.1 ht
  obtain ⟨k, hk, hk'⟩ := Solve.coercive (T xs) hp
  have hlow : ∀ v, k * ‖v‖ ≤ ‖T xs v‖ := fun v => by
    rcases (norm_nonneg v).eq_or_lt with h0 | h0
    · rw [← h0, mul_zero]; positivity
    · refine le_of_mul_le_mul_right ?_ h0
      have := hk' v
      have := real_inner_le_norm (T xs v) v
      nlinarith
  set r₁ := min (min r r') (k / (2 * ((L' : ℝ) + 1))) with hr1
  have hL'0 : 0 ≤ (L' : ℝ) := L'.2
  have hr1' : 0 < r₁ := by positivity
  have hxs : xs ∈ Metric.closedBall xs r := Metric.mem_closedBall_self hr.le
  set B := ‖S xs‖ + L * r₁ with hB
  have hB0 : 0 ≤ B := by positivity
  obtain ⟨v, hv, ρ, hρ, hl⟩ := leaves (K := T xs) (M := T xs - S xs) hs hs' hp hn (u := u)
    (by rw [_root_.sub_apply, inner_sub_left]; linarith) (L := L + L' * (2 / k * B)) (by positivity) hr1'
  refine ⟨v, hv, ρ, hρ, fun x a ha hx0 hx => hl (fun n => x n - xs) a ha (by rw [hx0]; abel) fun n hn' => ?_⟩
  beta_reduce at hn' ⊢
  set e := x n - xs with he
  have hin : x n ∈ Metric.closedBall xs r := by
    rw [Metric.mem_closedBall, dist_eq_norm]
    exact hn'.trans ((min_le_left _ _).trans (min_le_left _ _))
  have hin' : x n ∈ t := hsub (by
    rw [Metric.mem_closedBall, dist_eq_norm]
    exact hn'.trans ((min_le_left _ _).trans (min_le_right _ _)))
  have hxt : xs ∈ t := hsub (Metric.mem_closedBall_self hr'.le)
  -- the residual
  have hmv : ‖R (x n) - R xs - (-S xs) (x n - xs)‖ ≤ L * ‖e‖ * ‖x n - xs‖ := by
    refine (convex_closedBall xs ‖e‖).norm_image_sub_le_of_norm_hasFDerivWithin_le' (f := R) (f' := fun y => -S y)
      (φ := -S xs) (fun y hy => (h y ?_).1.hasFDerivWithinAt) (fun y hy => ?_)
      (Metric.mem_closedBall_self (norm_nonneg _)) (by rw [Metric.mem_closedBall, dist_eq_norm])
    · exact Metric.closedBall_subset_closedBall (hn'.trans ((min_le_left _ _).trans (min_le_left _ _))) hy
    · have hy' : y ∈ Metric.closedBall xs r :=
        Metric.closedBall_subset_closedBall (hn'.trans ((min_le_left _ _).trans (min_le_left _ _))) hy
      have := (h xs hxs).2 y hy'
      rw [sub_neg_eq_add]
      refine this.trans (mul_le_mul_of_nonneg_left ?_ hL)
      rw [← dist_eq_norm]; exact hy
  rw [h0, sub_zero, ← he] at hmv
  have hmv2 : ‖R (x n) + S xs e‖ ≤ L * ‖e‖ ^ 2 := by
    have e1 : R (x n) - (-S xs) e = R (x n) + S xs e := by simp
    rw [e1] at hmv
    linarith [hmv, show L * ‖e‖ * ‖e‖ = L * ‖e‖ ^ 2 by ring]
  have hRb : ‖R (x n)‖ ≤ B * ‖e‖ := by
    have h1 : ‖R (x n)‖ ≤ ‖R (x n) + S xs e‖ + ‖S xs e‖ := by
      have := norm_sub_le (R (x n) + S xs e) (S xs e)
      rwa [add_sub_cancel_right] at this
    have h2 := (S xs).le_opNorm e
    have h3 : L * ‖e‖ ^ 2 ≤ L * r₁ * ‖e‖ := by
      have := mul_le_mul_of_nonneg_left (mul_le_mul_of_nonneg_right hn' (norm_nonneg e)) hL
      nlinarith
    rw [hB]; linarith
  -- the tangent
  have hTd : ‖T (x n) - T xs‖ ≤ L' * ‖e‖ := by
    have := hL'.dist_le_mul (x n) hin' xs hxt
    rwa [dist_eq_norm, dist_eq_norm] at this
  have hstep : ‖x (n + 1) - x n‖ ≤ 2 / k * B * ‖e‖ := by
    have h1 := hlow (x (n + 1) - x n)
    have h2 : ‖T xs (x (n + 1) - x n)‖ ≤ ‖R (x n)‖ + L' * ‖e‖ * ‖x (n + 1) - x n‖ := by
      have e1 : T xs (x (n + 1) - x n) = R (x n) - (T (x n) - T xs) (x (n + 1) - x n) := by
        rw [_root_.sub_apply, hx n]; abel
      rw [e1]
      refine (norm_sub_le _ _).trans ?_
      have := (T (x n) - T xs).le_opNorm (x (n + 1) - x n)
      have := mul_le_mul_of_nonneg_right hTd (norm_nonneg (x (n + 1) - x n))
      linarith
    have h3 : L' * ‖e‖ ≤ k / 2 := by
      have h4 : ‖e‖ ≤ k / (2 * ((L' : ℝ) + 1)) := hn'.trans (min_le_right _ _)
      rw [le_div_iff₀ (by positivity)] at h4
      nlinarith [norm_nonneg e]
    have h5 := mul_le_mul_of_nonneg_right h3 (norm_nonneg (x (n + 1) - x n))
    have h6 : k * ‖x (n + 1) - x n‖ ≤ 2 * (B * ‖e‖) := by linarith
    have : 2 / k * B * ‖e‖ = 2 * (B * ‖e‖) / k := by ring
    rw [this, le_div_iff₀ hk]; linarith
  have e2 : T xs (x (n + 1) - xs) - (T xs - S xs) e
      = (R (x n) + S xs e) - (T (x n) - T xs) (x (n + 1) - x n) := by
    have : x (n + 1) - xs = (x (n + 1) - x n) + e := by rw [he]; abel
    rw [this, map_add, _root_.sub_apply, _root_.sub_apply, hx n]; abel
  rw [e2]
  refine (norm_sub_le _ _).trans ?_
  have h7 := (T (x n) - T xs).le_opNorm (x (n + 1) - x n)
  have h8 := mul_le_mul hTd hstep (norm_nonneg _) (mul_nonneg hL'0 (norm_nonneg e))
  have : (L + L' * (2 / k * B)) * ‖e‖ ^ 2 = L * ‖e‖ ^ 2 + L' * ‖e‖ * (2 / k * B * ‖e‖) := by ring
  rw [this]
  linarith

end Verif.Repel
