import Verif.Lemmas.Repel

/-!
# Helper lemmas: Newton's method with a tangent that is too stiff

At the undeformed state the tangent is `T 0`, minus the derivative of the residual `S`, and the difference `T 0 - S` is
positive semi-definite.
-/

namespace Verif.SlowNewton

open RealInnerProductSpace Filter Topology Repel

variable {V : Type} [NormedAddCommGroup V] [InnerProductSpace ℝ V] [FiniteDimensional ℝ V]

/-- What is used of the residual without load and of the tangent near zero. -/
structure Near (R : V → V) (T : V → V →L[ℝ] V) (S : V →L[ℝ] V) (L r k : ℝ) : Prop where
  hL : 0 ≤ L
  hr : 0 < r
  hk : 0 < k
  diff : ∀ x y ρ, ρ ≤ r → ‖x‖ ≤ ρ → ‖y‖ ≤ ρ → ‖R x - R y + S (x - y)‖ ≤ L * ρ * ‖x - y‖
  tan : ∀ x, ‖x‖ ≤ r → ‖T x - T 0‖ ≤ L * ‖x‖
  low : ∀ v, k * ‖v‖ ≤ ‖T 0 v‖
  small : L * r ≤ k / 2

theorem near_of {R : V → V} {T D : V → V →L[ℝ] V} (hR : ContDiffAt ℝ 2 R 0)
    (hD : ∀ᶠ x in 𝓝 0, HasFDerivAt R (-D x) x) (hT : ContDiffAt ℝ 1 T 0) (hp : ∀ v, v ≠ 0 → 0 < ⟪T 0 v, v⟫) :
    ∃ L r k, Near R T (D 0) L r k := by
  obtain ⟨L, r, hL, hr, h⟩ := Solve.local_lipschitz hR hD
  obtain ⟨L', t, ht, hL'⟩ := hT.exists_lipschitzOnWith
  obtain ⟨r', hr', hsub⟩ := Metric.nhds_basis_closedBall.mem_iff.1 ht
  obtain ⟨k, hk, hk'⟩ := Solve.coercive (T 0) hp
  have hlow : ∀ v, k * ‖v‖ ≤ ‖T 0 v‖ := fun v => by
    rcases (norm_nonneg v).eq_or_lt with h0 | h0
    · rw [← h0, mul_zero]; positivity
    · refine le_of_mul_le_mul_right ?_ h0
      have := hk' v
      have := real_inner_le_norm (T 0 v) v
      nlinarith
  have hL'0 : 0 ≤ (L' : ℝ) := L'.2
  set M := L + L' with hM
  have hM0 : 0 ≤ M := by positivity
  set r₁ := min (min r r') (k / (2 * (M + 1))) with hr1
  have hr1r : r₁ ≤ r := (min_le_left _ _).trans (min_le_left _ _)
  have hr1r' : r₁ ≤ r' := (min_le_left _ _).trans (min_le_right _ _)
  refine ⟨M, r₁, k, hM0, by positivity, hk, fun x y ρ hρ hx hy => ?_, fun x hx => ?_, hlow, ?_⟩
  · have h0 : (0 : V) ∈ Metric.closedBall (0 : V) r := Metric.mem_closedBall_self hr.le
    have hin : ∀ {z : V}, z ∈ Metric.closedBall (0 : V) ρ → z ∈ Metric.closedBall (0 : V) r := fun hz =>
      Metric.closedBall_subset_closedBall (hρ.trans hr1r) hz
    have hmv : ‖R x - R y - (-D 0) (x - y)‖ ≤ L * ρ * ‖x - y‖ := by
      refine (convex_closedBall (0 : V) ρ).norm_image_sub_le_of_norm_hasFDerivWithin_le' (f := R) (f' := fun z => -D z)
        (φ := -D 0) (fun z hz => (h z (hin hz)).1.hasFDerivWithinAt) (fun z hz => ?_)
        (by simpa using hy) (by simpa using hx)
      have := (h 0 h0).2 z (hin hz)
      rw [sub_zero] at this
      rw [sub_neg_eq_add]
      exact this.trans (mul_le_mul_of_nonneg_left (by simpa using hz) hL)
    rw [_root_.neg_apply, sub_neg_eq_add] at hmv
    refine hmv.trans (mul_le_mul_of_nonneg_right (mul_le_mul_of_nonneg_right ?_ ((norm_nonneg x).trans hx)) (norm_nonneg _))
    rw [hM]; linarith
  · have := hL'.dist_le_mul x (hsub (by simpa using hx.trans hr1r')) 0 (hsub (Metric.mem_closedBall_self hr'.le))
    rw [dist_eq_norm, dist_eq_norm, sub_zero] at this
    refine this.trans (mul_le_mul_of_nonneg_right ?_ (norm_nonneg _))
    rw [hM]; linarith
  · have : r₁ ≤ k / (2 * (M + 1)) := min_le_right _ _
    rw [le_div_iff₀ (by positivity)] at this
    have : 0 < r₁ := by positivity
    nlinarith

variable {R : V → V} {T : V → V →L[ℝ] V} {S : V →L[ℝ] V} {L r k : ℝ}

omit [FiniteDimensional ℝ V] in
/-- A Newton step is not longer than twice that of the undeformed tangent. -/
theorem Near.length (h : Near R T S L r k) {x x' b : V} (hx : ‖x‖ ≤ r) (hs : T x (x' - x) = b) :
    ‖x' - x‖ ≤ 2 / k * ‖b‖ := by
  have h1 := h.low (x' - x)
  have h2 : ‖T 0 (x' - x)‖ ≤ ‖b‖ + k / 2 * ‖x' - x‖ := by
    have e1 : T 0 (x' - x) = b - (T x - T 0) (x' - x) := by rw [_root_.sub_apply, hs]; abel
    rw [e1]
    refine (norm_sub_le _ _).trans ?_
    have h3 := (T x - T 0).le_opNorm (x' - x)
    have h4 : ‖T x - T 0‖ ≤ k / 2 := (h.tan x hx).trans ((mul_le_mul_of_nonneg_left hx h.hL).trans h.small)
    have := mul_le_mul_of_nonneg_right h4 (norm_nonneg (x' - x))
    linarith
  have hk := h.hk
  have : 2 / k * ‖b‖ = 2 * ‖b‖ / k := by ring
  rw [this, le_div_iff₀ hk]; linarith

omit [FiniteDimensional ℝ V] in
/-- A Newton step for a small load is the linear one up to the square of the size. -/
theorem Near.step (h : Near R T S L r k) (h0 : R 0 = 0) (F : V) : ∃ C : ℝ, 0 ≤ C ∧ ∀ (l : ℝ) (x x' : V), ‖x‖ ≤ r →
    T x (x' - x) = R x + l • F → ‖T 0 (x' - x) - (l • F - S x)‖ ≤ C * (‖x‖ + |l|) ^ 2 := by
  have hL := h.hL
  have hk := h.hk
  have hr := h.hr
  set B := ‖S‖ + L * r + ‖F‖ with hB
  have hB0 : 0 ≤ B := by positivity
  refine ⟨L + L * (2 / k * B), by positivity, fun l x x' hx hs => ?_⟩
  have d1 : ‖R x + S x‖ ≤ L * ‖x‖ * ‖x‖ := by
    have := h.diff x 0 ‖x‖ hx le_rfl (by rw [norm_zero]; exact norm_nonneg x)
    rwa [h0, sub_zero, sub_zero] at this
  have hb : ‖R x + l • F‖ ≤ B * (‖x‖ + |l|) := by
    have e1 : R x + l • F = (R x + S x) - S x + l • F := by abel
    rw [e1]
    refine (norm_add_le _ _).trans ?_
    have h1 := norm_sub_le (R x + S x) (S x)
    have h2 := S.le_opNorm x
    have h3 : ‖l • F‖ = |l| * ‖F‖ := by rw [norm_smul, Real.norm_eq_abs]
    have h4 : L * ‖x‖ * ‖x‖ ≤ L * r * ‖x‖ := mul_le_mul_of_nonneg_right (mul_le_mul_of_nonneg_left hx hL) (norm_nonneg x)
    rw [h3, hB]
    have h5 : 0 ≤ ‖S‖ * |l| := by positivity
    have h6 : 0 ≤ L * r * |l| := by positivity
    have h7 : 0 ≤ ‖F‖ * ‖x‖ := by positivity
    nlinarith
  have hlen := h.length hx hs
  have e2 : T 0 (x' - x) - (l • F - S x) = (R x + S x) - (T x - T 0) (x' - x) := by
    rw [_root_.sub_apply, hs]; abel
  rw [e2]
  refine (norm_sub_le _ _).trans ?_
  have h1 := (T x - T 0).le_opNorm (x' - x)
  have h2 := mul_le_mul (h.tan x hx) hlen (norm_nonneg _) (mul_nonneg hL (norm_nonneg x))
  have h3 := mul_le_mul_of_nonneg_left hb (by positivity : 0 ≤ L * ‖x‖ * (2 / k))
  have hs1 : 0 ≤ ‖x‖ := norm_nonneg x
  have hs2 : 0 ≤ |l| := abs_nonneg l
  have h4 : L * ‖x‖ * ‖x‖ ≤ L * (‖x‖ + |l|) ^ 2 := by
    have : ‖x‖ * ‖x‖ ≤ (‖x‖ + |l|) ^ 2 := by nlinarith
    have := mul_le_mul_of_nonneg_left this hL
    linarith
  have h5 : L * ‖x‖ * (2 / k) * (B * (‖x‖ + |l|)) ≤ L * (2 / k * B) * (‖x‖ + |l|) ^ 2 := by
    have : ‖x‖ * (‖x‖ + |l|) ≤ (‖x‖ + |l|) ^ 2 := by nlinarith
    have := mul_le_mul_of_nonneg_left this (by positivity : 0 ≤ L * (2 / k * B))
    linarith
  have e3 : (L + L * (2 / k * B)) * (‖x‖ + |l|) ^ 2 = L * (‖x‖ + |l|) ^ 2 + L * (2 / k * B) * (‖x‖ + |l|) ^ 2 := by ring
  rw [e3]
  linarith

omit [FiniteDimensional ℝ V] in
/-- After `n` Newton steps from the linear solution the state is the one of the linear iteration, up to the square of
the load. -/
theorem Near.steps (h : Near R T S L r k) (h0 : R 0 = 0) (F : V) (y : ℕ → V)
    (hy : ∀ n, T 0 (y (n + 1) - y n) = F - S (y n)) (n : ℕ) : ∃ C l₀ : ℝ, 0 ≤ C ∧ 0 < l₀ ∧ ∀ (l : ℝ) (x : ℕ → V),
      |l| ≤ l₀ → x 0 = l • y 0 → (∀ m, m < n → T (x m) (x (m + 1) - x m) = R (x m) + l • F) →
      ‖x n - l • y n‖ ≤ C * l ^ 2 := by
  obtain ⟨C₁, hC₁, hst⟩ := h.step h0 F
  have hk := h.hk
  have hr := h.hr
  induction n with
  | zero => exact ⟨0, 1, le_rfl, one_pos, fun l x _ hx _ => by rw [hx, sub_self, norm_zero, zero_mul]⟩
  | succ n ih =>
    obtain ⟨C, l₀, hC, hl₀, ih⟩ := ih
    set A := C + ‖y n‖ + 1 with hA
    have hA1 : 1 ≤ A := by rw [hA]; linarith [norm_nonneg (y n)]
    refine ⟨C + 1 / k * (C₁ * (A + 1) ^ 2 + ‖S‖ * C), min (min l₀ 1) (r / A), by positivity, by positivity,
      fun l x hl hx0 hx => ?_⟩
    have hl1 : |l| ≤ l₀ := hl.trans ((min_le_left _ _).trans (min_le_left _ _))
    have hl2 : |l| ≤ 1 := hl.trans ((min_le_left _ _).trans (min_le_right _ _))
    have hl3 : |l| * A ≤ r := by
      have := hl.trans (min_le_right _ _)
      rwa [le_div_iff₀ (by linarith)] at this
    have hn := ih l x hl1 hx0 fun m hm => hx m (hm.trans (Nat.lt_succ_self n))
    have hl0 := abs_nonneg l
    have hsq : l ^ 2 = |l| ^ 2 := (sq_abs l).symm
    have hxn : ‖x n‖ ≤ A * |l| := by
      have h1 : ‖x n‖ ≤ ‖x n - l • y n‖ + ‖l • y n‖ := by
        have := norm_add_le (x n - l • y n) (l • y n)
        rwa [sub_add_cancel] at this
      rw [norm_smul, Real.norm_eq_abs] at h1
      have h2 : C * l ^ 2 ≤ C * |l| := mul_le_mul_of_nonneg_left (by rw [hsq]; nlinarith) hC
      rw [hA]; nlinarith
    have hs := hst l (x n) (x (n + 1)) (hxn.trans (by linarith)) (hx n (Nat.lt_succ_self n))
    have hs' : C₁ * (‖x n‖ + |l|) ^ 2 ≤ C₁ * (A + 1) ^ 2 * l ^ 2 := by
      have : (‖x n‖ + |l|) ^ 2 ≤ ((A + 1) * |l|) ^ 2 := pow_le_pow_left₀ (by positivity) (by linarith) 2
      have := mul_le_mul_of_nonneg_left this hC₁
      rw [hsq]; linarith [this, show C₁ * ((A + 1) * |l|) ^ 2 = C₁ * (A + 1) ^ 2 * |l| ^ 2 by ring]
    have e1 : T 0 ((x (n + 1) - l • y (n + 1)) - (x n - l • y n))
        = (T 0 (x (n + 1) - x n) - (l • F - S (x n))) - S (x n - l • y n) := by
      have e2 : (x (n + 1) - l • y (n + 1)) - (x n - l • y n) = (x (n + 1) - x n) - l • (y (n + 1) - y n) := by
        rw [smul_sub]; abel
      rw [e2, map_sub, map_smul, hy n, map_sub S, map_smul S, smul_sub]; abel
    have h1 := h.low ((x (n + 1) - l • y (n + 1)) - (x n - l • y n))
    rw [e1] at h1
    have h2 := norm_sub_le (T 0 (x (n + 1) - x n) - (l • F - S (x n))) (S (x n - l • y n))
    have h3 := (S.le_opNorm (x n - l • y n)).trans (mul_le_mul_of_nonneg_left hn (norm_nonneg S))
    have h4 : ‖(x (n + 1) - l • y (n + 1)) - (x n - l • y n)‖ ≤ 1 / k * ((C₁ * (A + 1) ^ 2 + ‖S‖ * C) * l ^ 2) := by
      rw [one_div, inv_mul_eq_div, le_div_iff₀ hk, mul_comm]; linarith
    have h5 : ‖x (n + 1) - l • y (n + 1)‖ ≤ ‖(x (n + 1) - l • y (n + 1)) - (x n - l • y n)‖ + ‖x n - l • y n‖ := by
      have := norm_add_le ((x (n + 1) - l • y (n + 1)) - (x n - l • y n)) (x n - l • y n)
      rwa [sub_add_cancel] at this
    have e3 : (C + 1 / k * (C₁ * (A + 1) ^ 2 + ‖S‖ * C)) * l ^ 2
        = 1 / k * ((C₁ * (A + 1) ^ 2 + ‖S‖ * C) * l ^ 2) + C * l ^ 2 := by ring
    rw [e3]; linarith

/-! ## The linear iteration -/

section forms

variable {K M : V →L[ℝ] V}

omit [FiniteDimensional ℝ V] in
/-- One step of `K e' = M e + r` in the norm of `K`. -/
theorem shrink (hM : ∀ u v, ⟪M u, v⟫ = ⟪u, M v⟫) (hn : ∀ v, 0 ≤ ⟪M v, v⟫)
    {k θ : ℝ} (hk : 0 < k) (hk' : ∀ u, k ^ 2 * ‖u‖ ^ 2 ≤ ⟪K u, u⟫) (hθ : 0 ≤ θ)
    (hall : ∀ u, ⟪M u, u⟫ ≤ θ * ⟪K u, u⟫) {e e' r : V} (he : K e' = M e + r) :
    √⟪K e', e'⟫ ≤ θ * √⟪K e, e⟫ + 1 / k * ‖r‖ := by
  have hpos : ∀ u, 0 ≤ ⟪K u, u⟫ := fun u => le_trans (by positivity) (hk' u)
  set p := √⟪K e, e⟫ with hp
  set p' := √⟪K e', e'⟫ with hp'
  have hp0 : 0 ≤ p := Real.sqrt_nonneg _
  have hp0' : 0 ≤ p' := Real.sqrt_nonneg _
  have hpsq : p ^ 2 = ⟪K e, e⟫ := Real.sq_sqrt (hpos e)
  have hpsq' : p' ^ 2 = ⟪K e', e'⟫ := Real.sq_sqrt (hpos e')
  have h1 : ⟪K e', e'⟫ = ⟪M e, e'⟫ + ⟪r, e'⟫ := by rw [he, inner_add_left]
  have h2 : ⟪M e, e'⟫ ≤ θ * p * p' := by
    refine abs_le_of_sq_le_sq' ?_ (by positivity) |>.2
    calc ⟪M e, e'⟫ ^ 2 ≤ ⟪M e, e⟫ * ⟪M e', e'⟫ := schwarz hM hn e e'
      _ ≤ (θ * ⟪K e, e⟫) * (θ * ⟪K e', e'⟫) := mul_le_mul (hall e) (hall e') (hn e') (mul_nonneg hθ (hpos e))
      _ = (θ * p * p') ^ 2 := by rw [← hpsq, ← hpsq']; ring
  have h3 : ‖e'‖ ≤ 1 / k * p' := by
    have h4 : k * ‖e'‖ ≤ p' := by
      refine abs_le_of_sq_le_sq' ?_ hp0' |>.2
      rw [mul_pow, hpsq']; exact hk' e'
    rw [one_div, inv_mul_eq_div, le_div_iff₀ hk, mul_comm]; exact h4
  have h4 : ⟪r, e'⟫ ≤ 1 / k * ‖r‖ * p' := by
    refine (real_inner_le_norm r e').trans ?_
    have := mul_le_mul_of_nonneg_left h3 (norm_nonneg r)
    linarith
  rcases hp0'.eq_or_lt with h | h
  · rw [← h]; positivity
  · refine le_of_mul_le_mul_right ?_ h
    rw [← hpsq'] at h1
    nlinarith

/-- A stiffer tangent: the ratio of the difference to the tangent is below one. -/
theorem ratio (hK : ∀ u v, ⟪K u, v⟫ = ⟪u, K v⟫) (hM : ∀ u v, ⟪M u, v⟫ = ⟪u, M v⟫) (hn : ∀ v, 0 ≤ ⟪M v, v⟫)
    (hS : ∀ v, v ≠ 0 → ⟪M v, v⟫ < ⟪K v, v⟫) : ∃ θ : ℝ, 0 ≤ θ ∧ θ < 1 ∧ ∀ u, ⟪M u, u⟫ ≤ θ * ⟪K u, u⟫ := by
  have hp : ∀ v, v ≠ 0 → 0 < ⟪K v, v⟫ := fun v hv => (hn v).trans_lt (hS v hv)
  by_cases h : ∃ v : V, v ≠ 0
  · obtain ⟨v, hv⟩ := h
    obtain ⟨θ, w, hw0, hw, hall⟩ := top hK hM hp hv
    have h1 := hS w hw0
    have h2 := hn w
    have h3 := hp w hw0
    rw [hw, inner_smul_left, conj_trivial] at h1 h2
    refine ⟨θ, ?_, ?_, hall⟩
    · by_contra hc
      push Not at hc
      nlinarith
    · by_contra hc
      push Not at hc
      nlinarith
  · push Not at h
    exact ⟨0, le_rfl, one_pos, fun u => by rw [h u]; simp⟩

omit [FiniteDimensional ℝ V] in
/-- What the difference of the two matrices notices at the start, every state of the linear iteration has. -/
theorem never (hM : ∀ u v, ⟪M u, v⟫ = ⟪u, M v⟫) (hp : ∀ v, v ≠ 0 → 0 < ⟪K v, v⟫) {e : ℕ → V}
    (he : ∀ n, K (e (n + 1)) = M (e n)) (h0 : M (e 0) ≠ 0) (n : ℕ) : M (e n) ≠ 0 := by
  induction n with
  | zero => exact h0
  | succ n ih =>
    intro h
    have h1 : ⟪K (e (n + 1)), e (n + 1)⟫ = 0 := by rw [he, hM, h, inner_zero_right]
    have h2 : e (n + 1) = 0 := by
      by_contra hc
      exact (hp _ hc).ne' h1
    apply ih
    rw [← he, h2, map_zero]

omit [FiniteDimensional ℝ V] in
/-- The norm of a form is at most a multiple of the norm. -/
theorem form_upper (K : V →L[ℝ] V) (u : V) : √⟪K u, u⟫ ≤ √‖K‖ * ‖u‖ := by
  rw [← Real.sqrt_sq (norm_nonneg u), ← Real.sqrt_mul (norm_nonneg K)]
  refine Real.sqrt_le_sqrt ?_
  have h1 := real_inner_le_norm (K u) u
  have h2 := mul_le_mul_of_nonneg_right (K.le_opNorm u) (norm_nonneg u)
  linarith [show ‖K‖ * ‖u‖ * ‖u‖ = ‖K‖ * ‖u‖ ^ 2 by ring]

/-- The linear iteration converges. -/
theorem geometric (hK : ∀ u v, ⟪K u, v⟫ = ⟪u, K v⟫) (hM : ∀ u v, ⟪M u, v⟫ = ⟪u, M v⟫) (hn : ∀ v, 0 ≤ ⟪M v, v⟫)
    (hS : ∀ v, v ≠ 0 → ⟪M v, v⟫ < ⟪K v, v⟫) : ∃ θ C : ℝ, 0 ≤ θ ∧ θ < 1 ∧ ∀ e : ℕ → V,
      (∀ n, K (e (n + 1)) = M (e n)) → ∀ n, ‖e n‖ ≤ C * θ ^ n * ‖e 0‖ := by
  have hp : ∀ v, v ≠ 0 → 0 < ⟪K v, v⟫ := fun v hv => (hn v).trans_lt (hS v hv)
  obtain ⟨θ, h0, h1, hall⟩ := ratio hK hM hn hS
  obtain ⟨k2, hk2, hk2'⟩ := Solve.coercive K hp
  have hk : 0 < √k2 := Real.sqrt_pos.2 hk2
  have hk' : ∀ u, √k2 ^ 2 * ‖u‖ ^ 2 ≤ ⟪K u, u⟫ := fun u => by rw [Real.sq_sqrt hk2.le]; exact hk2' u
  refine ⟨θ, 1 / √k2 * √‖K‖, h0, h1, fun e he n => ?_⟩
  have hn' : √⟪K (e n), e n⟫ ≤ θ ^ n * √⟪K (e 0), e 0⟫ := by
    induction n with
    | zero => simp
    | succ n ih =>
      have := shrink hM hn hk hk' h0 hall (e := e n) (e' := e (n + 1)) (r := 0) (by rw [add_zero]; exact he n)
      rw [norm_zero, mul_zero, add_zero] at this
      refine this.trans ?_
      rw [pow_succ]
      linarith [mul_le_mul_of_nonneg_left ih h0]
  have h2 : √k2 * ‖e n‖ ≤ √⟪K (e n), e n⟫ := by
    refine abs_le_of_sq_le_sq' ?_ (Real.sqrt_nonneg _) |>.2
    rw [mul_pow, Real.sq_sqrt (le_trans (by positivity) (hk' (e n)))]; exact hk' (e n)
  have h3 := h2.trans (hn'.trans (mul_le_mul_of_nonneg_left (form_upper K (e 0)) (by positivity)))
  have : 1 / √k2 * √‖K‖ * θ ^ n * ‖e 0‖ = θ ^ n * (√‖K‖ * ‖e 0‖) / √k2 := by ring
  rw [this, le_div_iff₀ hk, mul_comm]; exact h3

end forms

/-! ## The nonlinear iteration -/

/-- Newton's method for small loads converges linearly. -/
theorem Near.converges (h : Near R T S L r k) (hK : ∀ u v, ⟪T 0 u, v⟫ = ⟪u, T 0 v⟫)
    (hM : ∀ u v, ⟪(T 0 - S) u, v⟫ = ⟪u, (T 0 - S) v⟫) (hn : ∀ v, 0 ≤ ⟪(T 0 - S) v, v⟫)
    (hS : ∀ v, v ≠ 0 → 0 < ⟪S v, v⟫) : ∃ ρ θ C : ℝ, 0 < ρ ∧ 0 ≤ θ ∧ θ < 1 ∧ ∀ (b xs : V) (x : ℕ → V), ‖xs‖ ≤ ρ →
      R xs + b = 0 → ‖x 0‖ ≤ ρ → ∀ n, (∀ m, m < n → T (x m) (x (m + 1) - x m) = R (x m) + b) →
      ‖x n - xs‖ ≤ C * θ ^ n * ‖x 0 - xs‖ ∧ ‖x n‖ ≤ r := by
  have hL := h.hL
  have hr := h.hr
  have hk := h.hk
  have hS' : ∀ v, v ≠ 0 → ⟪(T 0 - S) v, v⟫ < ⟪T 0 v, v⟫ := fun v hv => by
    rw [_root_.sub_apply, inner_sub_left]; linarith [hS v hv]
  have hp : ∀ v, v ≠ 0 → 0 < ⟪T 0 v, v⟫ := fun v hv => (hn v).trans_lt (hS' v hv)
  obtain ⟨θ, hθ0, hθ1, hall⟩ := ratio hK hM hn hS'
  obtain ⟨k2, hk2, hk2'⟩ := Solve.coercive (T 0) hp
  set κ := √k2 with hκd
  have hκ : 0 < κ := Real.sqrt_pos.2 hk2
  have hκ' : ∀ u, κ ^ 2 * ‖u‖ ^ 2 ≤ ⟪T 0 u, u⟫ := fun u => by rw [Real.sq_sqrt hk2.le]; exact hk2' u
  have bound : ∀ u, ‖u‖ ≤ 1 / κ * √⟪T 0 u, u⟫ := fun u => by
    have h4 : κ * ‖u‖ ≤ √⟪T 0 u, u⟫ := by
      refine abs_le_of_sq_le_sq' ?_ (Real.sqrt_nonneg _) |>.2
      rw [mul_pow, Real.sq_sqrt (le_trans (by positivity) (hκ' u))]; exact hκ' u
    rw [one_div, inv_mul_eq_div, le_div_iff₀ hκ, mul_comm]; exact h4
  set D := L + L * (2 / k * (‖S‖ + L * r)) with hD
  have hD0 : 0 ≤ D := by positivity
  set ρ₂ := min r ((1 - θ) / 2 / (D * (1 / κ) * (1 / κ) + 1)) with hρ₂
  have hρ₂0 : 0 < ρ₂ := by
    have : 0 < 1 - θ := by linarith
    positivity
  have hρ₂r : ρ₂ ≤ r := min_le_left _ _
  have hρ₂θ : D * (1 / κ) * (1 / κ) * ρ₂ ≤ (1 - θ) / 2 := by
    have : ρ₂ ≤ (1 - θ) / 2 / (D * (1 / κ) * (1 / κ) + 1) := min_le_right _ _
    rw [le_div_iff₀ (by positivity)] at this
    linarith
  set A := 1 / κ * √‖T 0‖ with hA
  have hA0 : 0 ≤ A := by positivity
  set θ' := (1 + θ) / 2 with hθ'
  have hθ'0 : 0 ≤ θ' := by rw [hθ']; linarith
  have hθ'1 : θ' ≤ 1 := by rw [hθ']; linarith
  refine ⟨ρ₂ / (1 + 2 * A), θ', A, by positivity, hθ'0, by rw [hθ']; linarith, fun b xs x hxs hb hx0 n hx => ?_⟩
  have hxs2 : ‖xs‖ ≤ ρ₂ := hxs.trans (div_le_self hρ₂0.le (by linarith))
  have he0 : ‖x 0 - xs‖ ≤ 2 * (ρ₂ / (1 + 2 * A)) := (norm_sub_le _ _).trans (by linarith)
  have key : √⟪T 0 (x n - xs), x n - xs⟫ ≤ θ' ^ n * √⟪T 0 (x 0 - xs), x 0 - xs⟫ ∧ ‖x n‖ ≤ ρ₂ := by
    have inside : ∀ n, √⟪T 0 (x n - xs), x n - xs⟫ ≤ θ' ^ n * √⟪T 0 (x 0 - xs), x 0 - xs⟫ → ‖x n‖ ≤ ρ₂ := by
      intro n hn
      have h1 : ‖x n‖ ≤ ‖x n - xs‖ + ‖xs‖ := by
        have := norm_add_le (x n - xs) xs
        rwa [sub_add_cancel] at this
      have h2 := bound (x n - xs)
      have h3 : θ' ^ n * √⟪T 0 (x 0 - xs), x 0 - xs⟫ ≤ √‖T 0‖ * ‖x 0 - xs‖ := by
        refine (mul_le_of_le_one_left (Real.sqrt_nonneg _) (pow_le_one₀ hθ'0 hθ'1)).trans (form_upper _ _)
      have h4 : 1 / κ * √⟪T 0 (x n - xs), x n - xs⟫ ≤ A * ‖x 0 - xs‖ := by
        have := mul_le_mul_of_nonneg_left (hn.trans h3) (by positivity : 0 ≤ 1 / κ)
        rw [hA]; linarith
      have h5 := mul_le_mul_of_nonneg_left he0 hA0
      have h6 : ρ₂ / (1 + 2 * A) * (1 + 2 * A) = ρ₂ := div_mul_cancel₀ _ (by positivity)
      nlinarith
    induction n with
    | zero => exact ⟨by simp, inside 0 (by simp)⟩
    | succ n ih =>
      obtain ⟨i1, i2⟩ := ih fun m hm => hx m (hm.trans (Nat.lt_succ_self n))
      have hx := hx n (Nat.lt_succ_self n)
      have hrx : ‖x n‖ ≤ r := i2.trans hρ₂r
      have d1 := h.diff (x n) xs ρ₂ hρ₂r i2 hxs2
      have hRx : R (x n) + b = R (x n) - R xs := by
        rw [eq_neg_of_add_eq_zero_right hb]; abel
      have hRb : ‖R (x n) + b‖ ≤ (‖S‖ + L * r) * ‖x n - xs‖ := by
        have e1 : R (x n) + b = (R (x n) - R xs + S (x n - xs)) - S (x n - xs) := by rw [hRx]; abel
        rw [e1]
        refine (norm_sub_le _ _).trans ?_
        have h2 := S.le_opNorm (x n - xs)
        have h3 := mul_le_mul_of_nonneg_right (mul_le_mul_of_nonneg_left hρ₂r hL) (norm_nonneg (x n - xs))
        linarith
      have hlen := (h.length hrx hx).trans (mul_le_mul_of_nonneg_left hRb (by positivity))
      set rr := (R (x n) - R xs + S (x n - xs)) - (T (x n) - T 0) (x (n + 1) - x n) with hrr
      have hstep : T 0 (x (n + 1) - xs) = (T 0 - S) (x n - xs) + rr := by
        have e1 : x (n + 1) - xs = (x (n + 1) - x n) + (x n - xs) := by abel
        rw [hrr, e1, map_add, _root_.sub_apply, _root_.sub_apply, hx, hRx]; abel
      have hrr' : ‖rr‖ ≤ D * ρ₂ * ‖x n - xs‖ := by
        refine (norm_sub_le _ _).trans ?_
        have h1 := (T (x n) - T 0).le_opNorm (x (n + 1) - x n)
        have h2 : ‖T (x n) - T 0‖ ≤ L * ρ₂ := (h.tan (x n) hrx).trans (mul_le_mul_of_nonneg_left i2 hL)
        have h3 := mul_le_mul h2 hlen (norm_nonneg _) (by positivity)
        have e2 : D * ρ₂ * ‖x n - xs‖ = L * ρ₂ * ‖x n - xs‖ + L * ρ₂ * (2 / k * ((‖S‖ + L * r) * ‖x n - xs‖)) := by
          rw [hD]; ring
        rw [e2]; linarith
      have h1 := shrink hM hn hκ hκ' hθ0 hall hstep
      have h2 : 1 / κ * ‖rr‖ ≤ (1 - θ) / 2 * √⟪T 0 (x n - xs), x n - xs⟫ := by
        have h3 := mul_le_mul_of_nonneg_left (bound (x n - xs)) (by positivity : 0 ≤ D * ρ₂)
        have h4 := mul_le_mul_of_nonneg_left (hrr'.trans h3) (by positivity : 0 ≤ 1 / κ)
        have h5 := mul_le_mul_of_nonneg_right hρ₂θ (Real.sqrt_nonneg ⟪T 0 (x n - xs), x n - xs⟫)
        linarith
      have h3 : √⟪T 0 (x (n + 1) - xs), x (n + 1) - xs⟫ ≤ θ' ^ (n + 1) * √⟪T 0 (x 0 - xs), x 0 - xs⟫ := by
        have h4 : √⟪T 0 (x (n + 1) - xs), x (n + 1) - xs⟫ ≤ θ' * √⟪T 0 (x n - xs), x n - xs⟫ := by
          rw [hθ']; linarith
        refine h4.trans ?_
        rw [pow_succ]
        linarith [mul_le_mul_of_nonneg_left i1 hθ'0]
      exact ⟨h3, inside (n + 1) h3⟩
  have h1 := mul_le_mul_of_nonneg_left (key.1.trans (mul_le_mul_of_nonneg_left (form_upper (T 0) (x 0 - xs))
    (by positivity))) (by positivity : 0 ≤ 1 / κ)
  refine ⟨(bound (x n - xs)).trans (h1.trans (le_of_eq ?_)), key.2.trans hρ₂r⟩
  rw [hA]; ring

/-- Near zero the tangent is regular. -/
theorem Near.regular (h : Near R T S L r k) {x : V} (hx : ‖x‖ ≤ r) : Function.Surjective (T x) := by
  refine LinearMap.surjective_of_injective (f := (T x : V →ₗ[ℝ] V)) ?_
  refine (injective_iff_map_eq_zero (T x)).2 fun v hv => ?_
  have h1 := h.length (x := x) (x' := x + v) (b := 0) hx (by rw [add_sub_cancel_left]; exact hv)
  rw [add_sub_cancel_left, norm_zero, mul_zero] at h1
  exact norm_le_zero_iff.1 h1

/-! ## Large penalties -/

omit [FiniteDimensional ℝ V] in
/-- One step of the linear iteration with a large penalty `c` hardly changes what the penalised form `B` sees. -/
theorem stays {B : V →L[ℝ] V} (hSs : ∀ u v, ⟪S u, v⟫ = ⟪u, S v⟫) (hSn : ∀ v, 0 ≤ ⟪S v, v⟫)
    (hBn : ∀ v, 0 ≤ ⟪B v, v⟫) {c : ℝ} (hc : 0 < c) {e e' : V}
    (he : S e' = c • B (e - e')) :
    √⟪S e', e'⟫ ≤ √⟪S e, e⟫ ∧ √⟪B (e - e'), e - e'⟫ ≤ √⟪S e, e⟫ / √c := by
  set s := √⟪S e, e⟫ with hs
  set s' := √⟪S e', e'⟫ with hs'
  have hs0 : 0 ≤ s := Real.sqrt_nonneg _
  have hs0' : 0 ≤ s' := Real.sqrt_nonneg _
  have hsq : s ^ 2 = ⟪S e, e⟫ := Real.sq_sqrt (hSn e)
  have hsq' : s' ^ 2 = ⟪S e', e'⟫ := Real.sq_sqrt (hSn e')
  have h1 : ⟪S e', e⟫ - ⟪S e', e'⟫ = c * ⟪B (e - e'), e - e'⟫ := by
    rw [← inner_sub_right, he, inner_smul_left, conj_trivial]
  have h2 : ⟪S e', e⟫ ≤ s' * s := by
    refine abs_le_of_sq_le_sq' ?_ (by positivity) |>.2
    rw [mul_pow, hsq, hsq']
    exact schwarz hSs hSn e' e
  have h3 : 0 ≤ c * ⟪B (e - e'), e - e'⟫ := mul_nonneg hc.le (hBn _)
  have hle : s' ≤ s := by
    rcases hs0'.eq_or_lt with h | h
    · rw [← h]; exact hs0
    · refine le_of_mul_le_mul_left ?_ h
      nlinarith
  refine ⟨hle, ?_⟩
  have h4 : c * ⟪B (e - e'), e - e'⟫ ≤ s ^ 2 := by nlinarith
  rw [le_div_iff₀ (Real.sqrt_pos.2 hc), ← Real.sqrt_mul (hBn _), ← Real.sqrt_sq hs0]
  exact Real.sqrt_le_sqrt (by linarith)

omit [FiniteDimensional ℝ V] in
/-- Triangle inequality of the norm of a form. -/
theorem form_triangle {B : V →L[ℝ] V} (hBs : ∀ u v, ⟪B u, v⟫ = ⟪u, B v⟫) (hBn : ∀ v, 0 ≤ ⟪B v, v⟫) (u v : V) :
    √⟪B (u + v), u + v⟫ ≤ √⟪B u, u⟫ + √⟪B v, v⟫ := by
  refine abs_le_of_sq_le_sq' ?_ (by positivity) |>.2
  rw [Real.sq_sqrt (hBn _), add_sq, Real.sq_sqrt (hBn u), Real.sq_sqrt (hBn v)]
  have h7 : ⟪B u, v⟫ ≤ √⟪B u, u⟫ * √⟪B v, v⟫ := by
    refine abs_le_of_sq_le_sq' ?_ (by positivity) |>.2
    rw [mul_pow, Real.sq_sqrt (hBn u), Real.sq_sqrt (hBn v)]
    exact schwarz hBs hBn u v
  rw [map_add, inner_add_left, inner_add_right, inner_add_right, hBs v u, real_inner_comm (B u) v]
  linarith

omit [FiniteDimensional ℝ V] in
theorem form_smul {B : V →L[ℝ] V} (a : ℝ) (v : V) : √⟪B (a • v), a • v⟫ = |a| * √⟪B v, v⟫ := by
  rw [map_smul, inner_smul_left, inner_smul_right, conj_trivial, ← mul_assoc, Real.sqrt_mul (mul_self_nonneg a),
    Real.sqrt_mul_self_eq_abs]

omit [FiniteDimensional ℝ V] in
/-- What the penalised form sees of the linear iteration after `n` steps from zero. -/
theorem crawls {B : V →L[ℝ] V} (hSs : ∀ u v, ⟪S u, v⟫ = ⟪u, S v⟫) (hSn : ∀ v, 0 ≤ ⟪S v, v⟫)
    (hBs : ∀ u v, ⟪B u, v⟫ = ⟪u, B v⟫) (hBn : ∀ v, 0 ≤ ⟪B v, v⟫) {c : ℝ} (hc : 0 < c) {xh : V} {z : ℕ → V}
    (h0 : z 0 = 0) (hz : ∀ n, S (xh - z (n + 1)) = c • B (z (n + 1) - z n)) (n : ℕ) :
    √⟪B (z n), z n⟫ ≤ n * (√⟪S xh, xh⟫ / √c) := by
  have hst := fun n => stays hSs hSn hBn hc (e := xh - z n) (e' := xh - z (n + 1)) (by
    rw [hz, sub_sub_sub_cancel_left])
  have hS : ∀ n, √⟪S (xh - z n), xh - z n⟫ ≤ √⟪S xh, xh⟫ := fun n => by
    induction n with
    | zero => rw [h0, sub_zero]
    | succ n ih => exact (hst n).1.trans ih
  induction n with
  | zero => rw [h0]; simp
  | succ n ih =>
    have h1 := (hst n).2
    rw [sub_sub_sub_cancel_left] at h1
    have h2 := form_triangle hBs hBn (z n) (z (n + 1) - z n)
    rw [add_sub_cancel] at h2
    have h3 := div_le_div_of_nonneg_right (hS n) (Real.sqrt_nonneg c)
    push_cast
    linarith

omit [FiniteDimensional ℝ V] in
/-- A surjective tangent has a linear iteration from zero. -/
theorem iteration {K S : V →L[ℝ] V} (hK : Function.Surjective K) (F : V) :
    ∃ z : ℕ → V, z 0 = 0 ∧ ∀ n, K (z (n + 1) - z n) = F - S (z n) := by
  choose g hg using hK
  refine ⟨fun n => Nat.rec 0 (fun _ w => w + g (F - S w)) n, rfl, fun n => ?_⟩
  show K ((_ + g (F - S _)) - _) = _
  rw [add_sub_cancel_left, hg]

end Verif.SlowNewton
