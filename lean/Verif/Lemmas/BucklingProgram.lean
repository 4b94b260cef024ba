import Verif.Model.BucklingProgram
import Verif.Spec.BucklingProgram
import Verif.Lemmas.LocalNewton
import Mathlib.LinearAlgebra.FiniteDimensional.Basic
import Mathlib.LinearAlgebra.Dimension.Constructions

/-! # Helper lemmas: pencils of two matrices -/

namespace Verif.BucklingProgram

open RealInnerProductSpace Spec.BucklingProgram Filter Topology

variable {V : Type} [NormedAddCommGroup V] [InnerProductSpace ℝ V] {n : ℕ}
  {A A' B : V →L[ℝ] V} {vec vec' : Fin n → V} {val val' : Fin n → ℝ}

/-- Coordinates with respect to vectors that are orthonormal for `B`. -/
noncomputable def coords (B : V →L[ℝ] V) (vec : Fin n → V) : V →ₗ[ℝ] (Fin n → ℝ) where
  toFun v j := ⟪B v, vec j⟫
  map_add' u v := by funext j; simp [inner_add_left]
  map_smul' c v := by funext j; simp [inner_smul_left]

variable [FiniteDimensional ℝ V]

theorem expand (hd : Module.finrank ℝ V = n) (ho : ∀ i j, ⟪B (vec i), vec j⟫ = if i = j then (1 : ℝ) else 0) (v : V) :
    v = ∑ j, ⟪B v, vec j⟫ • vec j := by
  have hs : Function.Surjective (coords B vec) := by
    intro f
    refine ⟨∑ j, f j • vec j, funext fun k => ?_⟩
    simp only [coords, LinearMap.coe_mk, AddHom.coe_mk, map_sum, map_smul, ho]
    simp
  have hi : Function.Injective (coords B vec) :=
    (LinearMap.injective_iff_surjective_of_finrank_eq_finrank (by simp [hd])).2 hs
  refine hi (funext fun k => ?_)
  simp only [coords, LinearMap.coe_mk, AddHom.coe_mk, map_sum, map_smul, ho]
  simp

theorem form_B (hd : Module.finrank ℝ V = n) (ho : ∀ i j, ⟪B (vec i), vec j⟫ = if i = j then (1 : ℝ) else 0) (v : V) :
    ⟪B v, v⟫ = ∑ j, ⟪B v, vec j⟫ ^ 2 := by
  have : ⟪B v, v⟫ = ⟪B v, ∑ j, ⟪B v, vec j⟫ • vec j⟫ := by rw [← expand hd ho v]
  rw [this, inner_sum]
  exact Finset.sum_congr rfl fun j _ => by rw [inner_smul_right, sq]

theorem inner_pair (hd : Module.finrank ℝ V = n) (hp : ∀ i, A (vec i) = val i • B (vec i))
    (ho : ∀ i j, ⟪B (vec i), vec j⟫ = if i = j then (1 : ℝ) else 0) (v : V) (j : Fin n) :
    ⟪A v, vec j⟫ = val j * ⟪B v, vec j⟫ := by
  have : ⟪A v, vec j⟫ = ⟪A (∑ i, ⟪B v, vec i⟫ • vec i), vec j⟫ := by rw [← expand hd ho v]
  rw [this]
  simp only [map_sum, map_smul, sum_inner, inner_smul_left, hp, ho]
  simp [mul_comm]

theorem form_A (hd : Module.finrank ℝ V = n) (hp : ∀ i, A (vec i) = val i • B (vec i))
    (ho : ∀ i j, ⟪B (vec i), vec j⟫ = if i = j then (1 : ℝ) else 0) (v : V) :
    ⟪A v, v⟫ = ∑ j, val j * ⟪B v, vec j⟫ ^ 2 := by
  have : ⟪A v, v⟫ = ⟪A v, ∑ j, ⟪B v, vec j⟫ • vec j⟫ := by rw [← expand hd ho v]
  rw [this, inner_sum]
  exact Finset.sum_congr rfl fun j _ => by rw [inner_smul_right, inner_pair hd hp ho]; ring

theorem coords_zero (hd : Module.finrank ℝ V = n) (ho : ∀ i j, ⟪B (vec i), vec j⟫ = if i = j then (1 : ℝ) else 0) {v : V}
    (h : ∀ j, ⟪B v, vec j⟫ = 0) : v = 0 := by
  rw [expand hd ho v]
  simp [h]

theorem stiff_of (hd : Module.finrank ℝ V = n) (ho : ∀ i j, ⟪B (vec i), vec j⟫ = if i = j then (1 : ℝ) else 0) :
    Stiff B := by
  intro v hv
  rw [form_B hd ho]
  refine (Finset.sum_nonneg fun j _ => sq_nonneg _).lt_of_ne' fun h0 => hv ?_
  rw [Finset.sum_eq_zero_iff_of_nonneg fun j _ => sq_nonneg _] at h0
  exact coords_zero hd ho fun j => by simpa using h0 j (Finset.mem_univ j)

/-- A displacement without the high modes of one pencil and the low modes of another. -/
theorem between (hd : Module.finrank ℝ V = n) (i : Fin n) :
    ∃ v : V, v ≠ 0 ∧ (∀ j, j < i → ⟪B v, vec' j⟫ = 0) ∧ ∀ j, i < j → ⟪B v, vec j⟫ = 0 := by
  let Φ : V →ₗ[ℝ] (Fin n → ℝ) :=
    { toFun := fun v j => if j < i then ⟪B v, vec' j⟫ else if i < j then ⟪B v, vec j⟫ else 0
      map_add' := fun u v => by
        funext j; simp only [Pi.add_apply, map_add, inner_add_left]; split_ifs <;> simp
      map_smul' := fun c v => by
        funext j
        simp only [Pi.smul_apply, map_smul, inner_smul_left, RingHom.id_apply, conj_trivial, smul_eq_mul]
        split_ifs <;> simp }
  have hn : ¬ Function.Injective Φ := by
    intro h
    obtain ⟨v, hv⟩ := (LinearMap.injective_iff_surjective_of_finrank_eq_finrank (by simp [hd])).1 h (Pi.single i 1)
    have := congrFun hv i
    simp [Φ] at this
  rw [injective_iff_map_eq_zero] at hn
  push Not at hn
  obtain ⟨v, h0, hv⟩ := hn
  refine ⟨v, hv, fun j hj => ?_, fun j hj => ?_⟩
  · have := congrFun h0 j
    simpa [Φ, hj] using this
  · have := congrFun h0 j
    simpa [Φ, hj, not_lt.2 hj.le] using this

/-- Eigenvalues grow with the form. -/
theorem weyl (h : Dense A B vec val) (h' : Dense A' B vec' val') {ε : ℝ}
    (hA : ∀ v, ⟪A' v, v⟫ ≤ ⟪A v, v⟫ + ε * ⟪B v, v⟫) (i : Fin n) : val' i ≤ val i + ε := by
  obtain ⟨v, hv, h1, h2⟩ := between (B := B) (vec := vec) (vec' := vec') h.dim i
  have hB := stiff_of h.dim h.orth v hv
  have lo : val' i * ⟪B v, v⟫ ≤ ⟪A' v, v⟫ := by
    rw [form_A h'.dim h'.pair h'.orth, form_B h'.dim h'.orth, Finset.mul_sum]
    refine Finset.sum_le_sum fun j _ => ?_
    rcases lt_or_ge j i with g | g
    · rw [h1 j g]; simp
    · exact mul_le_mul_of_nonneg_right (h'.sorted g) (sq_nonneg _)
  have hi : ⟪A v, v⟫ ≤ val i * ⟪B v, v⟫ := by
    rw [form_A h.dim h.pair h.orth, form_B h.dim h.orth, Finset.mul_sum]
    refine Finset.sum_le_sum fun j _ => ?_
    rcases lt_or_ge i j with g | g
    · rw [h2 j g]; simp
    · exact mul_le_mul_of_nonneg_right (h.sorted g) (sq_nonneg _)
  have := hA v
  have : val' i * ⟪B v, v⟫ ≤ (val i + ε) * ⟪B v, v⟫ := by linarith
  exact le_of_mul_le_mul_right this hB

theorem dense_unique (h : Dense A B vec val) (h' : Dense A B vec' val') : val' = val := by
  funext i
  refine le_antisymm ?_ ?_
  · simpa using weyl h h' (ε := 0) (fun v => by simp) i
  · simpa using weyl h' h (ε := 0) (fun v => by simp) i

omit [FiniteDimensional ℝ V] in
theorem dense_smul (h : Dense A B vec val) {c : ℝ} (hc : 0 ≤ c) : Dense (c • A) B vec fun i => c * val i :=
  ⟨h.dim, fun i => by simp [h.pair, smul_smul], h.orth, fun _ _ hij => mul_le_mul_of_nonneg_left (h.sorted hij) hc⟩

/-- Eigenvalues of close matrices are close. -/
theorem weyl_norm (h : Dense A B vec val) (h' : Dense A' B vec' val') {b : ℝ} (hb : 0 < b)
    (hB : ∀ v, b * ‖v‖ ^ 2 ≤ ⟪B v, v⟫) (i : Fin n) : |val' i - val i| ≤ ‖A' - A‖ / b := by
  have key : ∀ v, |⟪A' v, v⟫ - ⟪A v, v⟫| ≤ ‖A' - A‖ / b * ⟪B v, v⟫ := by
    intro v
    have e : ⟪A' v, v⟫ - ⟪A v, v⟫ = ⟪(A' - A) v, v⟫ := by
      rw [sub_apply, inner_sub_left]
    rw [e]
    calc |⟪(A' - A) v, v⟫| ≤ ‖(A' - A) v‖ * ‖v‖ := abs_real_inner_le_norm _ _
      _ ≤ ‖A' - A‖ * ‖v‖ * ‖v‖ := mul_le_mul_of_nonneg_right (ContinuousLinearMap.le_opNorm _ _) (norm_nonneg _)
      _ = ‖A' - A‖ / b * (b * ‖v‖ ^ 2) := by field_simp
      _ ≤ _ := mul_le_mul_of_nonneg_left (hB v) (by positivity)
  rw [abs_le]
  constructor
  · have := weyl h' h (ε := ‖A' - A‖ / b) (fun v => by linarith [(abs_le.1 (key v)).1]) i
    linarith
  · have := weyl h h' (ε := ‖A' - A‖ / b) (fun v => by linarith [(abs_le.1 (key v)).2]) i
    linarith

/-- Matrices that change with the load: the eigenvalues per load. -/
theorem rates {K : V → V →L[ℝ] V} {c : ℝ → V} {G : V →L[ℝ] V} (hG : HasDerivAt (fun l => K (c l)) G 0)
    {vec : ℝ → Fin n → V} {val : ℝ → Fin n → ℝ} (h : ∀ᶠ l in 𝓝[>] 0, Dense (K (c l) - K (c 0)) (K (c 0)) (vec l) (val l))
    {vec0 : Fin n → V} {val0 : Fin n → ℝ} (h0 : Dense G (K (c 0)) vec0 val0) (i : Fin n) :
    Tendsto (fun l => val l i / l) (𝓝[>] 0) (𝓝 (val0 i)) := by
  obtain ⟨b, hb, hB⟩ := Solve.coercive _ (stiff_of h0.dim h0.orth)
  have hs : Tendsto (fun l : ℝ => l⁻¹ • (K (c l) - K (c 0))) (𝓝[>] 0) (𝓝 G) := by
    have := hG.tendsto_slope_zero_right
    simpa using this
  have hn : Tendsto (fun l : ℝ => ‖l⁻¹ • (K (c l) - K (c 0)) - G‖ / b) (𝓝[>] 0) (𝓝 0) := by
    have := ((tendsto_iff_norm_sub_tendsto_zero.1 hs).div_const b)
    simpa using this
  rw [tendsto_iff_norm_sub_tendsto_zero]
  refine squeeze_zero' (Eventually.of_forall fun _ => norm_nonneg _) ?_ hn
  filter_upwards [h, self_mem_nhdsWithin] with l hl hpos
  have := weyl_norm h0 (dense_smul hl (inv_nonneg.2 (le_of_lt hpos))) hb hB i
  rw [Real.norm_eq_abs, div_eq_inv_mul]
  exact this

omit [FiniteDimensional ℝ V] in
/-- The tangent has a derivative along every path with a velocity. -/
theorem path_deriv {R : V → V} {K : V → V →L[ℝ] V} (hR : ContDiffAt ℝ 2 R 0)
    (hK : ∀ᶠ x in 𝓝 0, HasFDerivAt R (-K x) x) (x : V) : ∃ G : V →L[ℝ] V, ∀ c : ℝ → V, c 0 = 0 →
      HasDerivAt c x 0 → HasDerivAt (fun l => K (c l)) G 0 := by
  have h1 : ContDiffAt ℝ 1 (fderiv ℝ R) 0 := hR.fderiv_right (by norm_num)
  have h2 : HasFDerivAt (fderiv ℝ R) (fderiv ℝ (fderiv ℝ R) 0) 0 := (h1.differentiableAt (by norm_num)).hasFDerivAt
  refine ⟨-(fderiv ℝ (fderiv ℝ R) 0 x), fun c h0 hc => ?_⟩
  rw [← h0] at h2
  have h3 := (h2.comp_hasDerivAt (0 : ℝ) hc).neg
  rw [h0] at h3
  refine h3.congr_of_eventuallyEq ?_
  have h4 : ∀ᶠ l in 𝓝 (0 : ℝ), HasFDerivAt R (-K (c l)) (c l) := by
    have : Tendsto c (𝓝 0) (𝓝 0) := by simpa [h0] using hc.continuousAt.tendsto
    exact this.eventually hK
  filter_upwards [h4] with l hl
  show K (c l) = -(fderiv ℝ R (c l))
  rw [hl.fderiv, neg_neg]

omit [FiniteDimensional ℝ V] in
theorem shifted_pos (h : Shifted A B vec val) (hA : Stiff A) (i : Fin n) : 0 < val i := by
  have hv : vec i ≠ 0 := fun h0 => by
    have := h.orth i i
    rw [h0] at this
    simp at this
  have := hA _ hv
  rw [h.pair, real_inner_smul_left, h.orth] at this
  simpa using this

omit [FiniteDimensional ℝ V] in
/-- What the one solver returns, turned around. -/
theorem shifted_dense (h : Shifted A B vec val) (hA : Stiff A) :
    Dense B A (fun i => (1 / √(val (Fin.rev i))) • vec (Fin.rev i)) fun i => 1 / val (Fin.rev i) := by
  have hp := shifted_pos h hA
  refine ⟨h.dim, fun i => ?_, fun i j => ?_, fun i j hij => ?_⟩
  · have := (hp (Fin.rev i)).ne'
    rw [map_smul, map_smul, h.pair, smul_smul, smul_smul]
    congr 1
    field_simp
  · rw [map_smul, h.pair, real_inner_smul_left, real_inner_smul_left, real_inner_smul_right, h.orth]
    by_cases hij : i = j
    · subst hij
      have h1 := hp (Fin.rev i)
      have h2 := Real.sq_sqrt h1.le
      have h3 := (Real.sqrt_pos.2 h1).ne'
      simp only [if_true]
      field_simp
      exact h2.symm
    · rw [if_neg (fun e => hij (Fin.rev_injective e)), if_neg hij]; simp
  · have := h.sorted (Fin.rev j) (Fin.rev i) (Fin.rev_le_rev.2 hij)
    rw [abs_of_pos (hp _), abs_of_pos (hp _)] at this
    exact one_div_le_one_div_of_le (hp _) this

theorem dense_critical (h : Dense A B vec val) (s : ℝ) : Critical B A s ↔ ∃ i, 1 + s * val i = 0 := by
  constructor
  · rintro ⟨v, hv, h0⟩
    by_contra hn
    push Not at hn
    refine hv (coords_zero h.dim h.orth fun j => ?_)
    have h1 : ⟪B v + s • A v, vec j⟫ = 0 := by rw [h0, inner_zero_left]
    rw [inner_add_left, real_inner_smul_left, inner_pair h.dim h.pair h.orth] at h1
    have h2 : (1 + s * val j) * ⟪B v, vec j⟫ = 0 := by linarith
    exact (mul_eq_zero.1 h2).resolve_left (hn j)
  · rintro ⟨i, hi⟩
    refine ⟨vec i, fun h0 => ?_, ?_⟩
    · have := h.orth i i
      rw [h0] at this
      simp at this
    · rw [h.pair, smul_smul]
      have : B (vec i) + (s * val i) • B (vec i) = (1 + s * val i) • B (vec i) := by rw [add_smul, one_smul]
      rw [this, hi, zero_smul]

theorem dense_stable (h : Dense A B vec val) (s : ℝ) : Stable B A s ↔ ∀ i, 0 < 1 + s * val i := by
  constructor
  · intro hs i
    have hv : vec i ≠ 0 := fun h0 => by
      have := h.orth i i
      rw [h0] at this
      simp at this
    have := hs _ hv
    rw [inner_add_left, real_inner_smul_left, inner_pair h.dim h.pair h.orth, h.orth] at this
    simpa using this
  · intro hs v hv
    have e : ⟪B v + s • A v, v⟫ = ∑ j, (1 + s * val j) * ⟪B v, vec j⟫ ^ 2 := by
      rw [inner_add_left, real_inner_smul_left, form_A h.dim h.pair h.orth, form_B h.dim h.orth, Finset.mul_sum,
        ← Finset.sum_add_distrib]
      exact Finset.sum_congr rfl fun j _ => by ring
    rw [e]
    have hnn : ∀ j ∈ Finset.univ, 0 ≤ (1 + s * val j) * ⟪B v, vec j⟫ ^ 2 :=
      fun j _ => mul_nonneg (hs j).le (sq_nonneg _)
    refine (Finset.sum_nonneg hnn).lt_of_ne' fun h0 => hv ?_
    rw [Finset.sum_eq_zero_iff_of_nonneg hnn] at h0
    refine coords_zero h.dim h.orth fun j => ?_
    have := (mul_eq_zero.1 (h0 j (Finset.mem_univ j))).resolve_left (hs j).ne'
    simpa using this

end Verif.BucklingProgram
