import Verif.Lemmas.ClampNewton

/-!
# C160: Newton's method for a shell with weakly clamped sides

Shells of linear material, undeformed when all unknowns vanish, under small loads.
-/

namespace Verif.ClampNewton

open V3 Verif.Geometry Verif.HeldShell Spec.HeldShell Spec.ClampNewton
open Verif.ShellSystem (Problem Law linear)
open Verif.LoadedShell (ofEntries ofEntries_apply)
open RealInnerProductSpace Filter Topology

variable {J κ ι : Type} [Fintype J] {P : Problem J κ} {H : Holds J ι} {r : Integrate.Rule} {E ν t : κ → ℝ}

/-- The right-hand side of the linear problem as a vector. -/
noncomputable abbrev rhs (P : Problem J κ) (H : Holds J ι) : EuclideanSpace ℝ J := WithLp.toLp 2 (linearRhs P H)

/-- The matrix of the linear problem, with and without clamping. -/
noncomputable abbrev full (P : Problem J κ) (H : Holds J ι) (r : Integrate.Rule) (E ν t : κ → ℝ) :
    EuclideanSpace ℝ J →L[ℝ] EuclideanSpace ℝ J := ofEntries (linearEntry P H (linear P r E ν t))

theorem solves {e : J → J → ℝ} {f : J → ℝ} {x : EuclideanSpace ℝ J} (h : ∀ j, ∑ j', e j j' * x j' = f j) :
    ofEntries e x = WithLp.toLp 2 f := by
  ext j; exact h j

theorem iterates_op {l : ℝ} {x : ℕ → EuclideanSpace ℝ J}
    (hx : Iterates (P.scale l) (H.scale l) (linear P r E ν t) x) :
    full P H r E ν t (x 0) = l • rhs P H ∧
    ∀ n, tangent P H (linear P r E ν t) (x n) (x (n + 1) - x n) = bare P H r E ν t (x n) + l • rhs P H := by
  constructor
  · refine (solves hx.start).trans ?_
    ext j
    exact scaled_rhs l j
  · intro n
    have h1 : tangent P H (linear P r E ν t) (x n) (x (n + 1) - x n)
        = residual (P.scale l) (H.scale l) (linear P r E ν t) (x n) := by
      ext j; exact hx.step n j
    rw [h1, scaled_residual]; rfl

theorem hinged_pos (hs : Stable P H (linear P r E ν t)) (v : EuclideanSpace ℝ J) (hv : v ≠ 0) :
    0 < ⟪full P (hinged H) r E ν t v, v⟫ := by rw [inner_entries]; exact hs v hv

theorem hinged_nonneg (hs : Stable P H (linear P r E ν t)) (v : EuclideanSpace ℝ J) :
    0 ≤ ⟪full P (hinged H) r E ν t v, v⟫ := by
  by_cases hv : v = 0
  · rw [hv]; simp
  · exact (hinged_pos hs v hv).le

theorem full_pos (h : AtRest P H) (hx : (0 : EuclideanSpace ℝ J) ∈ Spec.HeldShell.Admissible P H) (hf : Factors H)
    (hs : Stable P H (linear P r E ν t)) (v : EuclideanSpace ℝ J) (hv : v ≠ 0) : 0 < ⟪full P H r E ν t v, v⟫ := by
  rw [full, operator_split, _root_.add_apply, inner_add_left]
  linarith [hinged_pos hs v hv, clamp_nonneg P hf h hx v]

theorem injective_of_pos {K : EuclideanSpace ℝ J →L[ℝ] EuclideanSpace ℝ J} (hK : ∀ v, v ≠ 0 → 0 < ⟪K v, v⟫) :
    Function.Injective K := (injective_iff_map_eq_zero K).2 fun v hv => by
  by_contra h
  have := hK v h
  rw [hv, inner_zero_left] at this
  exact lt_irrefl _ this

theorem surjective_of_pos {K : EuclideanSpace ℝ J →L[ℝ] EuclideanSpace ℝ J} (hK : ∀ v, v ≠ 0 → 0 < ⟪K v, v⟫) :
    Function.Surjective K :=
  LinearMap.surjective_of_injective (f := (K : EuclideanSpace ℝ J →ₗ[ℝ] EuclideanSpace ℝ J)) (injective_of_pos hK)

theorem turned_eq (h : AtRest P H) (hx : (0 : EuclideanSpace ℝ J) ∈ Spec.HeldShell.Admissible P H)
    (v : EuclideanSpace ℝ J) : turned H v = √⟪ofEntries (clampEntry H) v, v⟫ := by rw [turned, clamp_form P h hx]

/-- States of Newton's method and equilibria for small loads, to first order. -/
theorem first_order (h : AtRest P H) (hx : (0 : EuclideanSpace ℝ J) ∈ Spec.HeldShell.Admissible P H) (hf : Factors H)
    (hs : Stable P H (linear P r E ν t)) {xh : EuclideanSpace ℝ J} (hh : full P (hinged H) r E ν t xh = rhs P H)
    {z : ℕ → EuclideanSpace ℝ J} (hz0 : z 0 = 0)
    (hz : ∀ n, full P H r E ν t (z (n + 1) - z n) = rhs P H - full P (hinged H) r E ν t (z n)) (n : ℕ) :
    ∃ C l₀ : ℝ, 0 ≤ C ∧ 0 < l₀ ∧ ∀ (l : ℝ) (x : ℕ → EuclideanSpace ℝ J) (xs : EuclideanSpace ℝ J), |l| ≤ l₀ →
      Iterates (P.scale l) (H.scale l) (linear P r E ν t) x → ‖xs‖ ≤ l₀ →
      residual (P.scale l) (H.scale l) (linear P r E ν t) xs = 0 →
      ‖x n - l • z (n + 1)‖ ≤ C * l ^ 2 ∧ ‖xs - l • xh‖ ≤ C * l ^ 2 := by
  obtain ⟨L, ρ, k, hnear⟩ := near r E ν t h hx hf hs
  have hT : tangent P H (linear P r E ν t) 0 = full P H r E ν t := tangent_rest r E ν t h
  have hp := full_pos h hx hf hs
  obtain ⟨C₁, l₁, hC₁, hl₁, h1⟩ := hnear.steps (bare_zero r E ν t h) (rhs P H) (fun n => z (n + 1))
    (fun n => by rw [hT]; exact hz (n + 1)) n
  obtain ⟨xc, hxc⟩ := surjective_of_pos hp (rhs P H)
  obtain ⟨l₂, ρ₂, C₂, hl₂, hρ₂, h2⟩ := C158_small_violated P H r E ν t h hx
    (fun v hv => by
      have h0 : full P (hinged H) r E ν t v = 0 := by ext j; exact hv j
      exact injective_of_pos (hinged_pos hs) (h0.trans (map_zero _).symm)) xh xc
    (fun j => congrArg (fun w : EuclideanSpace ℝ J => w j) hh)
    (fun j => congrArg (fun w : EuclideanSpace ℝ J => w j) hxc)
  refine ⟨max C₁ C₂, min l₁ (min l₂ ρ₂), hC₁.trans (le_max_left _ _), by positivity, fun l x xs hl hit hxs h0 => ⟨?_, ?_⟩⟩
  · obtain ⟨i1, i2⟩ := iterates_op hit
    refine (h1 l x (hl.trans (min_le_left _ _)) ?_ fun m _ => i2 m).trans
      (mul_le_mul_of_nonneg_right (le_max_left _ _) (sq_nonneg l))
    refine injective_of_pos hp (i1.trans ?_)
    have := hz 0
    rw [hz0, sub_zero, map_zero, sub_zero] at this
    rw [map_smul, this]
  · obtain ⟨-, ys, -, -, hu, hys, -⟩ := h2 l (hl.trans ((min_le_right _ _).trans (min_le_left _ _)))
    rw [hu xs (hxs.trans ((min_le_right _ _).trans (min_le_right _ _))) h0]
    exact hys.trans (mul_le_mul_of_nonneg_right (le_max_right _ _) (sq_nonneg l))

/-- **C160** is violated: the order never improves.  Unless the solution without clamping solves the linear problem,
after any number of steps the error of Newton's method is still at least a constant times the load, for all small
loads: as bad an order as that of the linear solution the method starts with. -/
theorem C160_steps_violated (h : AtRest P H) (hx : (0 : EuclideanSpace ℝ J) ∈ Spec.HeldShell.Admissible P H)
    (hf : Factors H) (hs : Stable P H (linear P r E ν t)) (xh : EuclideanSpace ℝ J)
    (hh : ∀ j, ∑ j', linearEntry P (hinged H) (linear P r E ν t) j j' * xh j' = linearRhs P H j)
    (hne : ¬ ∀ j, ∑ j', linearEntry P H (linear P r E ν t) j j' * xh j' = linearRhs P H j) (n : ℕ) :
    ∃ d l₀ : ℝ, 0 < d ∧ 0 < l₀ ∧ ∀ (l : ℝ) (x : ℕ → EuclideanSpace ℝ J) (xs : EuclideanSpace ℝ J), |l| ≤ l₀ →
      Iterates (P.scale l) (H.scale l) (linear P r E ν t) x → ‖xs‖ ≤ l₀ →
      residual (P.scale l) (H.scale l) (linear P r E ν t) xs = 0 → d * |l| ≤ ‖x n - xs‖ := by
  have hh' : full P (hinged H) r E ν t xh = rhs P H := solves hh
  have hp := full_pos h hx hf hs
  obtain ⟨z, hz0, hz⟩ := SlowNewton.iteration (S := full P (hinged H) r E ν t) (surjective_of_pos hp) (rhs P H)
  obtain ⟨C, l₀, hC, hl₀, hall⟩ := first_order h hx hf hs hh' hz0 hz n
  have hsplit : ∀ v, full P H r E ν t v = full P (hinged H) r E ν t v + ofEntries (clampEntry H) v := fun v => by
    rw [full, operator_split]; rfl
  have he : ∀ n, full P H r E ν t (xh - z (n + 1)) = ofEntries (clampEntry H) (xh - z n) := fun n => by
    have e1 : xh - z (n + 1) = (xh - z n) - (z (n + 1) - z n) := by abel
    rw [e1, map_sub (full P H r E ν t), hz, ← hh', hsplit, map_sub (full P (hinged H) r E ν t)]; abel
  have h0 : ofEntries (clampEntry H) (xh - z 0) ≠ 0 := fun h0 => hne fun j => by
    rw [hz0, sub_zero] at h0
    have := hsplit xh
    rw [h0, add_zero, hh'] at this
    exact congrArg (fun w : EuclideanSpace ℝ J => w j) this
  have hn : xh - z (n + 1) ≠ 0 := fun hc => by
    have := SlowNewton.never (K := full P H r E ν t) (M := ofEntries (clampEntry H))
      (symmetric_entries clamp_symmetric) hp (e := fun n => xh - z n) he h0 (n + 1)
    beta_reduce at this
    rw [hc, map_zero] at this
    exact this rfl
  have hd : 0 < ‖xh - z (n + 1)‖ := norm_pos_iff.2 hn
  refine ⟨‖xh - z (n + 1)‖ / 2, min l₀ (‖xh - z (n + 1)‖ / (4 * (C + 1))), by positivity, by positivity,
    fun l x xs hl hit hxs hr => ?_⟩
  obtain ⟨h1, h2⟩ := hall l x xs (hl.trans (min_le_left _ _)) hit (hxs.trans (min_le_left _ _)) hr
  have h3 : |l| * (4 * (C + 1)) ≤ ‖xh - z (n + 1)‖ := by
    have := hl.trans (min_le_right _ _)
    rwa [le_div_iff₀ (by positivity)] at this
  have e1 : l • (xh - z (n + 1)) = (x n - l • z (n + 1)) - (xs - l • xh) - (x n - xs) := by rw [smul_sub]; abel
  have h4 : |l| * ‖xh - z (n + 1)‖ ≤ C * l ^ 2 + C * l ^ 2 + ‖x n - xs‖ := by
    rw [← Real.norm_eq_abs, ← norm_smul, e1]
    refine (norm_sub_le _ _).trans (add_le_add ((norm_sub_le _ _).trans (add_le_add h1 h2)) le_rfl)
  have h5 : C * l ^ 2 + C * l ^ 2 ≤ |l| * (‖xh - z (n + 1)‖ / 2) := by
    rw [← sq_abs l]
    nlinarith [abs_nonneg l, mul_nonneg hC (sq_nonneg |l|), sq_nonneg |l|, mul_le_mul_of_nonneg_left h3 (abs_nonneg l)]
  linarith

/-- **C160** is violated: the stiffer the clamping, the slower.  The equilibrium turns the sides by as much as if they
were hinges, whatever the factors; with factors times `c`, after `n` further steps Newton's method has turned them by
at most `(n + 1) √W / √c`, where `W` is the work of the load on the solution with hinges. -/
theorem C160_slow_violated (h : AtRest P H) (hx : (0 : EuclideanSpace ℝ J) ∈ Spec.HeldShell.Admissible P H)
    (hf : Factors H) (hs : Stable P H (linear P r E ν t)) (xh : EuclideanSpace ℝ J)
    (hh : ∀ j, ∑ j', linearEntry P (hinged H) (linear P r E ν t) j j' * xh j' = linearRhs P H j) {c : ℝ} (hc : 0 < c)
    (n : ℕ) : ∃ C l₀ : ℝ, 0 < l₀ ∧ ∀ (l : ℝ) (x : ℕ → EuclideanSpace ℝ J) (xs : EuclideanSpace ℝ J), |l| ≤ l₀ →
      Iterates (P.scale l) ((rigid H c).scale l) (linear P r E ν t) x → ‖xs‖ ≤ l₀ →
      residual (P.scale l) ((rigid H c).scale l) (linear P r E ν t) xs = 0 →
      turned H (x n) ≤ (n + 1) * (√(∑ j, linearRhs P H j * xh j) / √c) * |l| + C * l ^ 2 ∧
      turned H xh * |l| - C * l ^ 2 ≤ turned H xs := by
  have hh' : full P (hinged H) r E ν t xh = rhs P H := solves hh
  have hc' : AtRest P (rigid H c) := ⟨h.shell, h.side, h.place⟩
  have hxc : (0 : EuclideanSpace ℝ J) ∈ Spec.HeldShell.Admissible P (rigid H c) := hx
  have hfc : Factors (rigid H c) := fun q hq =>
    ⟨(hf q hq).1, mul_nonneg hc.le (hf q hq).2.1, (hf q hq).2.2⟩
  have hsc : Stable P (rigid H c) (linear P r E ν t) := hs
  have hp := full_pos hc' hxc hfc hsc
  obtain ⟨z, hz0, hz⟩ := SlowNewton.iteration (S := full P (hinged H) r E ν t) (surjective_of_pos hp) (rhs P H)
  obtain ⟨C, l₀, hC, hl₀, hall⟩ := first_order hc' hxc hfc hsc (xh := xh) hh' hz0 hz n
  set B := ofEntries (clampEntry H) with hB
  have hBs : ∀ u v, ⟪B u, v⟫ = ⟪u, B v⟫ := symmetric_entries clamp_symmetric
  have hBn : ∀ v, 0 ≤ ⟪B v, v⟫ := clamp_nonneg P hf h hx
  have hsplit : ∀ v, full P (rigid H c) r E ν t v = full P (hinged H) r E ν t v + c • B v := fun v => by
    rw [full, operator_split, clamp_rigid]; rfl
  have hcrawl := SlowNewton.crawls (S := full P (hinged H) r E ν t) (B := B)
    (symmetric_entries (hinged_symmetric r E ν t h hx)) (hinged_nonneg hs) hBs hBn hc (xh := xh) hz0 (fun n => by
      have := hz n
      rw [hsplit, ← hh', map_sub (full P (hinged H) r E ν t)] at this
      have e : c • B (z (n + 1) - z n) = (full P (hinged H) r E ν t (z (n + 1)) - full P (hinged H) r E ν t (z n)
          + c • B (z (n + 1) - z n)) - (full P (hinged H) r E ν t (z (n + 1)) - full P (hinged H) r E ν t (z n)) := by abel
      rw [e, this, map_sub (full P (hinged H) r E ν t)]; abel) (n + 1)
  have hW : ⟪full P (hinged H) r E ν t xh, xh⟫ = ∑ j, linearRhs P H j * xh j := by
    rw [hh', PiLp.inner_apply]
    exact Finset.sum_congr rfl fun j _ => mul_comm _ _
  rw [hW] at hcrawl
  refine ⟨√‖B‖ * C, l₀, hl₀, fun l x xs hl hit hxs hr => ?_⟩
  obtain ⟨h1, h2⟩ := hall l x xs hl hit hxs hr
  have up := fun v => SlowNewton.form_upper B v
  rw [turned_eq h hx, turned_eq h hx, turned_eq h hx]
  constructor
  · have t1 := SlowNewton.form_triangle hBs hBn (l • z (n + 1)) (x n - l • z (n + 1))
    rw [add_sub_cancel, SlowNewton.form_smul] at t1
    have t2 := (up (x n - l • z (n + 1))).trans (mul_le_mul_of_nonneg_left h1 (Real.sqrt_nonneg _))
    have t3 := mul_le_mul_of_nonneg_left hcrawl (abs_nonneg l)
    push_cast at t3
    linarith
  · have t1 := SlowNewton.form_triangle hBs hBn xs (l • xh - xs)
    rw [add_sub_cancel, SlowNewton.form_smul] at t1
    have h2' : ‖l • xh - xs‖ ≤ C * l ^ 2 := by rw [norm_sub_rev]; exact h2
    have t2 := (up (l • xh - xs)).trans (mul_le_mul_of_nonneg_left h2' (Real.sqrt_nonneg _))
    linarith

/-- **C160** (partial: only linearly, see `C160_steps_violated`, `C160_slow_violated`) For small loads Newton's method
can always continue and converges to the equilibrium at least as fast as a geometric sequence. -/
theorem C160_converges_partial (h : AtRest P H) (hx : (0 : EuclideanSpace ℝ J) ∈ Spec.HeldShell.Admissible P H)
    (hf : Factors H) (hs : Stable P H (linear P r E ν t)) :
    ∃ θ C l₀ : ℝ, 0 ≤ θ ∧ θ < 1 ∧ 0 < l₀ ∧ ∀ l : ℝ, |l| ≤ l₀ → ∃ xs ∈ Spec.HeldShell.Admissible P H,
      residual (P.scale l) (H.scale l) (linear P r E ν t) xs = 0 ∧
      (∃ x, Iterates (P.scale l) (H.scale l) (linear P r E ν t) x) ∧
      ∀ x : ℕ → EuclideanSpace ℝ J, Iterates (P.scale l) (H.scale l) (linear P r E ν t) x →
        ∀ n, ‖x n - xs‖ ≤ C * θ ^ n * |l| := by
  obtain ⟨L, ρ, k, hnear⟩ := near r E ν t h hx hf hs
  have hT : tangent P H (linear P r E ν t) 0 = full P H r E ν t := tangent_rest r E ν t h
  have hp := full_pos h hx hf hs
  have hsub : full P H r E ν t - full P (hinged H) r E ν t = ofEntries (clampEntry H) := by
    rw [full, operator_split, add_sub_cancel_left]
  obtain ⟨ρ', θ, C, hρ', hθ0, hθ1, hall⟩ := hnear.converges
    (by
      rw [hT]
      refine symmetric_entries fun j j' => ?_
      rw [linear_split, linear_split (j := j'), hinged_symmetric r E ν t h hx j j', clamp_symmetric j j'])
    (by rw [hT, hsub]; exact symmetric_entries clamp_symmetric)
    (by rw [hT, hsub]; exact clamp_nonneg P hf h hx) (hinged_pos hs)
  obtain ⟨xc, hxc⟩ := surjective_of_pos hp (rhs P H)
  obtain ⟨xh, hxh⟩ := surjective_of_pos (hinged_pos hs) (rhs P H)
  obtain ⟨l₂, ρ₂, C₂, hl₂, hρ₂, h2⟩ := C158_small_violated P H r E ν t h hx
    (fun v hv => by
      have h0 : full P (hinged H) r E ν t v = 0 := by ext j; exact hv j
      exact injective_of_pos (hinged_pos hs) (h0.trans (map_zero _).symm)) xh xc
    (fun j => congrArg (fun w : EuclideanSpace ℝ J => w j) hxh)
    (fun j => congrArg (fun w : EuclideanSpace ℝ J => w j) hxc)
  set A := |C₂| + ‖xh‖ + ‖xc‖ + 1 with hA
  have hA0 : 0 < A := by positivity
  refine ⟨θ, |C| * (2 * A), min (min l₂ 1) (ρ' / A), hθ0, hθ1, by positivity, fun l hl => ?_⟩
  obtain ⟨-, xs, hxs, h0, -, hd, -⟩ := h2 l (hl.trans ((min_le_left _ _).trans (min_le_left _ _)))
  have hl1 : |l| ≤ 1 := hl.trans ((min_le_left _ _).trans (min_le_right _ _))
  have hlA : A * |l| ≤ ρ' := by
    have := hl.trans (min_le_right _ _)
    rw [le_div_iff₀ hA0] at this
    linarith
  have hl0 := abs_nonneg l
  have n1 : ‖l • xc‖ ≤ A * |l| := by
    rw [norm_smul, Real.norm_eq_abs, mul_comm]
    exact mul_le_mul_of_nonneg_right (by rw [hA]; linarith [abs_nonneg C₂, norm_nonneg xh]) hl0
  have n2 : ‖xs‖ ≤ A * |l| := by
    have e1 : ‖xs‖ ≤ ‖xs - l • xh‖ + ‖l • xh‖ := by
      have := norm_add_le (xs - l • xh) (l • xh)
      rwa [sub_add_cancel] at this
    rw [norm_smul, Real.norm_eq_abs] at e1
    have e2 : C₂ * l ^ 2 ≤ |C₂| * |l| := by
      rw [← sq_abs l]
      refine (mul_le_mul_of_nonneg_right (le_abs_self C₂) (sq_nonneg _)).trans
        (mul_le_mul_of_nonneg_left (by nlinarith) (abs_nonneg _))
    have : A * |l| = |C₂| * |l| + |l| * ‖xh‖ + (‖xc‖ + 1) * |l| := by rw [hA]; ring
    have : 0 ≤ (‖xc‖ + 1) * |l| := by positivity
    linarith
  have h3 : bare P H r E ν t xs + l • rhs P H = 0 := by rw [← h0, scaled_residual]; rfl
  have hxc' : full P H r E ν t (l • xc) = l • rhs P H := by rw [map_smul, hxc]
  refine ⟨xs, hxs, h0, ?_, fun x hit n => ?_⟩
  · have hg : ∀ y : EuclideanSpace ℝ J, ∃ d, ‖y‖ ≤ ρ → tangent P H (linear P r E ν t) y d = bare P H r E ν t y + l • rhs P H := by
      intro y
      by_cases hy : ‖y‖ ≤ ρ
      · obtain ⟨d, hd⟩ := hnear.regular hy (bare P H r E ν t y + l • rhs P H)
        exact ⟨d, fun _ => hd⟩
      · exact ⟨0, fun hc => absurd hc hy⟩
    choose g hg using hg
    let x : ℕ → EuclideanSpace ℝ J := fun n => Nat.rec (l • xc) (fun _ y => y + g y) n
    have hstep : ∀ n, ‖x n‖ ≤ ρ → tangent P H (linear P r E ν t) (x n) (x (n + 1) - x n) = bare P H r E ν t (x n) + l • rhs P H := by
      intro n hn
      have : x (n + 1) - x n = g (x n) := add_sub_cancel_left _ _
      rw [this]; exact hg _ hn
    have hin : ∀ n, ∀ m, m < n → tangent P H (linear P r E ν t) (x m) (x (m + 1) - x m) = bare P H r E ν t (x m) + l • rhs P H := by
      intro n
      induction n with
      | zero => exact fun m hm => absurd hm (Nat.not_lt_zero m)
      | succ n ih =>
        intro m hm
        rcases Nat.lt_succ_iff_lt_or_eq.1 hm with h | rfl
        · exact ih m h
        · exact hstep m (hall (l • rhs P H) xs x (n2.trans hlA) h3 (n1.trans hlA) m ih).2
    refine ⟨x, ⟨fun j => ?_, fun n j => ?_⟩⟩
    · rw [scaled_rhs]
      exact congrArg (fun w : EuclideanSpace ℝ J => w j) hxc'
    · have e1 := hin (n + 1) n (Nat.lt_succ_self n)
      have e2 := scaled_residual (P := P) (H := H) r E ν t l (x n)
      rw [e2]
      exact congrArg (fun w : EuclideanSpace ℝ J => w j) e1
  · obtain ⟨i1, i2⟩ := iterates_op hit
    have hx0 : x 0 = l • xc := injective_of_pos hp (i1.trans hxc'.symm)
    refine (hall (l • rhs P H) xs x (n2.trans hlA) h3 (by rw [hx0]; exact n1.trans hlA) n fun m _ => i2 m).1.trans ?_
    have h4 : ‖x 0 - xs‖ ≤ 2 * A * |l| := (norm_sub_le _ _).trans (by rw [hx0]; linarith)
    have h5 : C * θ ^ n * ‖x 0 - xs‖ ≤ |C| * θ ^ n * ‖x 0 - xs‖ := by
      have := mul_le_mul_of_nonneg_right (le_abs_self C) (by positivity : 0 ≤ θ ^ n * ‖x 0 - xs‖)
      linarith
    have h6 := mul_le_mul_of_nonneg_left h4 (by positivity : 0 ≤ |C| * θ ^ n)
    linarith

/-! ## The bending plate with a clamped side -/

theorem board_factors {a : ℝ} (ha : 0 ≤ a) : Factors (clamped a) := fun _ _ => ⟨zero_le_one, ha, zero_le_one⟩

theorem board_hinged (F a : ℝ) (j j' : Unit) :
    linearEntry (board 1 F) (hinged (clamped a)) (boardLaw 1 F) j j' = 1 / 12 :=
  (board_linear 1 F 0 j j').trans (by norm_num)

theorem board_stable (F a : ℝ) : Stable (board 1 F) (clamped a) (boardLaw 1 F) := fun v hv => by
  have h : v () ≠ 0 := fun h => hv (by ext j; exact h)
  rw [Fintype.sum_unique, Fintype.sum_unique, board_hinged]
  show 0 < v () * (1 / 12) * v ()
  have := mul_self_pos.2 h
  linarith

theorem board_rhs (b F a : ℝ) (j : Unit) : linearRhs (board b F) (clamped a) j = F := by
  show F + (∑ q ∈ (∅ : Finset Unit), _) = F
  rw [Finset.sum_empty, add_zero]

/-- The solution with a hinge. -/
noncomputable abbrev swung : EuclideanSpace ℝ Unit := WithLp.toLp 2 fun _ => 12

theorem board_swung (a : ℝ) (j : Unit) :
    ∑ j', linearEntry (board 1 1) (hinged (clamped a)) (boardLaw 1 1) j j' * swung j' = linearRhs (board 1 1) (clamped a) j := by
  rw [Fintype.sum_unique, board_hinged, board_rhs]
  norm_num

/-- Factor one: after a hundred steps the error is still proportional to the load. -/
example : ∃ d l₀ : ℝ, 0 < d ∧ 0 < l₀ ∧ ∀ (l : ℝ) (x : ℕ → EuclideanSpace ℝ Unit) (xs : EuclideanSpace ℝ Unit), |l| ≤ l₀ →
    Iterates ((board 1 1).scale l) ((clamped 1).scale l) (boardLaw 1 1) x → ‖xs‖ ≤ l₀ →
    residual ((board 1 1).scale l) ((clamped 1).scale l) (boardLaw 1 1) xs = 0 → d * |l| ≤ ‖x 100 - xs‖ :=
  C160_steps_violated (board_rest 1 1 1) (board_admissible 1 1 1) (board_factors zero_le_one) (board_stable 1 1) swung
    (board_swung 1) (fun h => by
      have := h ()
      rw [Fintype.sum_unique, board_linear, board_rhs] at this
      norm_num at this) 100

/-- Factor a million: after a hundred steps the side has turned by at most `101 √12 / 1000` times the load. -/
example : ∃ C l₀ : ℝ, 0 < l₀ ∧ ∀ (l : ℝ) (x : ℕ → EuclideanSpace ℝ Unit) (xs : EuclideanSpace ℝ Unit), |l| ≤ l₀ →
    Iterates ((board 1 1).scale l) ((clamped 1000000).scale l) (boardLaw 1 1) x → ‖xs‖ ≤ l₀ →
    residual ((board 1 1).scale l) ((clamped 1000000).scale l) (boardLaw 1 1) xs = 0 →
    turned (clamped 1) (x 100) ≤ 101 * (√12 / 1000) * |l| + C * l ^ 2 ∧
    turned (clamped 1) swung * |l| - C * l ^ 2 ≤ turned (clamped 1) xs := by
  have h := C160_slow_violated (board_rest 1 1 1) (board_admissible 1 1 1) (board_factors zero_le_one) (board_stable 1 1)
    swung (board_swung 1) (c := 1000000) (by norm_num) 100
  rw [show (∑ j, linearRhs (board 1 1) (clamped 1) j * swung j) = 12 by
      rw [Fintype.sum_unique, board_rhs]; norm_num,
    show rigid (clamped 1) 1000000 = clamped 1000000 by simp [rigid, clamped],
    show √(1000000 : ℝ) = 1000 by rw [Real.sqrt_eq_iff_mul_self_eq] <;> norm_num] at h
  norm_num at h ⊢
  exact h

/-- … while with the hinge it turns by `12` times the load. -/
example : turned (clamped 1) swung = 12 := by
  have hi := turning_eq (board 1 1) (board_rest 1 1 1) (board_admissible 1 1 1) (q := ()) (Finset.mem_singleton_self ()) swung
  have hv : dot (Variation.var1 Plate.flatS (lift 0)) ⟨1, 0, 0⟩ = -1 := by
    rw [Variation.var1, Variation.mvec, Plate.flat_measure, Plate.flat_normal]
    simp [cross, lift, Plate.flatS, dot]
  rw [Fintype.sum_unique, clamped_out] at hi
  have hi' : turning (clamped 1) () swung = -12 := by
    rw [hi]
    show 12 * dot (Variation.var1 Plate.flatS (lift 0)) ⟨1, 0, 0⟩ = -12
    rw [hv]; norm_num
  show √(∑ q ∈ {()}, 1 * (1 * turning (clamped 1) q swung ^ 2 * 1)) = 12
  rw [Finset.sum_singleton, hi']
  rw [Real.sqrt_eq_iff_mul_self_eq] <;> norm_num

/-- Newton's method converges. -/
example : ∃ θ C l₀ : ℝ, 0 ≤ θ ∧ θ < 1 ∧ 0 < l₀ ∧ ∀ l : ℝ, |l| ≤ l₀ →
    ∃ xs ∈ Spec.HeldShell.Admissible (board 1 1) (clamped 1),
      residual ((board 1 1).scale l) ((clamped 1).scale l) (boardLaw 1 1) xs = 0 ∧
      (∃ x, Iterates ((board 1 1).scale l) ((clamped 1).scale l) (boardLaw 1 1) x) ∧
      ∀ x : ℕ → EuclideanSpace ℝ Unit, Iterates ((board 1 1).scale l) ((clamped 1).scale l) (boardLaw 1 1) x →
        ∀ n, ‖x n - xs‖ ≤ C * θ ^ n * |l| :=
  C160_converges_partial (board_rest 1 1 1) (board_admissible 1 1 1) (board_factors zero_le_one) (board_stable 1 1)

end Verif.ClampNewton
