import Verif.Spec.Wrinkled
import Verif.Lemmas.Relaxed
import Verif.Lemmas.ShellSystem
import Verif.Lemmas.JoinedSheet
import Mathlib.Analysis.Convex.Function

/-! # Helper lemmas: membranes with wrinkles -/

namespace Verif.Wrinkled

open V3 Verif.TFT Verif.Spec.Relaxed Verif.Geometry Verif.Variation Verif.ShellSystem Verif.Balance Spec.Wrinkled
open RealInnerProductSpace Filter Topology

variable {J κ : Type} [Fintype J]

theorem relaxed_eq {C : T3} (hC : TFT.PosDef C) (hs : Symm C) {E T W : Voigt} (h : State C (mulVec3 C E) T W) :
    relaxed C E = Spec.Relaxed.energy C fun i => E i + W i := by
  have lo : ∀ V : {V : Voigt // Lengthens V}, Spec.Relaxed.energy C (fun i => E i + W i)
      ≤ Spec.Relaxed.energy C fun i => E i + V.1 i := by
    intro V
    have := Relaxed.below hC hs h E V.1 V.2
    have e : work T (fun i => E i - E i) = 0 := by simp [work]
    linarith
  have : Nonempty {V : Voigt // Lengthens V} := ⟨⟨W, h.wrinkles⟩⟩
  refine le_antisymm (ciInf_le ⟨Spec.Relaxed.energy C fun i => E i + W i, ?_⟩ (⟨W, h.wrinkles⟩ : {V : Voigt // Lengthens V})) (le_ciInf lo)
  rintro _ ⟨V, rfl⟩
  exact lo V

theorem relaxed_le {C : T3} (hC : TFT.PosDef C) (hs : Symm C) (E V : Voigt) (hV : Lengthens V) :
    relaxed C E ≤ Spec.Relaxed.energy C fun i => E i + V i := by
  obtain ⟨T, W, h⟩ := Relaxed.exists_state hC hs (mulVec3 C E)
  rw [relaxed_eq hC hs h]
  have := Relaxed.below hC hs h E V hV
  have e : work T (fun i => E i - E i) = 0 := by simp [work]
  linarith

/-- How much the convexity inequality leaves. -/
theorem leftover {C : T3} (hs : Symm C) {E T W E' W' : Voigt} (h : State C (mulVec3 C E) T W) :
    Spec.Relaxed.energy C (fun i => E' i + W' i) = Spec.Relaxed.energy C (fun i => E i + W i)
      + work T (fun i => E' i - E i) + (work T W'
      + 1 / 2 * TFT.quad (fun i => E' i + W' i - (E i + W i)) C fun i => E' i + W' i - (E i + W i)) := by
  have l := Relaxed.law_eq h
  have b := h.idle
  have h1 := hs 1 0
  have h2 := hs 2 0
  have h3 := hs 2 1
  rw [Relaxed.energy_eq, Relaxed.energy_eq, Relaxed.work_eq, Relaxed.work_eq]
  rw [Relaxed.work_eq] at b
  simp only [TFT.quad, dotV, mulVec3, Fin.sum_univ_three, l, h1, h2, h3] at *
  linear_combination -b

/-! ## Strains -/

/-- The displacement from one state to another as a surface. -/
noncomputable def step (P : Problem J κ) (v : J → ℝ) (q : κ) : Surf := ⟨slopes P v q, 0, 0, 0⟩

theorem deformed_step (P : Problem J κ) (x y : EuclideanSpace ℝ J) (q : κ) (i : Fin 2) :
    (deformed P y q).a i = (deformed P x q).a i + (step P (fun j => y j - x j) q).a i := by
  ext <;> simp [deformed, step, slopes, vsum, sub_mul, Finset.sum_sub_distrib]

/-- The part of the strain that is quadratic in the displacement. -/
noncomputable def square (d : Surf) : Voigt :=
  vec3 (dot (d.a 0) (d.a 0) / 2) (dot (d.a 1) (d.a 1) / 2) (dot (d.a 0) (d.a 1))

theorem strain_step (P : Problem J κ) (x y : EuclideanSpace ℝ J) (q : κ) (k : Fin 3) :
    strain (P.ori q) (deformed P y q) k - strain (P.ori q) (deformed P x q) k
      = EmDer (deformed P x q) (step P (fun j => y j - x j) q) k + square (step P (fun j => y j - x j) q) k := by
  have h0 := deformed_step P x y q 0
  have h1 := deformed_step P x y q 1
  rcases fin3_cases k with rfl | rfl | rfl <;>
    simp [strain, EmDer, square, h0, h1, dot] <;> ring

theorem square_lengthens (d : Surf) : Lengthens (square d) := by
  rw [Relaxed.lengthens_iff]
  refine ⟨?_, ?_, ?_⟩
  · simp only [square, vec3_zero, dot]; nlinarith [mul_self_nonneg (d.a 0).x, mul_self_nonneg (d.a 0).y, mul_self_nonneg (d.a 0).z]
  · simp only [square, vec3_one, dot]; nlinarith [mul_self_nonneg (d.a 1).x, mul_self_nonneg (d.a 1).y, mul_self_nonneg (d.a 1).z]
  · simp only [square, vec3_zero, vec3_one, vec3_two, dot]
    nlinarith [sq_nonneg ((d.a 0).x * (d.a 1).y - (d.a 0).y * (d.a 1).x),
      sq_nonneg ((d.a 0).x * (d.a 1).z - (d.a 0).z * (d.a 1).x),
      sq_nonneg ((d.a 0).y * (d.a 1).z - (d.a 0).z * (d.a 1).y)]

theorem em_step (P : Problem J κ) (s : Surf) (v : J → ℝ) (q : κ) (k : Fin 3) :
    EmDer s (step P v q) k = ∑ j, v j * EmDer s (P.field q j) k := by
  rcases fin3_cases k with rfl | rfl | rfl <;>
    simp only [EmDer, vec3_zero, vec3_one, vec3_two, dot, step, slopes, Finset.mul_sum, ← Finset.sum_add_distrib] <;>
    exact Finset.sum_congr rfl fun j _ => by ring

theorem residual_work (P : Problem J κ) (N : κ → Voigt) (x : EuclideanSpace ℝ J) (v : EuclideanSpace ℝ J) :
    ⟪residual P N x, v⟫ = (∑ j, P.F j * v j)
      - ∑ q ∈ P.Q, work (N q) (EmDer (deformed P x q) (step P v q)) * P.μ q := by
  have h1 : ⟪residual P N x, v⟫ = ∑ j, residual P N x j * v j := by
    simp [PiLp.inner_apply, mul_comm]
  rw [h1]
  have h2 : ∀ q, work (N q) (EmDer (deformed P x q) (step P v q))
      = ∑ j, v j * dotV (N q) (EmDer (deformed P x q) (P.field q j)) := by
    intro q
    simp only [work, em_step, dotV, Finset.mul_sum]
    rw [Finset.sum_comm]
    exact Finset.sum_congr rfl fun j _ => Finset.sum_congr rfl fun k _ => by ring
  simp only [h2]
  have h3 : ∀ j, residual P N x j * v j
      = P.F j * v j - ∑ q ∈ P.Q, v j * dotV (N q) (EmDer (deformed P x q) (P.field q j)) * P.μ q := by
    intro j
    simp only [residual, internalForceMembrane, add_mul, Finset.sum_mul]
    rw [add_comm, sub_eq_add_neg, ← Finset.sum_neg_distrib]
    congr 1
    exact Finset.sum_congr rfl fun q _ => by ring
  simp only [h3, Finset.sum_sub_distrib, Finset.sum_mul]
  rw [Finset.sum_comm]

/-! ## The energy gap -/

/-- What one point adds to the gap between the energy and its linearisation. -/
noncomputable def rest (C : T3) (T E W E' W' : Voigt) (d : Surf) : ℝ :=
  work T (square d) + (work T W'
    + 1 / 2 * TFT.quad (fun i => E' i + W' i - (E i + W i)) C fun i => E' i + W' i - (E i + W i))

theorem rest_nonneg {C : T3} (hC : TFT.PosDef C) {T E W E' W' : Voigt} (d : Surf) (hT : NoCompression T)
    (hW : Lengthens W') : 0 ≤ rest C T E W E' W' d := by
  have a := Relaxed.work_nonneg hT (square_lengthens d)
  have b := Relaxed.work_nonneg hT hW
  have c := Relaxed.quad_nonneg hC fun i => E' i + W' i - (E i + W i)
  unfold rest
  linarith

variable {P : Problem J κ} {C : κ → T3} {t : κ → ℝ} {N : κ → Voigt} {x y : EuclideanSpace ℝ J}

/-- The gap between the potential and its linearisation. -/
theorem gap (hB : Body P C t) {T W T' W' : κ → Voigt}
    (h : ∀ q ∈ P.Q, State (C q) (mulVec3 (C q) (strain (P.ori q) (deformed P x q))) (T q) (W q))
    (hN : ∀ q ∈ P.Q, ∀ k, N q k = t q * T q k)
    (h' : ∀ q ∈ P.Q, State (C q) (mulVec3 (C q) (strain (P.ori q) (deformed P y q))) (T' q) (W' q)) :
    potential P C t y = potential P C t x - ⟪residual P N x, y - x⟫
      + ∑ q ∈ P.Q, t q * rest (C q) (T q) (strain (P.ori q) (deformed P x q)) (W q)
        (strain (P.ori q) (deformed P y q)) (W' q) (step P (fun j => y j - x j) q) * P.μ q := by
  rw [residual_work]
  have e : ∀ q ∈ P.Q, t q * relaxed (C q) (strain (P.ori q) (deformed P y q)) * P.μ q
      = t q * relaxed (C q) (strain (P.ori q) (deformed P x q)) * P.μ q
        + work (N q) (EmDer (deformed P x q) (step P (fun j => y j - x j) q)) * P.μ q
        + t q * rest (C q) (T q) (strain (P.ori q) (deformed P x q)) (W q)
        (strain (P.ori q) (deformed P y q)) (W' q) (step P (fun j => y j - x j) q) * P.μ q := by
    intro q hq
    rw [relaxed_eq (hB.stiff q hq) (hB.symm q hq) (h q hq), relaxed_eq (hB.stiff q hq) (hB.symm q hq) (h' q hq),
      leftover (hB.symm q hq) (h q hq)]
    have s : (fun i => strain (P.ori q) (deformed P y q) i - strain (P.ori q) (deformed P x q) i)
        = fun i => EmDer (deformed P x q) (step P (fun j => y j - x j) q) i
          + square (step P (fun j => y j - x j) q) i := funext fun k => strain_step P x y q k
    rw [s]
    simp only [rest, Relaxed.work_eq, hN q hq]
    ring
  have f : ∑ j, P.F j * (y - x) j = (∑ j, P.F j * y j) - ∑ j, P.F j * x j := by
    simp [mul_sub]
  have g : (step P fun j => (y - x) j) = step P fun j => y j - x j := rfl
  simp only [potential, Finset.sum_congr rfl e, Finset.sum_add_distrib]
  rw [f, g]
  ring

theorem states (hB : Body P C t) (x : EuclideanSpace ℝ J) : ∃ T W : κ → Voigt, ∀ q ∈ P.Q,
    State (C q) (mulVec3 (C q) (strain (P.ori q) (deformed P x q))) (T q) (W q) := by
  have : ∀ q, ∃ T W, q ∈ P.Q → State (C q) (mulVec3 (C q) (strain (P.ori q) (deformed P x q))) T W := by
    intro q
    by_cases hq : q ∈ P.Q
    · obtain ⟨T, W, h⟩ := Relaxed.exists_state (hB.stiff q hq) (hB.symm q hq)
        (mulVec3 (C q) (strain (P.ori q) (deformed P x q)))
      exact ⟨T, W, fun _ => h⟩
    · exact ⟨0, 0, fun h => absurd h hq⟩
  choose T W h using this
  exact ⟨T, W, fun q hq => h q hq⟩

theorem chosen (h : Wrinkles P C t x N) : ∃ T W : κ → Voigt, (∀ q ∈ P.Q,
    State (C q) (mulVec3 (C q) (strain (P.ori q) (deformed P x q))) (T q) (W q)) ∧
    ∀ q ∈ P.Q, ∀ k, N q k = t q * T q k := by
  have : ∀ q, ∃ T W, q ∈ P.Q → State (C q) (mulVec3 (C q) (strain (P.ori q) (deformed P x q))) T W ∧
      ∀ k, N q k = t q * T k := by
    intro q
    by_cases hq : q ∈ P.Q
    · obtain ⟨T, W, h⟩ := h q hq
      exact ⟨T, W, fun _ => h⟩
    · exact ⟨0, 0, fun h => absurd h hq⟩
  choose T W h using this
  exact ⟨T, W, fun q hq => (h q hq).1, fun q hq => (h q hq).2⟩

theorem forces (hB : Body P C t) (x : EuclideanSpace ℝ J) : ∃ N, Wrinkles P C t x N := by
  obtain ⟨T, W, h⟩ := states hB x
  exact ⟨fun q k => t q * T q k, fun q hq => ⟨T q, W q, h q hq, fun _ => rfl⟩⟩

/-- The potential lies above its linearisation. -/
theorem above (hB : Body P C t) (h : Wrinkles P C t x N) (y : EuclideanSpace ℝ J) :
    potential P C t x - ⟪residual P N x, y - x⟫ ≤ potential P C t y := by
  obtain ⟨T, W, hs, hN⟩ := chosen h
  obtain ⟨T', W', hs'⟩ := states hB y
  rw [gap hB hs hN hs']
  have : 0 ≤ ∑ q ∈ P.Q, t q * rest (C q) (T q) (strain (P.ori q) (deformed P x q)) (W q)
        (strain (P.ori q) (deformed P y q)) (W' q) (step P (fun j => y j - x j) q) * P.μ q :=
    Finset.sum_nonneg fun q hq => mul_nonneg (mul_nonneg (hB.thick q hq).le
      (rest_nonneg (hB.stiff q hq) _ (hs q hq).tension (hs' q hq).wrinkles)) (hB.weight q hq).le
  linarith

/-! ## The gradient -/

/-- The energy with the wrinkles held fixed. -/
noncomputable def frozen (P : Problem J κ) (C : κ → T3) (t : κ → ℝ) (W : κ → Voigt) (y : EuclideanSpace ℝ J) : ℝ :=
  (∑ q ∈ P.Q, t q * Spec.Relaxed.energy (C q) (fun i => strain (P.ori q) (deformed P y q) i + W q i) * P.μ q)
    - ∑ j, P.F j * y j

theorem strain_smooth (P : Problem J κ) (x : EuclideanSpace ℝ J) (q : κ) (k : Fin 3) :
    ContDiffAt ℝ 2 (fun y => strain (P.ori q) (deformed P y q) k) x := by
  have h := (deformed_smooth P x q).a
  rcases fin3_cases k with rfl | rfl | rfl
  · exact (((h 0).dot (h 0)).sub contDiffAt_const).div_const 2
  · exact (((h 1).dot (h 1)).sub contDiffAt_const).div_const 2
  · exact ((h 0).dot (h 1)).sub contDiffAt_const

theorem frozen_smooth (W : κ → Voigt) : DifferentiableAt ℝ (frozen P C t W) x := by
  have : ContDiffAt ℝ 2 (frozen P C t W) x := by
    unfold frozen
    refine ContDiffAt.sub (ContDiffAt.sum fun q _ => ?_) (ContDiffAt.sum fun j _ => ?_)
    · refine ContDiffAt.mul (ContDiffAt.mul contDiffAt_const ?_) contDiffAt_const
      unfold Spec.Relaxed.energy
      refine contDiffAt_const.mul (ContDiffAt.sum fun i _ => ContDiffAt.sum fun j _ => ?_)
      exact ((((strain_smooth P x q i).add contDiffAt_const).mul contDiffAt_const).mul
        ((strain_smooth P x q j).add contDiffAt_const))
    · exact contDiffAt_const.mul (coord_smooth j x)
  exact this.differentiableAt (by norm_num)

/-- A function between a linear and a differentiable function that touch has the linear one as derivative. -/
theorem squeeze {V : Type} [NormedAddCommGroup V] [NormedSpace ℝ V] {f U : V → ℝ} {L : V →L[ℝ] ℝ} {x : V}
    (hU : DifferentiableAt ℝ U x) (h1 : ∀ y, f x + L (y - x) ≤ f y) (h2 : ∀ y, f y ≤ U y) (h3 : U x = f x) :
    HasFDerivAt f L x := by
  obtain ⟨U', hU'⟩ := hU
  have hd : HasFDerivAt (fun y => U y - (f x + L (y - x))) (U' - L) x := by
    have hL : HasFDerivAt (fun y => f x + L (y - x)) L x := by
      have := (L.hasFDerivAt (x := x)).const_add (f x - L x)
      refine this.congr_of_eventuallyEq (Eventually.of_forall fun y => ?_)
      simp only [map_sub]; ring
    exact hU'.sub hL
  have hmin : IsLocalMin (fun y => U y - (f x + L (y - x))) x := by
    refine Eventually.of_forall fun y => ?_
    have a := h1 y
    have b := h2 y
    simp only [sub_self, map_zero, add_zero, h3]
    linarith
  have h0 := hmin.hasFDerivAt_eq_zero hd
  have e : U' = L := sub_eq_zero.1 h0
  rw [e] at hU'
  rw [hasFDerivAt_iff_isLittleO] at hU' ⊢
  refine Asymptotics.IsBigO.trans_isLittleO (Asymptotics.IsBigO.of_bound 1 (Eventually.of_forall fun y => ?_)) hU'
  have a := h1 y
  have b := h2 y
  rw [one_mul, Real.norm_eq_abs, Real.norm_eq_abs, abs_of_nonneg (by linarith), abs_of_nonneg (by linarith), h3]
  linarith

theorem gradient_potential (hB : Body P C t) (h : Wrinkles P C t x N) :
    HasGradientAt (potential P C t) (-residual P N x) x := by
  obtain ⟨T, W, hs, hN⟩ := chosen h
  refine squeeze (U := frozen P C t W) (frozen_smooth W) (fun y => ?_) (fun y => ?_) ?_
  · have := above hB h y
    rw [InnerProductSpace.toDual_apply_apply, inner_neg_left]
    linarith
  · refine sub_le_sub_right (Finset.sum_le_sum fun q hq => ?_) _
    refine mul_le_mul_of_nonneg_right (mul_le_mul_of_nonneg_left ?_ (hB.thick q hq).le) (hB.weight q hq).le
    exact relaxed_le (hB.stiff q hq) (hB.symm q hq) _ _ (hs q hq).wrinkles
  · refine congrArg₂ _ (Finset.sum_congr rfl fun q hq => ?_) rfl
    rw [relaxed_eq (hB.stiff q hq) (hB.symm q hq) (hs q hq)]

theorem convex_potential (hB : Body P C t) : ConvexOn ℝ Set.univ (potential P C t) := by
  refine ⟨convex_univ, fun x _ y _ a b ha hb hab => ?_⟩
  obtain ⟨N, h⟩ := forces hB (a • x + b • y)
  have h1 := mul_le_mul_of_nonneg_left (above hB h x) ha
  have h2 := mul_le_mul_of_nonneg_left (above hB h y) hb
  have e : a * ⟪residual P N (a • x + b • y), x - (a • x + b • y)⟫
      + b * ⟪residual P N (a • x + b • y), y - (a • x + b • y)⟫ = 0 := by
    rw [← real_inner_smul_right, ← real_inner_smul_right, ← inner_add_right]
    have : a • (x - (a • x + b • y)) + b • (y - (a • x + b • y)) = 0 := by
      have hb' : b = 1 - a := by linarith
      rw [hb']; module
    rw [this, inner_zero_right]
  have e2 : a * potential P C t (a • x + b • y) + b * potential P C t (a • x + b • y)
      = potential P C t (a • x + b • y) := by rw [← add_mul, hab, one_mul]
  simp only [smul_eq_mul]
  linarith

/-! ## Equilibria -/

theorem rest_zero (hB : Body P C t) {T W T' W' : κ → Voigt}
    (hs : ∀ q ∈ P.Q, State (C q) (mulVec3 (C q) (strain (P.ori q) (deformed P x q))) (T q) (W q))
    (hN : ∀ q ∈ P.Q, ∀ k, N q k = t q * T q k)
    (hs' : ∀ q ∈ P.Q, State (C q) (mulVec3 (C q) (strain (P.ori q) (deformed P y q))) (T' q) (W' q))
    (hx : residual P N x = 0) (hy : potential P C t y ≤ potential P C t x) : ∀ q ∈ P.Q,
    work (T q) (square (step P (fun j => y j - x j) q)) = 0 ∧ T' q = T q := by
  have g := gap hB hs hN hs'
  rw [hx, inner_zero_left, sub_zero] at g
  have n : ∀ q ∈ P.Q, 0 ≤ t q * rest (C q) (T q) (strain (P.ori q) (deformed P x q)) (W q)
        (strain (P.ori q) (deformed P y q)) (W' q) (step P (fun j => y j - x j) q) * P.μ q := fun q hq =>
    mul_nonneg (mul_nonneg (hB.thick q hq).le
      (rest_nonneg (hB.stiff q hq) _ (hs q hq).tension (hs' q hq).wrinkles)) (hB.weight q hq).le
  have z := (Finset.sum_eq_zero_iff_of_nonneg n).1 (le_antisymm (by linarith) (Finset.sum_nonneg n))
  intro q hq
  have zq := z q hq
  rw [mul_eq_zero, mul_eq_zero] at zq
  have r : rest (C q) (T q) (strain (P.ori q) (deformed P x q)) (W q)
        (strain (P.ori q) (deformed P y q)) (W' q) (step P (fun j => y j - x j) q) = 0 := by
    rcases zq with (h | h) | h
    · exact absurd h (hB.thick q hq).ne'
    · exact h
    · exact absurd h (hB.weight q hq).ne'
  have a := Relaxed.work_nonneg (hs q hq).tension (square_lengthens (step P (fun j => y j - x j) q))
  have b := Relaxed.work_nonneg (hs q hq).tension (hs' q hq).wrinkles
  have c := Relaxed.quad_nonneg (hB.stiff q hq) fun i => strain (P.ori q) (deformed P y q) i + W' q i
    - (strain (P.ori q) (deformed P x q) i + W q i)
  unfold rest at r
  refine ⟨by linarith, ?_⟩
  have h0 : (fun i => strain (P.ori q) (deformed P y q) i + W' q i
    - (strain (P.ori q) (deformed P x q) i + W q i)) = 0 := by
    by_contra hne
    have := Relaxed.quad_pos (hB.stiff q hq) hne
    linarith
  funext i
  rw [Relaxed.law_eq (hs' q hq), Relaxed.law_eq (hs q hq)]
  have e0 := congrFun h0 0
  have e1 := congrFun h0 1
  have e2 := congrFun h0 2
  simp only [Pi.zero_apply] at e0 e1 e2
  simp only [mulVec3, Fin.sum_univ_three]
  linear_combination C q i 0 * e0 + C q i 1 * e1 + C q i 2 * e2

theorem taut_square {T : Voigt} (hT : Taut T) {d : Surf} (h : work T (square d) = 0) : ∀ i, d.a i = 0 := by
  have e : 2 * work T (square d) = comp (stressTensor T) (![(d.a 0).x, (d.a 1).x]) (![(d.a 0).x, (d.a 1).x])
      + comp (stressTensor T) (![(d.a 0).y, (d.a 1).y]) (![(d.a 0).y, (d.a 1).y])
      + comp (stressTensor T) (![(d.a 0).z, (d.a 1).z]) (![(d.a 0).z, (d.a 1).z]) := by
    rw [Relaxed.work_eq, Relaxed.comp_stress, Relaxed.comp_stress, Relaxed.comp_stress]
    simp [square, dot]; ring
  have n : ∀ v : Fin 2 → ℝ, 0 ≤ comp (stressTensor T) v v := by
    intro v
    by_cases hv : v = 0
    · simp [hv, TFT.comp]
    · exact (hT v hv).le
  have z : ∀ v : Fin 2 → ℝ, comp (stressTensor T) v v = 0 → v = 0 := by
    intro v h
    by_contra hv
    exact (hT v hv).ne' h
  rw [h] at e
  have a := n (![(d.a 0).x, (d.a 1).x])
  have b := n (![(d.a 0).y, (d.a 1).y])
  have c := n (![(d.a 0).z, (d.a 1).z])
  have hx := z _ (le_antisymm (by linarith) a)
  have hy := z _ (le_antisymm (by linarith) b)
  have hz := z _ (le_antisymm (by linarith) c)
  intro i
  have x0 := congrFun hx 0
  have x1 := congrFun hx 1
  have y0 := congrFun hy 0
  have y1 := congrFun hy 1
  have z0 := congrFun hz 0
  have z1 := congrFun hz 1
  simp at x0 x1 y0 y1 z0 z1
  rcases fin2_cases i with rfl | rfl <;> ext <;> simp [*]

/-! ## Existence -/

theorem relaxed_growth {C : T3} (hC : TFT.PosDef C) (hs : Symm C) :
    ∃ m > 0, ∀ E : Voigt, m * (2 * (E 0 + E 1) - 1) ≤ relaxed C E := by
  obtain ⟨m, hm, h⟩ := Relaxed.coercive hC
  refine ⟨m / 8, by positivity, fun E => ?_⟩
  obtain ⟨T, W, st⟩ := Relaxed.exists_state hC hs (mulVec3 C E)
  rw [relaxed_eq hC hs st, Relaxed.energy_eq]
  have a := h fun i => E i + W i
  obtain ⟨w0, w1, -⟩ := (Relaxed.lengthens_iff W).1 st.wrinkles
  have n0 := norm_le_pi_norm (fun i => E i + W i) 0
  have n1 := norm_le_pi_norm (fun i => E i + W i) 1
  rw [Real.norm_eq_abs] at n0 n1
  set n := ‖fun i => E i + W i‖
  have b : (E 0 + W 0 + (E 1 + W 1)) ^ 2 ≤ (2 * n) ^ 2 := by
    rw [sq_le_sq]
    refine (abs_add_le _ _).trans ?_
    rw [abs_of_nonneg (by have := (abs_nonneg _).trans n0; linarith : (0 : ℝ) ≤ 2 * n)]
    linarith
  have c : 2 * (E 0 + E 1) - 1 ≤ 4 * n ^ 2 := by nlinarith [sq_nonneg (E 0 + W 0 + (E 1 + W 1) - 1)]
  nlinarith

/-- Squares of the slopes. -/
noncomputable def slope2 (P : Problem J κ) (v : J → ℝ) (q : κ) : ℝ :=
  dot (slopes P v q 0) (slopes P v q 0) + dot (slopes P v q 1) (slopes P v q 1)

theorem dot_self_nonneg (u : V3) : 0 ≤ dot u u := by
  simp only [dot]; nlinarith [mul_self_nonneg u.x, mul_self_nonneg u.y, mul_self_nonneg u.z]

theorem dot_self_zero {u : V3} (h : dot u u = 0) : u = 0 := by
  simp only [dot] at h
  have a := mul_self_nonneg u.x
  have b := mul_self_nonneg u.y
  have c := mul_self_nonneg u.z
  ext
  · exact mul_self_eq_zero.1 (by linarith)
  · exact mul_self_eq_zero.1 (by linarith)
  · exact mul_self_eq_zero.1 (by linarith)

theorem slope2_nonneg (P : Problem J κ) (v : J → ℝ) (q : κ) : 0 ≤ slope2 P v q :=
  add_nonneg (dot_self_nonneg _) (dot_self_nonneg _)

theorem dot_half (p g : V3) : 1 / 2 * dot g g - dot p p ≤ dot (p + g) (p + g) := by
  have h := dot_self_nonneg (g + p + p)
  simp only [dot, V3.add_x, V3.add_y, V3.add_z] at *
  nlinarith

theorem slopes_growth (P : Problem J κ) (x : EuclideanSpace ℝ J) (q : κ) :
    1 / 4 * slope2 P x q - (dot ((P.pre q).a 0) ((P.pre q).a 0) + dot ((P.pre q).a 1) ((P.pre q).a 1)
      + dot ((P.ori q).a 0) ((P.ori q).a 0) + dot ((P.ori q).a 1) ((P.ori q).a 1)) / 2
      ≤ strain (P.ori q) (deformed P x q) 0 + strain (P.ori q) (deformed P x q) 1 := by
  have e : ∀ i, (deformed P x q).a i = (P.pre q).a i + slopes P x q i := by
    intro i; ext <;> simp [deformed, slopes, vsum]
  have a := dot_half ((P.pre q).a 0) (slopes P x q 0)
  have b := dot_half ((P.pre q).a 1) (slopes P x q 1)
  simp only [strain, vec3_zero, vec3_one, e, slope2]
  linarith

theorem form_growth (hH : Held P) {k : κ → ℝ} (hk : ∀ q ∈ P.Q, 0 < k q) :
    ∃ c > 0, ∀ x : EuclideanSpace ℝ J, c * ‖x‖ ^ 2 ≤ ∑ q ∈ P.Q, k q * slope2 P x q := by
  classical
  let e : J → J → ℝ := fun j j' => ∑ q ∈ P.Q, k q * (dot ((P.field q j).a 0) ((P.field q j').a 0)
    + dot ((P.field q j).a 1) ((P.field q j').a 1))
  have hs : ∀ (x : EuclideanSpace ℝ J) (q : κ), slope2 P x q = ∑ j, ∑ j', x j * x j' *
      (dot ((P.field q j).a 0) ((P.field q j').a 0) + dot ((P.field q j).a 1) ((P.field q j').a 1)) := by
    intro x q
    have g : ∀ i, slopes P x q i = vsum Finset.univ fun j => x j • (P.field q j).a i := by
      intro i; ext <;> simp [slopes, vsum]
    simp only [slope2, g, vsum_dot, dot_vsum, ← Finset.sum_add_distrib]
    exact Finset.sum_congr rfl fun j _ => Finset.sum_congr rfl fun j' _ => by
      simp only [dot, V3.smul_x, V3.smul_y, V3.smul_z]; ring
  have hf : ∀ x : EuclideanSpace ℝ J, ⟪LoadedShell.ofEntries e x, x⟫ = ∑ q ∈ P.Q, k q * slope2 P x q := by
    intro x
    rw [JoinedSheet.inner_ofEntries]
    simp only [hs, Finset.mul_sum, e, Finset.sum_mul]
    rw [Finset.sum_comm (s := P.Q)]
    refine Finset.sum_congr rfl fun j _ => ?_
    rw [Finset.sum_comm (s := P.Q)]
    exact Finset.sum_congr rfl fun j' _ => Finset.sum_congr rfl fun q _ => by ring
  obtain ⟨c, hc, h⟩ := Solve.coercive (LoadedShell.ofEntries e) (fun x hx => by
    rw [hf]
    by_contra hcon
    have n : ∀ q ∈ P.Q, 0 ≤ k q * slope2 P x q := fun q hq => mul_nonneg (hk q hq).le (slope2_nonneg P x q)
    have z := (Finset.sum_eq_zero_iff_of_nonneg n).1 (le_antisymm (not_lt.1 hcon) (Finset.sum_nonneg n))
    have : (x : J → ℝ) = 0 := hH x fun q hq i => by
      have zq := (mul_eq_zero.1 (z q hq)).resolve_left (hk q hq).ne'
      have a := dot_self_nonneg (slopes P x q 0)
      have b := dot_self_nonneg (slopes P x q 1)
      unfold slope2 at zq
      rcases fin2_cases i with rfl | rfl
      · exact dot_self_zero (by linarith)
      · exact dot_self_zero (by linarith)
    exact hx (by ext j; exact congrFun this j))
  exact ⟨c, hc, fun x => by rw [← hf]; exact h x⟩

theorem exists_min (hB : Body P C t) (hH : Held P) : ∃ x, ∀ y, potential P C t x ≤ potential P C t y := by
  have hg : ∀ q, ∃ m, q ∈ P.Q → 0 < m ∧ ∀ E : Voigt, m * (2 * (E 0 + E 1) - 1) ≤ relaxed (C q) E := by
    intro q
    by_cases hq : q ∈ P.Q
    · obtain ⟨m, hm, h⟩ := relaxed_growth (hB.stiff q hq) (hB.symm q hq)
      exact ⟨m, fun _ => ⟨hm, h⟩⟩
    · exact ⟨0, fun h => absurd h hq⟩
  choose m hm using hg
  obtain ⟨c, hc, hform⟩ := form_growth hH (k := fun q => t q * (m q * (1 / 2)) * P.μ q)
    (fun q hq => by have := (hm q hq).1; have := hB.thick q hq; have := hB.weight q hq; positivity)
  let b : κ → ℝ := fun q => dot ((P.pre q).a 0) ((P.pre q).a 0) + dot ((P.pre q).a 1) ((P.pre q).a 1)
      + dot ((P.ori q).a 0) ((P.ori q).a 0) + dot ((P.ori q).a 1) ((P.ori q).a 1)
  let B : ℝ := ∑ q ∈ P.Q, t q * (m q * (b q + 1)) * P.μ q
  let F : EuclideanSpace ℝ J := WithLp.toLp 2 P.F
  have low : ∀ x, c * ‖x‖ ^ 2 - B - ‖F‖ * ‖x‖ ≤ potential P C t x := by
    intro x
    have h1 : ∑ j, P.F j * x j ≤ ‖F‖ * ‖x‖ := by
      refine le_trans (le_of_eq ?_) (real_inner_le_norm F x)
      simp [PiLp.inner_apply, F, mul_comm]
    have h2 : (∑ q ∈ P.Q, t q * (m q * (1 / 2)) * P.μ q * slope2 P x q) - B
        ≤ ∑ q ∈ P.Q, t q * relaxed (C q) (strain (P.ori q) (deformed P x q)) * P.μ q := by
      rw [← Finset.sum_sub_distrib]
      refine Finset.sum_le_sum fun q hq => ?_
      have g := (hm q hq).2 (strain (P.ori q) (deformed P x q))
      have s := mul_le_mul_of_nonneg_left (slopes_growth P x q) (hm q hq).1.le
      have u : m q * (1 / 2) * slope2 P x q - m q * (b q + 1) ≤ relaxed (C q) (strain (P.ori q) (deformed P x q)) := by
        simp only [b]; linarith
      have v := mul_le_mul_of_nonneg_left u (mul_nonneg (hB.thick q hq).le (hB.weight q hq).le)
      linarith
    have h3 := hform x
    unfold potential
    linarith
  have hcont : Continuous (potential P C t) := by
    rw [continuous_iff_continuousAt]
    intro x
    obtain ⟨N, h⟩ := forces hB x
    exact (gradient_potential hB h).hasFDerivAt.continuousAt
  refine hcont.exists_forall_le' 0 ?_
  let R : ℝ := (|B| + |potential P C t 0| + ‖F‖) / c + 1
  have hR : 1 ≤ R := by
    have : 0 ≤ (|B| + |potential P C t 0| + ‖F‖) / c := by positivity
    simp only [R]; linarith
  refine Filter.mem_of_superset (isCompact_closedBall (0 : EuclideanSpace ℝ J) R).compl_mem_cocompact fun x hx => ?_
  have hx' : R < ‖x‖ := by simpa using hx
  refine le_trans ?_ (low x)
  have e : |B| + |potential P C t 0| + ‖F‖ ≤ c * ‖x‖ := by
    have : c * R = |B| + |potential P C t 0| + ‖F‖ + c := by simp only [R]; field_simp
    have := mul_lt_mul_of_pos_left hx' hc
    linarith
  have e2 := mul_le_mul_of_nonneg_left e (norm_nonneg x)
  have e3 := le_abs_self B
  have e4 := le_abs_self (potential P C t 0)
  have e5 : (|B| + |potential P C t 0|) ≤ ‖x‖ * (|B| + |potential P C t 0|) :=
    le_mul_of_one_le_left (by positivity) (hR.trans hx'.le)
  show potential P C t 0 ≤ _
  nlinarith

end Verif.Wrinkled
