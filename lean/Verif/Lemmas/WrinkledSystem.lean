import Verif.Lemmas.WrinkledTangent

/-! # Helper lemmas: the system of a membrane with wrinkles -/

namespace Verif.Wrinkled

open V3 Verif.TFT Verif.Spec.Relaxed Verif.Geometry Verif.Variation Verif.ShellSystem Verif.Balance Spec.Wrinkled
open Filter Topology RealInnerProductSpace

variable {J κ : Type} [Fintype J] {P : Problem J κ} {C : κ → T3} {t : κ → ℝ} {x : EuclideanSpace ℝ J}

/-- The stresses as functions of the strains, and the membrane forces in terms of them. -/
theorem forces_eq (hB : Body P C t) {N : EuclideanSpace ℝ J → κ → Voigt} (hN : ∀ y, Wrinkles P C t y (N y)) :
    ∃ T : κ → Voigt → Voigt, (∀ q ∈ P.Q, Leaves (C q) (T q)) ∧
      ∀ y, ∀ q ∈ P.Q, N y q = fun k => t q * T q (strain (P.ori q) (deformed P y q)) k := by
  have : ∀ q, ∃ T : Voigt → Voigt, q ∈ P.Q → Leaves (C q) T := fun q => by
    by_cases hq : q ∈ P.Q
    · obtain ⟨T, hT⟩ := exists_leaves (hB.stiff q hq) (hB.symm q hq)
      exact ⟨T, fun _ => hT⟩
    · exact ⟨0, fun h => absurd h hq⟩
  choose T hT using this
  refine ⟨T, hT, fun y q hq => ?_⟩
  obtain ⟨T', W', hs, hk⟩ := hN y q hq
  funext k
  rw [hk, leaves_eq (hB.stiff q hq) (hT q hq) hs]

theorem em_smooth (P : Problem J κ) (x : EuclideanSpace ℝ J) (q : κ) (f : Surf) (k : Fin 3) :
    ContDiffAt ℝ 2 (fun y => EmDer (deformed P y q) f k) x := by
  have h := (deformed_smooth P x q).a
  have hc : ∀ u : V3, ∀ i, ContDiffAt ℝ 2 (fun y => dot ((deformed P y q).a i) u) x := fun u i =>
    (((h i).1.mul contDiffAt_const).add ((h i).2.1.mul contDiffAt_const)).add ((h i).2.2.mul contDiffAt_const)
  rcases fin3_cases k with rfl | rfl | rfl
  · exact hc _ 0
  · exact hc _ 1
  · exact (hc _ 0).add (hc _ 1)

theorem residual_congr {N N' : κ → Voigt} (h : ∀ q ∈ P.Q, N q = N' q) : residual P N x = residual P N' x := by
  unfold residual
  congr 1
  funext j
  congr 1
  exact Finset.sum_congr rfl fun q hq => by rw [h q hq]

/-- The residual is smooth where no point is at a kink. -/
theorem residual_smooth (hB : Body P C t) {N : EuclideanSpace ℝ J → κ → Voigt} (hN : ∀ y, Wrinkles P C t y (N y))
    (hx : Away P C x) : ContDiffAt ℝ 2 (fun y => residual P (N y) y) x := by
  obtain ⟨T, hT, hF⟩ := forces_eq hB hN
  have e : (fun y => residual P (N y) y) = fun y =>
      residual P (fun q k => t q * T q (strain (P.ori q) (deformed P y q)) k) y := by
    funext y; exact residual_congr (hF y)
  rw [e]
  refine (contDiffAt_euclidean (𝕜 := ℝ)).2 fun j => ?_
  refine (ContDiffAt.sum fun q hq => ?_).add contDiffAt_const
  refine ContDiffAt.mul ?_ contDiffAt_const
  refine (smooth_dot (fun k => contDiffAt_const.mul ?_) fun k => em_smooth P x q _ k).neg
  have hs : ContDiffAt ℝ 2 (fun y => strain (P.ori q) (deformed P y q)) x := contDiffAt_pi.2 (strain_smooth P x q)
  exact contDiffAt_pi.1 ((regular_law (hB.stiff q hq) (hB.symm q hq) (hx q hq) (hT q hq)).1.comp x hs) k

/-! ## Along a line -/

theorem slopes_smul (P : Problem J κ) (v : J → ℝ) (s : ℝ) (q : κ) (i : Fin 2) :
    slopes P (fun j => s * v j) q i = s • slopes P v q i := by
  ext <;> simp [slopes, Finset.mul_sum, mul_assoc]

theorem deformed_line (P : Problem J κ) (x v : EuclideanSpace ℝ J) (s : ℝ) (q : κ) (i : Fin 2) :
    (deformed P (x + s • v) q).a i = (deformed P x q).a i + s • slopes P v q i := by
  rw [deformed_step P x (x + s • v) q i, ← slopes_smul]
  have e : (fun j => (x + s • v) j - x j) = fun j => s * v j := by funext j; simp
  rw [e]; rfl

theorem em_line (P : Problem J κ) (x v : EuclideanSpace ℝ J) (s : ℝ) (q : κ) (f : Surf) (k : Fin 3) :
    EmDer (deformed P (x + s • v) q) f k = EmDer (deformed P x q) f k + s * EmDer (step P v q) f k := by
  have h0 := deformed_line P x v s q 0
  have h1 := deformed_line P x v s q 1
  rcases fin3_cases k with rfl | rfl | rfl <;> simp [EmDer, h0, h1, step, dot] <;> ring

theorem strain_line (P : Problem J κ) (x v : EuclideanSpace ℝ J) (s : ℝ) (q : κ) (k : Fin 3) :
    strain (P.ori q) (deformed P (x + s • v) q) k = strain (P.ori q) (deformed P x q) k
      + s * EmDer (deformed P x q) (step P v q) k + s ^ 2 * square (step P v q) k := by
  have h0 := deformed_line P x v s q 0
  have h1 := deformed_line P x v s q 1
  rcases fin3_cases k with rfl | rfl | rfl <;> simp [strain, EmDer, square, h0, h1, step, dot] <;> ring

theorem hasDerivAt_strain (P : Problem J κ) (x v : EuclideanSpace ℝ J) (q : κ) :
    HasDerivAt (fun s : ℝ => strain (P.ori q) (deformed P (x + s • v) q)) (EmDer (deformed P x q) (step P v q)) 0 := by
  refine hasDerivAt_pi.2 fun k => ?_
  simp only [strain_line]
  have h := (((hasDerivAt_id' (0 : ℝ)).mul_const (EmDer (deformed P x q) (step P v q) k)).const_add
    (strain (P.ori q) (deformed P x q) k)).add (((hasDerivAt_id' (0 : ℝ)).pow 2).mul_const (square (step P v q) k))
  refine h.congr_deriv ?_
  simp

theorem em2_step (P : Problem J κ) (u : Surf) (v : J → ℝ) (N : Voigt) (q : κ) :
    EmDer2 u (step P v q) N = ∑ j, v j * EmDer2 u (P.field q j) N := by
  simp only [EmDer2, dot, step, slopes, Finset.mul_sum, Finset.sum_mul, ← Finset.sum_add_distrib]
  exact Finset.sum_congr rfl fun j _ => by ring

theorem em_swap (d u : Surf) (N : Voigt) : dotV N (EmDer d u) = EmDer2 u d N := by
  simp only [dotV, EmDer, EmDer2, dot, Fin.sum_univ_three, vec3_zero, vec3_one, vec3_two]; ring

theorem rowMul_mul (u : Voigt) (A : T3) (d : Voigt) : dotV (Variation.rowMul u A) d = TFT.quad u A d := by
  simp only [Variation.rowMul, TFT.quad, dotV, mulVec3, Fin.sum_univ_three]; ring

theorem quad_sum (u : Voigt) (A : T3) (v : J → ℝ) (e : J → Voigt) :
    TFT.quad u A (fun k => ∑ j, v j * e j k) = ∑ j, v j * TFT.quad u A (e j) := by
  simp only [TFT.quad, dotV, mulVec3, Fin.sum_univ_three, Finset.mul_sum, ← Finset.sum_add_distrib]
  exact Finset.sum_congr rfl fun j _ => by ring

theorem tangent_apply (A : κ → T3) (N : κ → Voigt) (v : EuclideanSpace ℝ J) (j : J) :
    tangent P A N x v j = ∑ q ∈ P.Q, (TFT.quad (EmDer (deformed P x q) (P.field q j)) (A q)
      (EmDer (deformed P x q) (step P v q)) + EmDer2 (P.field q j) (step P v q) (N q)) * P.μ q := by
  show ∑ j', entry P A N x j j' * v j' = _
  simp only [entry, stiffnessMembrane, Finset.sum_mul]
  rw [Finset.sum_comm]
  refine Finset.sum_congr rfl fun q _ => ?_
  have e : EmDer (deformed P x q) (step P v q) = fun k => ∑ j, v j * EmDer (deformed P x q) (P.field q j) k :=
    funext (em_step P _ v q)
  rw [e, quad_sum, em2_step, ← Finset.sum_add_distrib, Finset.sum_mul]
  exact Finset.sum_congr rfl fun j' _ => by rw [rowMul_mul]; ring

/-- The tangent with the derivatives of the stresses is minus the derivative of the residual. -/
theorem residual_deriv (hB : Body P C t) {N : EuclideanSpace ℝ J → κ → Voigt} (hN : ∀ y, Wrinkles P C t y (N y))
    {A : κ → T3} (hA : Slopes P C t x A) :
    HasFDerivAt (fun y => residual P (N y) y) (-tangent P A (N x) x) x := by
  obtain ⟨T, hT, hF⟩ := forces_eq hB hN
  have e : (fun y => residual P (N y) y) = fun y =>
      residual P (fun q k => t q * T q (strain (P.ori q) (deformed P y q)) k) y := by
    funext y; exact residual_congr (hF y)
  have hTd : ∀ q ∈ P.Q, ∃ D, HasFDerivAt (T q) (lin D) (strain (P.ori q) (deformed P x q)) ∧
      ∀ i k, A q i k = t q * D i k := fun q hq => by
    obtain ⟨D, h1, h2⟩ := hA q hq
    exact ⟨D, h1 (T q) (hT q hq), h2⟩
  have hdiff : DifferentiableAt ℝ (fun y => residual P (N y) y) x := by
    rw [e]
    refine (differentiableAt_euclidean (𝕜 := ℝ)).2 fun j => ?_
    refine (DifferentiableAt.fun_sum fun q hq => ?_).add (differentiableAt_const _)
    refine DifferentiableAt.mul ?_ (differentiableAt_const _)
    refine DifferentiableAt.neg ?_
    unfold dotV
    refine DifferentiableAt.fun_sum fun k _ => DifferentiableAt.mul ((differentiableAt_const _).mul ?_)
      ((em_smooth P x q _ k).differentiableAt (by norm_num))
    obtain ⟨D, h1, -⟩ := hTd q hq
    have hs : DifferentiableAt ℝ (fun y => strain (P.ori q) (deformed P y q)) x :=
      (contDiffAt_pi.2 (strain_smooth P x q) : ContDiffAt ℝ 2 _ x).differentiableAt (by norm_num)
    exact differentiableAt_pi.1 (h1.differentiableAt.comp x hs) k
  have hd := hdiff.hasFDerivAt
  refine hd.congr_fderiv ?_
  ext v j
  have hline : HasDerivAt (fun s : ℝ => x + s • v) v 0 := by
    simpa using ((hasDerivAt_id' (0 : ℝ)).smul_const v).const_add x
  have hd' := hd
  rw [show x = x + (0 : ℝ) • v by simp] at hd'
  have h2 := hd'.comp_hasDerivAt (0 : ℝ) hline
  simp only [zero_smul, add_zero] at h2
  have h3 : HasDerivAt (fun s : ℝ => residual P (N (x + s • v)) (x + s • v) j) ((-tangent P A (N x) x) v j) 0 := by
    have ej : (fun s : ℝ => residual P (N (x + s • v)) (x + s • v) j) = fun s =>
        (∑ q ∈ P.Q, -(∑ k, t q * T q (strain (P.ori q) (deformed P (x + s • v) q)) k
          * (EmDer (deformed P x q) (P.field q j) k + s * EmDer (step P v q) (P.field q j) k)) * P.μ q) + P.F j := by
      funext s
      rw [show residual P (N (x + s • v)) (x + s • v) = _ from congrFun e (x + s • v)]
      show (∑ q ∈ P.Q, _) + _ = _
      congr 1
      refine Finset.sum_congr rfl fun q _ => ?_
      simp only [internalForceMembrane, dotV, em_line]
    rw [ej]
    have hv : (-tangent P A (N x) x) v j = ∑ q ∈ P.Q, -((TFT.quad (EmDer (deformed P x q) (P.field q j)) (A q)
      (EmDer (deformed P x q) (step P v q)) + EmDer2 (P.field q j) (step P v q) (N x q)) * P.μ q) := by
      rw [Finset.sum_neg_distrib, ← tangent_apply]; rfl
    rw [hv]
    refine (HasDerivAt.fun_sum fun q hq => ?_).add_const _
    obtain ⟨D, h1, hAD⟩ := hTd q hq
    have hT' : HasDerivAt (fun s : ℝ => T q (strain (P.ori q) (deformed P (x + s • v) q)))
        (mulVec3 D (EmDer (deformed P x q) (step P v q))) 0 := by
      have h1' := h1
      rw [show strain (P.ori q) (deformed P x q) = strain (P.ori q) (deformed P (x + (0 : ℝ) • v) q) by simp] at h1'
      exact h1'.comp_hasDerivAt (0 : ℝ) (hasDerivAt_strain P x v q)
    have hk : ∀ k, HasDerivAt (fun s : ℝ => t q * T q (strain (P.ori q) (deformed P (x + s • v) q)) k
          * (EmDer (deformed P x q) (P.field q j) k + s * EmDer (step P v q) (P.field q j) k))
        (t q * mulVec3 D (EmDer (deformed P x q) (step P v q)) k * EmDer (deformed P x q) (P.field q j) k
          + N x q k * EmDer (step P v q) (P.field q j) k) 0 := by
      intro k
      have a := (hasDerivAt_pi.1 hT' k).const_mul (t q)
      have b : HasDerivAt (fun s : ℝ => EmDer (deformed P x q) (P.field q j) k + s * EmDer (step P v q) (P.field q j) k)
          (EmDer (step P v q) (P.field q j) k) 0 := by
        simpa using ((hasDerivAt_id' (0 : ℝ)).mul_const (EmDer (step P v q) (P.field q j) k)).const_add
          (EmDer (deformed P x q) (P.field q j) k)
      refine (a.mul b).congr_deriv ?_
      rw [hF x q hq]
      simp
    have hsum := ((HasDerivAt.fun_sum (u := Finset.univ) fun k _ => hk k).fun_neg).mul_const (P.μ q)
    refine hsum.congr_deriv ?_
    rw [← em_swap]
    have hAq : A q = fun i k => t q * D i k := by funext i k; exact hAD i k
    rw [hAq]
    simp only [TFT.quad, dotV, mulVec3, Fin.sum_univ_three]
    ring
  have h4 : HasDerivAt (fun s : ℝ => residual P (N (x + s • v)) (x + s • v) j)
      ((fderiv ℝ (fun y => residual P (N y) y) x) v j) 0 :=
    (EuclideanSpace.proj j : EuclideanSpace ℝ J →L[ℝ] ℝ).hasFDerivAt.comp_hasDerivAt (0 : ℝ) h2
  exact h4.unique h3

/-! ## The form -/

theorem inner_tangent (A : κ → T3) (N : κ → Voigt) (u v : EuclideanSpace ℝ J) :
    ⟪tangent P A N x u, v⟫ = ∑ q ∈ P.Q, (TFT.quad (EmDer (deformed P x q) (step P v q)) (A q)
      (EmDer (deformed P x q) (step P u q)) + EmDer2 (step P v q) (step P u q) (N q)) * P.μ q := by
  have h1 : ⟪tangent P A N x u, v⟫ = ∑ j, v j * tangent P A N x u j := by simp [PiLp.inner_apply]
  rw [h1]
  simp only [tangent_apply, Finset.mul_sum]
  rw [Finset.sum_comm]
  refine Finset.sum_congr rfl fun q _ => ?_
  have e1 : TFT.quad (EmDer (deformed P x q) (step P v q)) (A q) (EmDer (deformed P x q) (step P u q))
      = ∑ j, v j * TFT.quad (EmDer (deformed P x q) (P.field q j)) (A q) (EmDer (deformed P x q) (step P u q)) := by
    simp only [TFT.quad, dotV, em_step P _ v q, Fin.sum_univ_three, Finset.sum_mul, ← Finset.sum_add_distrib]
    exact Finset.sum_congr rfl fun j _ => by ring
  have e2 : EmDer2 (step P v q) (step P u q) (N q) = ∑ j, v j * EmDer2 (P.field q j) (step P u q) (N q) := by
    have s : ∀ a b : Surf, ∀ n : Voigt, EmDer2 a b n = EmDer2 b a n := by
      intro a b n; simp only [EmDer2, dot]; ring
    rw [s, em2_step]
    exact Finset.sum_congr rfl fun j _ => by rw [s]
  rw [e1, e2, ← Finset.sum_add_distrib, Finset.sum_mul]
  exact Finset.sum_congr rfl fun j _ => by ring

/-- A form without negative values vanishes only on its kernel. -/
theorem psd_null {T : Voigt} (hT : NoCompression T) {a b : ℝ} (h : T 0 * a ^ 2 + T 1 * b ^ 2 + 2 * T 2 * a * b = 0) :
    T 0 * a + T 2 * b = 0 ∧ T 2 * a + T 1 * b = 0 := by
  obtain ⟨t0, t1, t2⟩ := (Relaxed.tension_iff T).1 hT
  constructor
  · have e : (T 0 * a + T 2 * b) ^ 2 = T 0 * (T 0 * a ^ 2 + T 1 * b ^ 2 + 2 * T 2 * a * b) - (T 0 * T 1 - T 2 ^ 2) * b ^ 2 := by
      ring
    rw [h, mul_zero] at e
    have := mul_nonneg (sub_nonneg.2 t2) (sq_nonneg b)
    nlinarith [sq_nonneg (T 0 * a + T 2 * b)]
  · have e : (T 2 * a + T 1 * b) ^ 2 = T 1 * (T 0 * a ^ 2 + T 1 * b ^ 2 + 2 * T 2 * a * b) - (T 0 * T 1 - T 2 ^ 2) * a ^ 2 := by
      ring
    rw [h, mul_zero] at e
    have := mul_nonneg (sub_nonneg.2 t2) (sq_nonneg a)
    nlinarith [sq_nonneg (T 2 * a + T 1 * b)]

theorem em2_null {T : Voigt} (hT : NoCompression T) (d : Surf) : 0 ≤ EmDer2 d d T ∧
    (EmDer2 d d T = 0 ↔ ∀ i, stressTensor T i 0 • d.a 0 + stressTensor T i 1 • d.a 1 = 0) := by
  have e : EmDer2 d d T = (T 0 * (d.a 0).x ^ 2 + T 1 * (d.a 1).x ^ 2 + 2 * T 2 * (d.a 0).x * (d.a 1).x)
      + (T 0 * (d.a 0).y ^ 2 + T 1 * (d.a 1).y ^ 2 + 2 * T 2 * (d.a 0).y * (d.a 1).y)
      + (T 0 * (d.a 0).z ^ 2 + T 1 * (d.a 1).z ^ 2 + 2 * T 2 * (d.a 0).z * (d.a 1).z) := by
    simp only [EmDer2, dot]; ring
  have hp : ∀ a b : ℝ, 0 ≤ T 0 * a ^ 2 + T 1 * b ^ 2 + 2 * T 2 * a * b := by
    intro a b
    have := hT ![a, b]
    rw [Relaxed.comp_stress] at this
    simpa using this
  have hx := hp (d.a 0).x (d.a 1).x
  have hy := hp (d.a 0).y (d.a 1).y
  have hz := hp (d.a 0).z (d.a 1).z
  refine ⟨by rw [e]; linarith, fun h => ?_, fun h => ?_⟩
  · rw [e] at h
    obtain ⟨x0, x1⟩ := psd_null hT (a := (d.a 0).x) (b := (d.a 1).x) (by linarith)
    obtain ⟨y0, y1⟩ := psd_null hT (a := (d.a 0).y) (b := (d.a 1).y) (by linarith)
    obtain ⟨z0, z1⟩ := psd_null hT (a := (d.a 0).z) (b := (d.a 1).z) (by linarith)
    intro i
    rcases fin2_cases i with rfl | rfl <;> ext <;> simpa [stressTensor]
  · have h0 := h 0
    have h1 := h 1
    have x0 := congrArg V3.x h0
    have y0 := congrArg V3.y h0
    have z0 := congrArg V3.z h0
    have x1 := congrArg V3.x h1
    have y1 := congrArg V3.y h1
    have z1 := congrArg V3.z h1
    simp [stressTensor] at x0 y0 z0 x1 y1 z1
    rw [e]
    linear_combination (d.a 0).x * x0 + (d.a 1).x * x1 + (d.a 0).y * y0 + (d.a 1).y * y1 + (d.a 0).z * z0 + (d.a 1).z * z1

theorem point_form (hB : Body P C t) {N : κ → Voigt} (h : Wrinkles P C t x N) (hx : Away P C x) {A : κ → T3}
    (hA : Slopes P C t x A) {q : κ} (hq : q ∈ P.Q) :
    Symm (A q) ∧ ∀ w : Surf, 0 ≤ TFT.quad (EmDer (deformed P x q) w) (A q) (EmDer (deformed P x q) w) + EmDer2 w w (N q) ∧
      (TFT.quad (EmDer (deformed P x q) w) (A q) (EmDer (deformed P x q) w) + EmDer2 w w (N q) = 0 ↔
        ∀ T W, State (C q) (mulVec3 (C q) (strain (P.ori q) (deformed P x q))) T W →
          (∀ i, stressTensor T i 0 • w.a 0 + stressTensor T i 1 • w.a 1 = 0) ∧
          (T ≠ 0 → ∃ c : ℝ, ∀ k, EmDer (deformed P x q) w k = c * W k)) := by
  obtain ⟨D, hD, hk⟩ := hA q hq
  obtain ⟨T, W, hs, hN⟩ := h q hq
  have ht := hB.thick q hq
  obtain ⟨f1, f2⟩ := slope_form (hB.stiff q hq) (hB.symm q hq) hs (hx q hq) hD
  refine ⟨fun i k => by rw [hk, hk, f1 i k], fun w => ?_⟩
  have eA : ∀ d : Voigt, TFT.quad d (A q) d = t q * TFT.quad d D d := by
    intro d
    rw [show A q = fun i k => t q * D i k from funext fun i => funext fun k => hk i k]
    simp only [TFT.quad, dotV, mulVec3, Fin.sum_univ_three]; ring
  have eN : EmDer2 w w (N q) = t q * EmDer2 w w T := by
    simp only [EmDer2, hN]; ring
  obtain ⟨g1, g2⟩ := f2 (EmDer (deformed P x q) w)
  obtain ⟨k1, k2⟩ := em2_null hs.tension w
  rw [eA, eN, ← mul_add]
  refine ⟨mul_nonneg ht.le (add_nonneg g1 k1), fun h0 => ?_, fun h0 => ?_⟩
  · have h0 := (mul_eq_zero.1 h0).resolve_left ht.ne'
    intro T' W' hs'
    obtain ⟨rfl, rfl⟩ := Relaxed.unique (hB.stiff q hq) hs' hs
    exact ⟨k2.1 (by linarith), g2.1 (by linarith)⟩
  · obtain ⟨a, b⟩ := h0 T W hs
    rw [k2.2 a, g2.2 b]; simp

end Verif.Wrinkled
