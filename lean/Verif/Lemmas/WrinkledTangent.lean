import Verif.Lemmas.WrinkledLaw
import Verif.Lemmas.LocalNewton

/-! # Helper lemmas: the tangent of a membrane with wrinkles -/

namespace Verif.Wrinkled

open V3 Verif.TFT Verif.Spec.Relaxed Verif.Geometry Verif.Variation Verif.ShellSystem Verif.Balance Spec.Wrinkled
open Filter Topology RealInnerProductSpace

/-! ## The three kinds of points -/

theorem taut_idle {T W : Voigt} (hT : Taut T) (hW : Lengthens W) (h : work T W = 0) : W = 0 := by
  obtain ⟨h1, h2⟩ := (taut_iff T).1 hT
  obtain ⟨w0, w1, w2⟩ := (Relaxed.lengthens_iff W).1 hW
  have c := hW ![T 0, T 2]
  rw [Relaxed.comp_strain] at c
  simp only [Matrix.cons_val_zero, Matrix.cons_val_one] at c
  rw [Relaxed.work_eq] at h
  have e : W 0 * T 0 ^ 2 + W 1 * T 2 ^ 2 + W 2 * T 0 * T 2 + (T 0 * T 1 - T 2 ^ 2) * W 1 = 0 := by
    linear_combination T 0 * h
  have d : 0 ≤ (T 0 * T 1 - T 2 ^ 2) * W 1 := mul_nonneg (by linarith) w1
  have a1 : W 1 = 0 := (mul_eq_zero.1 (by linarith : (T 0 * T 1 - T 2 ^ 2) * W 1 = 0)).resolve_left (by linarith)
  rw [a1, mul_zero] at w2
  have a2 : W 2 = 0 := by nlinarith [sq_nonneg (W 2 / 2)]
  rw [a1, a2] at h
  have a0 : W 0 = 0 := (mul_eq_zero.1 (by linarith : T 0 * W 0 = 0)).resolve_left h1.ne'
  funext i; rcases fin3_cases i with rfl | rfl | rfl
  · exact a0
  · exact a1
  · exact a2

theorem longer_idle {T W : Voigt} (hW : Longer W) (hT : NoCompression T) (h : work T W = 0) : T = 0 := by
  obtain ⟨h1, h2⟩ := (longer_iff W).1 hW
  obtain ⟨w0, w1, w2⟩ := (Relaxed.tension_iff T).1 hT
  have c := hT ![W 0, W 2 / 2]
  rw [Relaxed.comp_stress] at c
  simp only [Matrix.cons_val_zero, Matrix.cons_val_one] at c
  rw [Relaxed.work_eq] at h
  have e : T 0 * W 0 ^ 2 + T 1 * (W 2 / 2) ^ 2 + 2 * T 2 * W 0 * (W 2 / 2) + (W 0 * W 1 - (W 2 / 2) ^ 2) * T 1 = 0 := by
    linear_combination W 0 * h
  have d : 0 ≤ (W 0 * W 1 - (W 2 / 2) ^ 2) * T 1 := mul_nonneg (by linarith) w1
  have a1 : T 1 = 0 :=
    (mul_eq_zero.1 (by linarith : (W 0 * W 1 - (W 2 / 2) ^ 2) * T 1 = 0)).resolve_left (by linarith)
  rw [a1, mul_zero] at w2
  have a2 : T 2 = 0 := by nlinarith [sq_nonneg (T 2)]
  rw [a1, a2] at h
  have a0 : T 0 = 0 := (mul_eq_zero.1 (by linarith : T 0 * W 0 = 0)).resolve_right h1.ne'
  funext i; rcases fin3_cases i with rfl | rfl | rfl
  · exact a0
  · exact a1
  · exact a2

/-- What a state that is not at a kink looks like. -/
theorem regular_cases {C : T3} (hC : TFT.PosDef C) {E T W : Voigt} (hst : State C (mulVec3 C E) T W)
    (hr : Regular C E) : (Taut (mulVec3 C E) ∧ T = mulVec3 C E ∧ W = 0) ∨
    (∃ θ, objective C (mulVec3 C E) θ = 0 ∧ dotV (n1 θ) (mulVec3 C E) < 0 ∧
      0 < dotV (n4 θ) (computeS θ C (mulVec3 C E)) ∧ computeS θ C (mulVec3 C E) = T ∧
      ∀ i, W i = gamma θ C (mulVec3 C E) * n1 θ i) ∨
    (Longer (fun i => -E i) ∧ T = 0) := by
  obtain ⟨T', W', h', hk⟩ := hr
  obtain ⟨rfl, rfl⟩ := Relaxed.unique hC h' hst
  rcases hk with hk | ⟨hT, hW⟩ | hk
  · left
    have hW := taut_idle hk hst.wrinkles hst.idle
    have e : T' = mulVec3 C E := by funext i; rw [hst.law i, hW]; simp
    exact ⟨e ▸ hk, e, hW⟩
  · right; left
    have hd : W' 2 ^ 2 = 4 * (W' 0 * W' 1) := by
      obtain ⟨w0, w1, w2⟩ := (Relaxed.lengthens_iff W').1 hst.wrinkles
      by_contra hne
      have hlt : (W' 2 / 2) ^ 2 < W' 0 * W' 1 := lt_of_le_of_ne w2 fun e => hne (by linarith)
      have h0 : 0 < W' 0 := by
        rcases w0.lt_or_eq with g | g
        · exact g
        · rw [← g, zero_mul] at hlt; nlinarith [sq_nonneg (W' 2 / 2)]
      exact hT (longer_idle ((longer_iff W').2 ⟨h0, hlt⟩) hst.tension hst.idle)
    obtain ⟨θ, o, n, m, e, w⟩ := Relaxed.angle_of_state hC hst hW hd
    refine ⟨θ, o, n, ?_, e, w⟩
    rw [e]
    rw [TFT.comp_mm] at m
    rcases m.lt_or_eq with g | g
    · exact g
    · exfalso
      have e1 := Relaxed.dot_n1_computeS hC θ (mulVec3 C E)
      have e2 : dotV (n2 θ) (computeS θ C (mulVec3 C E)) = 0 := by rw [TFT.dotV_computeS]; exact o
      rw [e] at e1 e2
      obtain ⟨f0, f1, f2⟩ := Relaxed.frame θ T'
      rw [e1, e2, ← g] at f0 f1 f2
      refine hT (funext fun i => ?_)
      rcases fin3_cases i with rfl | rfl | rfl
      · simpa using f0
      · simpa using f1
      · simpa using f2
  · right; right
    have hT := longer_idle hk hst.tension hst.idle
    have hz : (fun i => E i + W' i) = 0 := by
      by_contra hne
      have hp := Relaxed.quad_pos hC hne
      have : mulVec3 C (fun i => E i + W' i) = 0 := by
        funext i
        have := hst.law i
        rw [hT] at this
        simp only [mulVec3, Fin.sum_univ_three, Pi.zero_apply] at this ⊢
        linarith
      rw [TFT.quad, this] at hp
      simp [dotV] at hp
    refine ⟨?_, hT⟩
    have e : (fun i => -E i) = W' := by
      funext i
      have := congrFun hz i
      simp only [Pi.zero_apply] at this
      linarith
    rw [e]; exact hk

/-- Away from kinks the stress is smooth, and so near. -/
theorem regular_law {C : T3} (hC : TFT.PosDef C) (hs : Symm C) {E : Voigt} (hr : Regular C E) {T : Voigt → Voigt}
    (hT : Leaves C T) : ContDiffAt ℝ 2 T E ∧ ∀ᶠ E' in 𝓝 E, Regular C E' := by
  obtain ⟨W, hst⟩ := hT E
  rcases regular_cases hC hst hr with ⟨h, -, -⟩ | ⟨θ, o, n, m, -, -⟩ | ⟨h, -⟩
  · exact ⟨(taut_law hC h hT).1, (taut_law hC h hT).2.2⟩
  · exact ⟨(wrinkled_law hC hs o n m hT).1, (wrinkled_law hC hs o n m hT).2.2⟩
  · exact ⟨(slack_law hC h hT).1, (slack_law hC h hT).2.2⟩

theorem lin_inj {D D' : T3} (h : lin D = lin D') : D = D' := by
  funext i k
  have := congrFun (congrArg (fun L : Voigt →L[ℝ] Voigt => L (Pi.single k 1)) h) i
  rcases fin3_cases k with rfl | rfl | rfl <;>
    simpa [lin_apply, mulVec3, Fin.sum_univ_three, Pi.single_apply] using this

theorem slope_unique {C : T3} (hC : TFT.PosDef C) (hs : Symm C) {E : Voigt} {D D' : T3} (h : Slope C E D)
    (h' : Slope C E D') : D = D' := by
  obtain ⟨T, hT⟩ := exists_leaves hC hs
  exact lin_inj ((h T hT).unique (h' T hT))

/-! ## The form -/

theorem wrinkled_quad {C : T3} (hs : Symm C) (θ : ℝ) (S d : Voigt) :
    TFT.quad d (computeCNl θ C S fun _ _ _ => 0) d = TFT.quad d C d - TFT.quad (n1 θ) C d ^ 2 / TFT.quad (n1 θ) C (n1 θ)
      - 2 * gamma θ C S / dfdT θ C S * (TFT.quad (n2 θ) C d - tmp θ C * TFT.quad (n1 θ) C d) ^ 2 := by
  have h : ∀ i k, computeCNl θ C S (fun _ _ _ => 0) i k = _ := fun i k =>
    (computeCNl_const θ C S hs i k).trans (trueTangent_const θ C S hs i k)
  have e : TFT.quad d (computeCNl θ C S fun _ _ _ => 0) d
      = TFT.quad d C d - dotV d (mulVec3 C (n1 θ)) ^ 2 / TFT.quad (n1 θ) C (n1 θ)
        - 2 * gamma θ C S / dfdT θ C S * (dotV d (mulVec3 C (n2 θ)) - tmp θ C * dotV d (mulVec3 C (n1 θ))) ^ 2 := by
    generalize mulVec3 C (n1 θ) = a at h ⊢
    generalize mulVec3 C (n2 θ) = b at h ⊢
    simp only [TFT.quad, dotV, mulVec3, Fin.sum_univ_three] at h ⊢
    simp only [h]
    ring
  rw [e]
  have c1 : dotV d (mulVec3 C (n1 θ)) = TFT.quad (n1 θ) C d := TFT.quad_comm C hs d (n1 θ)
  have c2 : dotV d (mulVec3 C (n2 θ)) = TFT.quad (n2 θ) C d := TFT.quad_comm C hs d (n2 θ)
  rw [c1, c2]

theorem wrinkled_form {C : T3} (hC : TFT.PosDef C) (hs : Symm C) {S : Voigt} {θ : ℝ} (n : dotV (n1 θ) S < 0)
    (m : 0 < dotV (n4 θ) (computeS θ C S)) (d : Voigt) :
    0 ≤ TFT.quad d (computeCNl θ C S fun _ _ _ => 0) d ∧
    (TFT.quad d (computeCNl θ C S fun _ _ _ => 0) d = 0 ↔ ∃ c : ℝ, ∀ k, d k = c * (gamma θ C S * n1 θ k)) := by
  have hq := Relaxed.quad_pos hC (Relaxed.n1_ne θ)
  have hf := dfdT_pos hC hs n m
  have hγ := gamma_pos hC n
  set q := TFT.quad (n1 θ) C (n1 θ) with hqd
  set c0 := TFT.quad (n1 θ) C d / q with hc0
  have ex : ∀ a b : ℝ, ∀ u v w z : Voigt, TFT.quad (fun i => u i - a * v i) C (fun i => w i - b * z i)
      = TFT.quad u C w - b * TFT.quad u C z - a * TFT.quad v C w + a * b * TFT.quad v C z := by
    intro a b u v w z
    simp only [TFT.quad, dotV, mulVec3, Fin.sum_univ_three]; ring
  have hsym := TFT.quad_comm C hs
  have p1 : TFT.quad (fun i => d i - c0 * n1 θ i) C (fun i => d i - c0 * n1 θ i)
      = TFT.quad d C d - TFT.quad (n1 θ) C d ^ 2 / q := by
    rw [ex, hsym d (n1 θ), ← hqd, hc0]; field_simp; ring
  have p2 : TFT.quad (fun i => n2 θ i - tmp θ C * n1 θ i) C (fun i => d i - c0 * n1 θ i)
      = TFT.quad (n2 θ) C d - tmp θ C * TFT.quad (n1 θ) C d := by
    rw [ex, ← hqd, hc0, tmp, ← hqd]; field_simp; ring
  have p3 : TFT.quad (fun i => n2 θ i - tmp θ C * n1 θ i) C (fun i => n2 θ i - tmp θ C * n1 θ i)
      = TFT.quad (n2 θ) C (n2 θ) - TFT.quad (n2 θ) C (n1 θ) ^ 2 / q := by
    rw [ex, hsym (n1 θ) (n2 θ), ← hqd, tmp, ← hqd]; field_simp; ring
  have hcs := quad_cauchy hC hs (fun i => n2 θ i - tmp θ C * n1 θ i) (fun i => d i - c0 * n1 θ i)
  have hP := Relaxed.quad_nonneg hC fun i => d i - c0 * n1 θ i
  rw [p1, p2, p3] at hcs
  have key : dotV (n4 θ) (computeS θ C S) * TFT.quad (fun i => d i - c0 * n1 θ i) C (fun i => d i - c0 * n1 θ i)
      ≤ dfdT θ C S * TFT.quad d (computeCNl θ C S fun _ _ _ => 0) d := by
    rw [wrinkled_quad hs, ← hqd, p1]
    have e : dfdT θ C S * (TFT.quad d C d - TFT.quad (n1 θ) C d ^ 2 / q - 2 * gamma θ C S / dfdT θ C S *
        (TFT.quad (n2 θ) C d - tmp θ C * TFT.quad (n1 θ) C d) ^ 2) = dfdT θ C S * (TFT.quad d C d - TFT.quad (n1 θ) C d ^ 2 / q)
        - 2 * gamma θ C S * (TFT.quad (n2 θ) C d - tmp θ C * TFT.quad (n1 θ) C d) ^ 2 := by
      field_simp
    rw [e, dfdT_eq, ← hqd]
    have := mul_le_mul_of_nonneg_left hcs hγ.le
    linarith
  refine ⟨?_, fun h0 => ?_, ?_⟩
  · have := (mul_nonneg m.le hP).trans key
    exact nonneg_of_mul_nonneg_right this hf
  · rw [h0, mul_zero] at key
    have hz : TFT.quad (fun i => d i - c0 * n1 θ i) C (fun i => d i - c0 * n1 θ i) = 0 := by
      have := nonpos_of_mul_nonpos_right key m
      linarith
    have hd : (fun i => d i - c0 * n1 θ i) = 0 := by
      by_contra hne
      exact (Relaxed.quad_pos hC hne).ne' hz
    refine ⟨c0 / gamma θ C S, fun k => ?_⟩
    have := congrFun hd k
    simp only [Pi.zero_apply] at this
    field_simp
    linarith
  · rintro ⟨c, hc⟩
    have hd : d = fun k => (c * gamma θ C S) * n1 θ k := by funext k; rw [hc]; ring
    rw [wrinkled_quad hs, hd, TFT.quad_smul_left, TFT.quad_smul_right, TFT.quad_smul_right, tmp, ← hqd]
    field_simp
    ring

theorem slope_form {C : T3} (hC : TFT.PosDef C) (hs : Symm C) {E T W : Voigt} {D : T3}
    (hst : State C (mulVec3 C E) T W) (hr : Regular C E) (hD : Slope C E D) : Symm D ∧ ∀ d, 0 ≤ TFT.quad d D d ∧
      (TFT.quad d D d = 0 ↔ (T ≠ 0 → ∃ c : ℝ, ∀ k, d k = c * W k)) := by
  rcases regular_cases hC hst hr with ⟨h, e1, e2⟩ | ⟨θ, o, n, m, e1, e2⟩ | ⟨h, e1⟩
  · have e := slope_unique hC hs hD fun T hT => (taut_law hC h hT).2.1
    subst e
    refine ⟨hs, fun d => ⟨Relaxed.quad_nonneg hC d, fun h0 _ => ⟨0, fun k => ?_⟩, fun h1 => ?_⟩⟩
    · have : d = 0 := by
        by_contra hne
        exact (Relaxed.quad_pos hC hne).ne' h0
      simp [this]
    · have hT : T ≠ 0 := by
        intro hT
        have h0 := ((taut_iff _).1 h).1
        rw [← e1, hT] at h0
        simp at h0
      obtain ⟨c, hc⟩ := h1 hT
      have : d = 0 := by funext k; rw [hc, e2]; simp
      rw [this]; simp [TFT.quad, dotV]
  · have e := slope_unique hC hs hD fun T hT => (wrinkled_law hC hs o n m hT).2.1
    subst e
    refine ⟨fun i k => ?_, fun d => ?_⟩
    · rw [computeCNl_const θ C _ hs, computeCNl_const θ C _ hs, trueTangent_const θ C _ hs, trueTangent_const θ C _ hs, hs i k]
      ring
    · obtain ⟨a, b⟩ := wrinkled_form hC hs n m d
      refine ⟨a, b.trans ⟨fun ⟨c, hc⟩ _ => ⟨c, fun k => by rw [hc, e2]⟩, fun h => ?_⟩⟩
      have hT : T ≠ 0 := by
        intro hT
        rw [e1, hT] at m
        simp [dotV] at m
      obtain ⟨c, hc⟩ := h hT
      exact ⟨c, fun k => by rw [hc, e2]⟩
  · have e := slope_unique hC hs hD fun T hT => (slack_law hC h hT).2.1
    subst e
    refine ⟨fun _ _ => rfl, fun d => ?_⟩
    have : TFT.quad d (fun _ _ => 0) d = 0 := by simp [TFT.quad, dotV, mulVec3]
    rw [this]
    exact ⟨le_rfl, fun _ hT => absurd e1 hT, fun _ => rfl⟩

end Verif.Wrinkled
