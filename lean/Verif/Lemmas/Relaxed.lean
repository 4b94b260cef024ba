import Mathlib.Topology.Order.Compact
import Mathlib.Topology.MetricSpace.ProperSpace.Real
import Mathlib.Analysis.Normed.Module.FiniteDimension
import Verif.Lemmas.TFT
import Verif.Spec.Relaxed

/-! # Helper lemmas: membranes without compression -/

namespace Verif.Relaxed

open Verif.TFT Verif.Spec.Relaxed

theorem comp_stress (S : Voigt) (v : Fin 2 → ℝ) :
    comp (stressTensor S) v v = S 0 * v 0 ^ 2 + S 1 * v 1 ^ 2 + 2 * S 2 * v 0 * v 1 := by
  simp only [comp, stressTensor, Fin.sum_univ_two, Matrix.cons_val_zero, Matrix.cons_val_one]
  ring

theorem comp_strain (W : Voigt) (v : Fin 2 → ℝ) :
    comp (strainTensor W) v v = W 0 * v 0 ^ 2 + W 1 * v 1 ^ 2 + W 2 * v 0 * v 1 := by
  simp only [comp, strainTensor, Fin.sum_univ_two, Matrix.cons_val_zero, Matrix.cons_val_one]
  ring

theorem psd_iff (a b c : ℝ) : (∀ v : Fin 2 → ℝ, 0 ≤ a * v 0 ^ 2 + b * v 1 ^ 2 + 2 * c * v 0 * v 1)
    ↔ 0 ≤ a ∧ 0 ≤ b ∧ c ^ 2 ≤ a * b := by
  constructor
  · intro h
    have h0 := h ![1, 0]
    have h1 := h ![0, 1]
    simp only [Matrix.cons_val_zero, Matrix.cons_val_one] at h0 h1
    have ha : 0 ≤ a := by linarith
    have hb : 0 ≤ b := by linarith
    refine ⟨ha, hb, ?_⟩
    have h2 := h ![b, -c]
    have h3 := h ![-c, a]
    have h4 := h ![1, -c]
    simp only [Matrix.cons_val_zero, Matrix.cons_val_one] at h2 h3 h4
    by_contra hc
    have hc : a * b < c ^ 2 := not_le.1 hc
    rcases hb.lt_or_eq with hb | hb
    · have : b * (a * b - c ^ 2) < 0 := mul_neg_of_pos_of_neg hb (by linarith)
      nlinarith
    · subst hb
      rcases ha.lt_or_eq with ha | ha
      · have : a * (a * 0 - c ^ 2) < 0 := mul_neg_of_pos_of_neg ha (by linarith)
        nlinarith
      · subst ha
        nlinarith
  · rintro ⟨ha, hb, hc⟩ v
    have key : 0 ≤ (a * v 0 ^ 2 + b * v 1 ^ 2 + 2 * c * v 0 * v 1) * (a + b) := by
      nlinarith [sq_nonneg (a * v 0 + c * v 1), sq_nonneg (c * v 0 + b * v 1),
        mul_nonneg (sub_nonneg.2 hc) (add_nonneg (sq_nonneg (v 0)) (sq_nonneg (v 1)))]
    rcases (add_nonneg ha hb).lt_or_eq with h | h
    · exact nonneg_of_mul_nonneg_left key h
    · have a0 : a = 0 := by linarith
      have b0 : b = 0 := by linarith
      subst a0 b0
      have : c = 0 := by nlinarith
      subst this
      simp

theorem tension_iff (S : Voigt) : NoCompression S ↔ 0 ≤ S 0 ∧ 0 ≤ S 1 ∧ S 2 ^ 2 ≤ S 0 * S 1 := by
  rw [← psd_iff]
  simp only [NoCompression, comp_stress]

theorem lengthens_iff (W : Voigt) :
    Lengthens W ↔ 0 ≤ W 0 ∧ 0 ≤ W 1 ∧ (W 2 / 2) ^ 2 ≤ W 0 * W 1 := by
  rw [← psd_iff]
  simp only [Lengthens, comp_strain]
  constructor <;> intro h v
  · have := h v; linarith
  · have := h v; linarith

theorem work_eq (S W : Voigt) : work S W = S 0 * W 0 + S 1 * W 1 + S 2 * W 2 := by
  simp only [work, Fin.sum_univ_three]

/-- Tension does no negative work on a lengthening. -/
theorem work_nonneg {S W : Voigt} (hS : NoCompression S) (hW : Lengthens W) : 0 ≤ work S W := by
  obtain ⟨a, b, c⟩ := (tension_iff S).1 hS
  obtain ⟨d, e, f⟩ := (lengthens_iff W).1 hW
  rw [work_eq]
  have p : 0 ≤ S 0 * W 0 := mul_nonneg a d
  have q : 0 ≤ S 1 * W 1 := mul_nonneg b e
  have r : S 2 ^ 2 * (W 2 / 2) ^ 2 ≤ (S 0 * S 1) * (W 0 * W 1) :=
    mul_le_mul c f (sq_nonneg _) (mul_nonneg a b)
  have s : (S 2 * W 2) ^ 2 ≤ (S 0 * W 0 + S 1 * W 1) ^ 2 := by
    nlinarith [sq_nonneg (S 0 * W 0 - S 1 * W 1)]
  have := (abs_le_of_sq_le_sq' s (by linarith)).1
  linarith

theorem quad_pos {C : T3} (h : PosDef C) {v : Voigt} (hv : v ≠ 0) : 0 < quad v C v := by
  rw [quad_eq_sum]; exact h v hv

theorem quad_nonneg {C : T3} (h : PosDef C) (v : Voigt) : 0 ≤ quad v C v := by
  by_cases hv : v = 0
  · subst hv; simp [quad, dotV, mulVec3]
  · exact (quad_pos h hv).le

theorem law_eq {C : T3} {S T W : Voigt} (h : State C S T W) (i : Fin 3) :
    T i = S i + C i 0 * W 0 + C i 1 * W 1 + C i 2 * W 2 := by
  rw [h.law i]; simp only [Fin.sum_univ_three]; ring

theorem unique {C : T3} (hC : PosDef C) {S T T' W W' : Voigt} (h : State C S T W)
    (h' : State C S T' W') : T = T' ∧ W = W' := by
  have hW : W = W' := by
    by_contra hne
    have hd : (fun i => W i - W' i) ≠ 0 := by
      intro e; apply hne; funext i
      have := congrFun e i
      simp only [Pi.zero_apply] at this; linarith
    have p := quad_pos hC hd
    have a := work_nonneg h.tension h'.wrinkles
    have b := work_nonneg h'.tension h.wrinkles
    have c := h.idle
    have d := h'.idle
    rw [work_eq] at a b c d
    have l := law_eq h
    have l' := law_eq h'
    simp only [quad, dotV, mulVec3, Fin.sum_univ_three] at p
    have e : ∀ i, C i 0 * (W 0 - W' 0) + C i 1 * (W 1 - W' 1) + C i 2 * (W 2 - W' 2)
        = T i - T' i := fun i => by rw [l i, l' i]; ring
    rw [e 0, e 1, e 2] at p
    nlinarith
  refine ⟨?_, hW⟩
  subst hW
  funext i
  rw [law_eq h, law_eq h']

/-! ## Existence -/

theorem lengthens_add {W V : Voigt} (hW : Lengthens W) (hV : Lengthens V) (t : ℝ) (ht : 0 ≤ t) :
    Lengthens (fun i => W i + t * V i) := by
  intro v
  have a := hW v
  have b := mul_nonneg ht (hV v)
  rw [comp_strain] at a b ⊢
  linarith

theorem lengthens_smul {W : Voigt} (hW : Lengthens W) (t : ℝ) (ht : 0 ≤ t) :
    Lengthens (fun i => t * W i) := by
  intro v
  have b := mul_nonneg ht (hW v)
  rw [comp_strain] at b ⊢
  linarith

theorem lengthens_sq (v : Fin 2 → ℝ) : Lengthens (vec3 (v 0 ^ 2) (v 1 ^ 2) (2 * v 0 * v 1)) := by
  rw [lengthens_iff]
  simp only [vec3_zero, vec3_one, vec3_two]
  refine ⟨sq_nonneg _, sq_nonneg _, le_of_eq (by ring)⟩

theorem isClosed_lengthens : IsClosed {W : Voigt | Lengthens W} := by
  have : {W : Voigt | Lengthens W} = {W : Voigt | 0 ≤ W 0} ∩ ({W : Voigt | 0 ≤ W 1} ∩
      {W : Voigt | (W 2 / 2) ^ 2 ≤ W 0 * W 1}) := by
    ext W
    simp only [Set.mem_ofPred_eq, Set.mem_inter_iff]
    exact lengthens_iff W
  rw [this]
  refine (isClosed_le continuous_const (continuous_apply 0)).inter
    ((isClosed_le continuous_const (continuous_apply 1)).inter (isClosed_le ?_ ?_))
  · fun_prop
  · fun_prop

/-- The potential whose minimum gives the wrinkling strain. -/
noncomputable def pot (C : T3) (S W : Voigt) : ℝ := (1 / 2) * quad W C W + work S W

theorem continuous_pot (C : T3) (S : Voigt) : Continuous (pot C S) := by
  unfold pot
  simp only [quad, dotV, mulVec3, work, Fin.sum_univ_three]
  fun_prop

theorem coercive {C : T3} (hC : PosDef C) : ∃ m > 0, ∀ v : Voigt, m * ‖v‖ ^ 2 ≤ quad v C v := by
  have hc : Continuous fun v : Voigt => quad v C v := by
    simp only [quad, dotV, mulVec3, Fin.sum_univ_three]
    fun_prop
  have hcomp : IsCompact (Metric.sphere (0 : Voigt) 1) := isCompact_sphere 0 1
  have hne : (Metric.sphere (0 : Voigt) 1).Nonempty := NormedSpace.sphere_nonempty.2 zero_le_one
  obtain ⟨w, hw, hmin⟩ := hcomp.exists_isMinOn hne hc.continuousOn
  have hw1 : ‖w‖ = 1 := by simpa using hw
  have hw0 : w ≠ 0 := by intro h; rw [h, norm_zero] at hw1; norm_num at hw1
  refine ⟨quad w C w, quad_pos hC hw0, fun v => ?_⟩
  by_cases hv : v = 0
  · subst hv; simp [quad, dotV, mulVec3]
  · have hn : 0 < ‖v‖ := norm_pos_iff.2 hv
    have hs : (‖v‖⁻¹ • v) ∈ Metric.sphere (0 : Voigt) 1 := by
      simp [norm_smul, hn.ne']
    have key : quad w C w ≤ quad (‖v‖⁻¹ • v) C (‖v‖⁻¹ • v) := hmin hs
    have e : quad (‖v‖⁻¹ • v) C (‖v‖⁻¹ • v) = (‖v‖⁻¹) ^ 2 * quad v C v := by
      simp only [quad, dotV, mulVec3, Fin.sum_univ_three, Pi.smul_apply, smul_eq_mul]
      ring
    rw [e] at key
    calc quad w C w * ‖v‖ ^ 2 ≤ ((‖v‖⁻¹) ^ 2 * quad v C v) * ‖v‖ ^ 2 :=
          mul_le_mul_of_nonneg_right key (sq_nonneg _)
      _ = quad v C v := by field_simp

theorem exists_min {C : T3} (hC : PosDef C) (S : Voigt) : ∃ W, Lengthens W ∧
    ∀ V, Lengthens V → pot C S W ≤ pot C S V := by
  obtain ⟨m, hm, hq⟩ := coercive hC
  set b : ℝ := |S 0| + |S 1| + |S 2|
  have hb : 0 ≤ b := by positivity
  have hwork : ∀ V : Voigt, -(b * ‖V‖) ≤ work S V := by
    intro V
    have e : ∀ i, |S i * V i| ≤ |S i| * ‖V‖ := fun i => by
      rw [abs_mul]
      exact mul_le_mul_of_nonneg_left (by simpa using norm_le_pi_norm V i) (abs_nonneg _)
    rw [work_eq]
    have a0 := (abs_le.1 (e 0)).1
    have a1 := (abs_le.1 (e 1)).1
    have a2 := (abs_le.1 (e 2)).1
    simp only [b]; linarith
  set r : ℝ := 2 * b / m
  have hr : 0 ≤ r := by positivity
  have hbig : ∀ V : Voigt, r < ‖V‖ → 0 ≤ pot C S V := by
    intro V hV
    have h1 := hq V
    have h2 := hwork V
    have h3 : 2 * b ≤ m * ‖V‖ := by
      have := mul_le_mul_of_nonneg_left hV.le hm.le
      have e : m * r = 2 * b := by simp only [r]; field_simp
      linarith
    have h4 := mul_le_mul_of_nonneg_right h3 (norm_nonneg V)
    simp only [pot]
    nlinarith
  have hK : IsCompact (Metric.closedBall (0 : Voigt) r ∩ {W : Voigt | Lengthens W}) :=
    (isCompact_closedBall 0 r).inter_right isClosed_lengthens
  have h0 : Lengthens (0 : Voigt) := by
    intro v; rw [comp_strain]; simp
  obtain ⟨W, ⟨_, hWl⟩, hmin⟩ := hK.exists_isMinOn
    ⟨0, by simpa using hr, h0⟩ (continuous_pot C S).continuousOn
  refine ⟨W, hWl, fun V hV => ?_⟩
  by_cases hn : ‖V‖ ≤ r
  · exact hmin ⟨by simpa using hn, hV⟩
  · have z : pot C S W ≤ pot C S 0 := hmin ⟨by simpa using hr, h0⟩
    have e : pot C S 0 = 0 := by simp [pot, quad, dotV, mulVec3, work]
    have := hbig V (not_le.1 hn)
    linarith

theorem pot_add {C : T3} (hs : Symm C) (S W V : Voigt) (t : ℝ) :
    pot C S (fun i => W i + t * V i)
      = pot C S W + t * work (fun i => S i + ∑ j, C i j * W j) V + t ^ 2 / 2 * quad V C V := by
  have h1 := hs 1 0
  have h2 := hs 2 0
  have h3 := hs 2 1
  simp only [pot, quad, dotV, mulVec3, work, Fin.sum_univ_three, h1, h2, h3]
  ring

theorem slope_nonneg {a b : ℝ} (h : ∀ t : ℝ, 0 < t → t < 1 → 0 ≤ t * a + t ^ 2 / 2 * b) :
    0 ≤ a := by
  by_contra ha
  have ha : a < 0 := not_le.1 ha
  set t : ℝ := min (1 / 2) (-a / (|b| + 1))
  have hb : 0 < |b| + 1 := by positivity
  have ht : 0 < t := lt_min (by norm_num) (div_pos (by linarith) hb)
  have ht1 : t < 1 := lt_of_le_of_lt (min_le_left _ _) (by norm_num)
  have h1 := h t ht ht1
  have h2 : t * (|b| + 1) ≤ -a := by
    have := mul_le_mul_of_nonneg_right (min_le_right (1 / 2) (-a / (|b| + 1))) hb.le
    rwa [div_mul_cancel₀ _ hb.ne'] at this
  have h3 : b ≤ |b| := le_abs_self b
  have h4 : 0 ≤ a + t / 2 * b := by
    by_contra hc
    have := mul_neg_of_pos_of_neg ht (not_le.1 hc)
    nlinarith
  nlinarith

theorem exists_state {C : T3} (hC : PosDef C) (hs : Symm C) (S : Voigt) :
    ∃ T W, State C S T W := by
  obtain ⟨W, hW, hmin⟩ := exists_min hC S
  refine ⟨fun i => S i + ∑ j, C i j * W j, W, ⟨fun i => rfl, ?_, hW, ?_⟩⟩
  · intro v
    have hV := lengthens_sq v
    have key : 0 ≤ work (fun i => S i + ∑ j, C i j * W j)
        (vec3 (v 0 ^ 2) (v 1 ^ 2) (2 * v 0 * v 1)) := by
      refine slope_nonneg (b := quad (vec3 (v 0 ^ 2) (v 1 ^ 2) (2 * v 0 * v 1)) C
        (vec3 (v 0 ^ 2) (v 1 ^ 2) (2 * v 0 * v 1))) fun t ht _ => ?_
      have := hmin _ (lengthens_add hW hV t ht.le)
      rw [pot_add hs] at this
      linarith
    rw [work_eq] at key
    rw [comp_stress]
    simp only [vec3_zero, vec3_one, vec3_two] at key
    linarith
  · have up : 0 ≤ work (fun i => S i + ∑ j, C i j * W j) W := by
      refine slope_nonneg (b := quad W C W) fun t ht _ => ?_
      have := hmin _ (lengthens_add hW hW t ht.le)
      rw [pot_add hs] at this
      linarith
    have dn : 0 ≤ -work (fun i => S i + ∑ j, C i j * W j) W := by
      refine slope_nonneg (b := quad W C W) fun t ht ht1 => ?_
      have e : (fun i => (1 - t) * W i) = fun i => W i + -t * W i := by funext i; ring
      have := hmin _ (lengthens_smul hW (1 - t) (by linarith))
      rw [e, pot_add hs] at this
      nlinarith
    linarith

/-! ## Wrinkled states and angles -/

theorem exists_angle (a b : ℝ) (h : a ^ 2 + b ^ 2 = 1) : ∃ θ, Real.cos θ = a ∧ Real.sin θ = b := by
  have hn : ‖(⟨a, b⟩ : ℂ)‖ = 1 := by
    rw [Complex.norm_def, Complex.normSq_mk, show a * a + b * b = 1 by nlinarith, Real.sqrt_one]
  have h0 : (⟨a, b⟩ : ℂ) ≠ 0 := by
    intro e; rw [e, norm_zero] at hn; norm_num at hn
  refine ⟨Complex.arg ⟨a, b⟩, ?_, ?_⟩
  · rw [Complex.cos_arg h0, hn, div_one]
  · rw [Complex.sin_arg, hn, div_one]

theorem frame (θ : ℝ) (T : Voigt) :
    T 0 = Real.cos θ ^ 2 * dotV (n1 θ) T - 2 * Real.cos θ * Real.sin θ * dotV (n2 θ) T
      + Real.sin θ ^ 2 * dotV (n4 θ) T ∧
    T 1 = Real.sin θ ^ 2 * dotV (n1 θ) T + 2 * Real.cos θ * Real.sin θ * dotV (n2 θ) T
      + Real.cos θ ^ 2 * dotV (n4 θ) T ∧
    T 2 = Real.cos θ * Real.sin θ * dotV (n1 θ) T
      + (Real.cos θ ^ 2 - Real.sin θ ^ 2) * dotV (n2 θ) T
      - Real.cos θ * Real.sin θ * dotV (n4 θ) T := by
  have h := Real.cos_sq_add_sin_sq θ
  simp only [dotV, n1, n2, n4, Fin.sum_univ_three, vec3_zero, vec3_one, vec3_two]
  set c := Real.cos θ
  set s := Real.sin θ
  have h2 : (c ^ 2 + s ^ 2) ^ 2 = 1 := by rw [h]; norm_num
  refine ⟨?_, ?_, ?_⟩
  · linear_combination -T 0 * h2
  · linear_combination -T 1 * h2
  · linear_combination -T 2 * h2

theorem n1_ne (θ : ℝ) : n1 θ ≠ 0 := by
  intro h
  have h0 := congrFun h 0
  have h1 := congrFun h 1
  simp only [n1, vec3_zero, vec3_one, Pi.zero_apply] at h0 h1
  have := Real.cos_sq_add_sin_sq θ
  nlinarith

theorem lengthens_n1 (θ γ : ℝ) (h : 0 ≤ γ) : Lengthens (fun i => γ * n1 θ i) := by
  refine lengthens_smul ?_ γ h
  rw [lengthens_iff]
  simp only [n1, vec3_zero, vec3_one, vec3_two]
  exact ⟨mul_self_nonneg _, mul_self_nonneg _, le_of_eq (by ring)⟩

theorem dot_n1_computeS {C : T3} (hC : PosDef C) (θ : ℝ) (S : Voigt) :
    dotV (n1 θ) (computeS θ C S) = 0 := by
  rw [dotV_computeS]
  have := (quad_pos hC (n1_ne θ)).ne'
  simp only [gamma]
  field_simp
  ring

/-- An angle at which the searched function vanishes, with compression across the wrinkles
and tension along them, gives the state. -/
theorem state_of_angle {C : T3} (hC : PosDef C) {S : Voigt} {θ : ℝ} (h0 : objective C S θ = 0)
    (hn : dotV (n1 θ) S ≤ 0)
    (hm : 0 ≤ comp (stressTensor (computeS θ C S)) (dirM θ) (dirM θ)) :
    State C S (computeS θ C S) (fun i => gamma θ C S * n1 θ i) := by
  have hq := quad_pos hC (n1_ne θ)
  have e1 := dot_n1_computeS hC θ S
  have e2 : dotV (n2 θ) (computeS θ C S) = 0 := by
    rw [dotV_computeS]; exact h0
  rw [comp_mm] at hm
  obtain ⟨f0, f1, f2⟩ := frame θ (computeS θ C S)
  rw [e1, e2] at f0 f1 f2
  have hγ : 0 ≤ gamma θ C S := div_nonneg (by linarith) hq.le
  refine ⟨fun i => rfl, ?_, lengthens_n1 θ _ hγ, ?_⟩
  · rw [tension_iff, f0, f1, f2]
    refine ⟨?_, ?_, ?_⟩
    · have := mul_nonneg (sq_nonneg (Real.sin θ)) hm; linarith
    · have := mul_nonneg (sq_nonneg (Real.cos θ)) hm; linarith
    · exact le_of_eq (by ring)
  · have : work (computeS θ C S) (fun i => gamma θ C S * n1 θ i)
        = gamma θ C S * dotV (n1 θ) (computeS θ C S) := by
      simp only [work, dotV, Fin.sum_univ_three]; ring
    rw [this, e1, mul_zero]

/-- A wrinkling strain in one direction comes from an angle. -/
theorem angle_of_state {C : T3} (hC : PosDef C) {S T W : Voigt} (h : State C S T W)
    (hW : W ≠ 0) (hd : W 2 ^ 2 = 4 * (W 0 * W 1)) : ∃ θ, objective C S θ = 0 ∧
      dotV (n1 θ) S < 0 ∧ 0 ≤ comp (stressTensor T) (dirM θ) (dirM θ) ∧ computeS θ C S = T ∧
      ∀ i, W i = gamma θ C S * n1 θ i := by
  obtain ⟨w0, w1, _⟩ := (lengthens_iff W).1 h.wrinkles
  have hγ : 0 < W 0 + W 1 := by
    rcases (add_nonneg w0 w1).lt_or_eq with g | g
    · exact g
    · exfalso; apply hW
      have a : W 0 = 0 := by linarith
      have b : W 1 = 0 := by linarith
      have c : W 2 = 0 := by rw [a, b] at hd; nlinarith
      funext i; rcases fin3_cases i with rfl | rfl | rfl
      · exact a
      · exact b
      · exact c
  set γ := W 0 + W 1
  obtain ⟨σ, hσ, hσs⟩ : ∃ σ : ℝ, σ ^ 2 = 1 ∧ W 2 = σ * |W 2| := by
    rcases le_total 0 (W 2) with g | g
    · exact ⟨1, by norm_num, by rw [abs_of_nonneg g, one_mul]⟩
    · exact ⟨-1, by norm_num, by rw [abs_of_nonpos g]; ring⟩
  have qa : 0 ≤ W 0 / γ := div_nonneg w0 hγ.le
  have qb : 0 ≤ W 1 / γ := div_nonneg w1 hγ.le
  obtain ⟨θ, hc, hs⟩ := exists_angle (Real.sqrt (W 0 / γ)) (σ * Real.sqrt (W 1 / γ)) (by
    rw [mul_pow, hσ, Real.sq_sqrt qa, Real.sq_sqrt qb, one_mul, ← add_div]
    exact div_self hγ.ne')
  have W2 : W 2 = γ * (2 * Real.cos θ * Real.sin θ) := by
    have e : |W 2| = 2 * γ * (Real.sqrt (W 0 / γ) * Real.sqrt (W 1 / γ)) := by
      have l : 0 ≤ 2 * γ * (Real.sqrt (W 0 / γ) * Real.sqrt (W 1 / γ)) := by positivity
      rw [← abs_of_nonneg l]
      refine (sq_eq_sq_iff_abs_eq_abs _ _).1 ?_
      rw [mul_pow, mul_pow, mul_pow (Real.sqrt _), Real.sq_sqrt qa, Real.sq_sqrt qb, hd]
      field_simp
      ring
    rw [hσs, e, hc, hs]; ring
  have Wn : ∀ i, W i = γ * n1 θ i := by
    intro i
    rcases fin3_cases i with rfl | rfl | rfl
    · simp only [n1, vec3_zero, hc]
      rw [Real.mul_self_sqrt qa]; field_simp
    · simp only [n1, vec3_one, hs]
      rw [show σ * Real.sqrt (W 1 / γ) * (σ * Real.sqrt (W 1 / γ))
        = σ ^ 2 * (Real.sqrt (W 1 / γ) * Real.sqrt (W 1 / γ)) by ring, hσ,
        Real.mul_self_sqrt qb]; field_simp
    · simpa only [n1, vec3_two] using W2
  have hq := quad_pos hC (n1_ne θ)
  have hT : ∀ u, dotV u T = dotV u S + γ * quad u C (n1 θ) := by
    intro u
    have l := law_eq h
    simp only [dotV, quad, mulVec3, Fin.sum_univ_three, l, Wn]
    ring
  have hnT : dotV (n1 θ) T = 0 := by
    have := h.idle
    have e : work T W = γ * dotV (n1 θ) T := by
      simp only [work, dotV, Fin.sum_univ_three, Wn]; ring
    rw [e] at this
    exact (mul_eq_zero.1 this).resolve_left hγ.ne'
  have hg : gamma θ C S = γ := by
    have := hT (n1 θ)
    rw [hnT] at this
    simp only [gamma]
    rw [div_eq_iff hq.ne']; linarith
  have hcs : computeS θ C S = T := by
    funext i
    simp only [computeS, hg, mulVec3, ← Wn, h.law i]
  have h4 : 0 ≤ dotV (n4 θ) T := by rw [← comp_mm]; exact h.tension _
  have h2 : dotV (n2 θ) T = 0 := by
    obtain ⟨f0, f1, f2⟩ := frame θ T
    obtain ⟨t0, t1, t2⟩ := (tension_iff T).1 h.tension
    rw [hnT] at f0 f1 f2
    rw [f0, f1, f2] at t2
    have hcs := Real.cos_sq_add_sin_sq θ
    set c := Real.cos θ
    set s := Real.sin θ
    set a := dotV (n2 θ) T
    set b := dotV (n4 θ) T
    have e : (c ^ 2 * 0 - 2 * c * s * a + s ^ 2 * b) * (s ^ 2 * 0 + 2 * c * s * a + c ^ 2 * b)
        - (c * s * 0 + (c ^ 2 - s ^ 2) * a - c * s * b) ^ 2 = -a ^ 2 * (c ^ 2 + s ^ 2) ^ 2 := by
      ring
    rw [hcs] at e
    nlinarith
  refine ⟨θ, ?_, ?_, ?_, hcs, fun i => by rw [hg, Wn]⟩
  · have := dotV_computeS (n2 θ) θ C S
    rw [hcs, h2] at this
    exact this.symm
  · have := hT (n1 θ)
    rw [hnT] at this
    have := mul_pos hγ hq
    linarith
  · exact h.tension _

/-- A stress without compression which does no work on a lengthening in all directions
vanishes. -/
theorem zero_of_full {T W : Voigt} (hT : NoCompression T) (h : work T W = 0) (h0 : 0 < W 0)
    (h1 : 0 < W 1) (hd : W 2 ^ 2 < 4 * (W 0 * W 1)) : T = 0 := by
  obtain ⟨a, b, c⟩ := (tension_iff T).1 hT
  rw [work_eq] at h
  have p : 0 ≤ T 0 * W 0 := mul_nonneg a h0.le
  have q : 0 ≤ T 1 * W 1 := mul_nonneg b h1.le
  have e : (T 0 * W 0 + T 1 * W 1) ^ 2 = T 2 ^ 2 * W 2 ^ 2 := by
    have : T 0 * W 0 + T 1 * W 1 = -(T 2 * W 2) := by linarith
    rw [this]; ring
  have hz : T 0 * T 1 = 0 := by
    by_contra hne
    have hpos : 0 < T 0 * T 1 := lt_of_le_of_ne (mul_nonneg a b) (Ne.symm hne)
    have r1 : T 2 ^ 2 * W 2 ^ 2 ≤ (T 0 * T 1) * W 2 ^ 2 :=
      mul_le_mul_of_nonneg_right c (sq_nonneg _)
    have r2 : (T 0 * T 1) * W 2 ^ 2 < (T 0 * T 1) * (4 * (W 0 * W 1)) :=
      mul_lt_mul_of_pos_left hd hpos
    nlinarith [sq_nonneg (T 0 * W 0 - T 1 * W 1)]
  have t2 : T 2 = 0 := by rw [hz] at c; nlinarith
  rw [t2] at e
  have s0 : T 0 * W 0 + T 1 * W 1 = 0 := by nlinarith
  have t0 : T 0 = 0 := by
    have : T 0 * W 0 = 0 := by linarith
    exact (mul_eq_zero.1 this).resolve_right h0.ne'
  have t1 : T 1 = 0 := by
    have : T 1 * W 1 = 0 := by linarith
    exact (mul_eq_zero.1 this).resolve_right h1.ne'
  funext i; rcases fin3_cases i with rfl | rfl | rfl
  · exact t0
  · exact t1
  · exact t2

/-! ## Principal values -/

theorem trace_stress (A : T2) (S : Voigt) (hA : A 0 1 = A 1 0) :
    (∑ i, ∑ j, A i j * stressTensor S j i) = A 0 0 * S 0 + A 1 1 * S 1 + 2 * A 0 1 * S 2 := by
  simp only [stressTensor, Fin.sum_univ_two, Matrix.cons_val_zero, Matrix.cons_val_one, ← hA]
  ring

theorem metric_diag {A : T2} (hA : Spec.PosDef.Metric A) : 0 < A 1 1 := by
  obtain ⟨h, a, d⟩ := hA
  have : 0 < A 0 0 * A 1 1 := by rw [h] at d; nlinarith [sq_nonneg (A 1 0)]
  exact (mul_pos_iff_of_pos_left a).1 this

theorem trace_nonneg {A : T2} (hA : Spec.PosDef.Metric A) {a b c : ℝ} (ha : 0 ≤ a) (hb : 0 ≤ b)
    (hc : c ^ 2 ≤ a * b) : 0 ≤ A 0 0 * a + A 1 1 * b + 2 * A 0 1 * c ∧
      (A 0 0 * a + A 1 1 * b + 2 * A 0 1 * c = 0 → a = 0 ∧ b = 0 ∧ c = 0) := by
  have h1 := metric_diag hA
  obtain ⟨h, h0, d⟩ := hA
  have d' : A 0 1 ^ 2 < A 0 0 * A 1 1 := by rw [← h] at d; nlinarith
  have p : 0 ≤ A 0 0 * a := mul_nonneg h0.le ha
  have q : 0 ≤ A 1 1 * b := mul_nonneg h1.le hb
  have r : A 0 1 ^ 2 * c ^ 2 ≤ (A 0 0 * A 1 1) * (a * b) :=
    mul_le_mul d'.le hc (sq_nonneg _) (by positivity)
  have s : (2 * A 0 1 * c) ^ 2 ≤ (A 0 0 * a + A 1 1 * b) ^ 2 := by
    nlinarith [sq_nonneg (A 0 0 * a - A 1 1 * b)]
  refine ⟨by have := (abs_le_of_sq_le_sq' s (by linarith)).1; linarith, fun e => ?_⟩
  have e2 : (A 0 0 * a + A 1 1 * b) ^ 2 = 4 * (A 0 1 ^ 2 * c ^ 2) := by
    have : A 0 0 * a + A 1 1 * b = -(2 * A 0 1 * c) := by linarith
    rw [this]; ring
  have hab : a * b = 0 := by
    by_contra hne
    have hpos : 0 < a * b := lt_of_le_of_ne (mul_nonneg ha hb) (Ne.symm hne)
    have r1 : A 0 1 ^ 2 * c ^ 2 ≤ A 0 1 ^ 2 * (a * b) := mul_le_mul_of_nonneg_left hc (sq_nonneg _)
    have r2 : A 0 1 ^ 2 * (a * b) < (A 0 0 * A 1 1) * (a * b) := mul_lt_mul_of_pos_right d' hpos
    nlinarith [sq_nonneg (A 0 0 * a - A 1 1 * b)]
  have c0 : c = 0 := by rw [hab] at hc; nlinarith
  rw [c0] at e
  have z0 : A 0 0 * a = 0 := by linarith
  have z1 : A 1 1 * b = 0 := by linarith
  exact ⟨(mul_eq_zero.1 z0).resolve_left h0.ne', (mul_eq_zero.1 z1).resolve_left h1.ne', c0⟩

/-- A symmetric matrix with principal values `lo ≤ hi` relative to a metric is semi-definite
exactly if `lo` is not negative. -/
theorem psd_principal {A : T2} (hA : Spec.PosDef.Metric A) {a b c lo hi k : ℝ} (hk : 0 < k)
    (hle : lo ≤ hi) (ht : A 0 0 * a + A 1 1 * b + 2 * A 0 1 * c = lo + hi)
    (hd : k * (a * b - c ^ 2) = lo * hi) : (0 ≤ a ∧ 0 ≤ b ∧ c ^ 2 ≤ a * b) ↔ 0 ≤ lo := by
  constructor
  · rintro ⟨ha, hb, hc⟩
    have t := (trace_nonneg hA ha hb hc).1
    have d : 0 ≤ lo * hi := by rw [← hd]; exact mul_nonneg hk.le (by linarith)
    by_contra hlo
    have hlo : lo < 0 := not_le.1 hlo
    have : hi ≤ 0 := by
      by_contra hh
      have := mul_neg_of_neg_of_pos hlo (not_le.1 hh)
      linarith
    linarith
  · intro hlo
    have d : 0 ≤ k * (a * b - c ^ 2) := by rw [hd]; exact mul_nonneg hlo (hlo.trans hle)
    have hc : c ^ 2 ≤ a * b := by
      have := nonneg_of_mul_nonneg_right d hk; linarith
    rcases le_or_gt 0 a with ha | ha
    · rcases le_or_gt 0 b with hb | hb
      · exact ⟨ha, hb, hc⟩
      · exfalso
        have a0 : a = 0 := by
          rcases ha.lt_or_eq with g | g
          · have := mul_neg_of_pos_of_neg g hb; nlinarith [sq_nonneg c]
          · exact g.symm
        subst a0
        have := (trace_nonneg hA (a := -0) (b := -b) (c := -c) (by norm_num) (by linarith)
          (by nlinarith))
        have h2 := this.2 (by linarith [this.1])
        linarith [h2.2.1]
    · exfalso
      have hb : b ≤ 0 := by
        by_contra hb
        have := mul_neg_of_neg_of_pos ha (not_le.1 hb)
        nlinarith [sq_nonneg c]
      have := (trace_nonneg hA (a := -a) (b := -b) (c := -c) (by linarith) (by linarith)
          (by nlinarith))
      have h2 := this.2 (by linarith [this.1])
      linarith [h2.1]

theorem tension_principal {A : T2} (hA : Spec.PosDef.Metric A) {S : Voigt} {lo hi : ℝ}
    (h : PrincipalStress A S lo hi) : NoCompression S ↔ 0 ≤ lo := by
  obtain ⟨hle, ht, hd⟩ := h
  rw [trace_stress A S hA.1] at ht
  rw [tension_iff]
  refine psd_principal hA (k := det2 A) hA.2.2 hle ht ?_
  rw [← hd]
  simp only [det2, stressTensor, Matrix.cons_val_zero, Matrix.cons_val_one]
  ring

theorem metric_inv {A : T2} (hA : Spec.PosDef.Metric A) : Spec.PosDef.Metric (inv2 A) := by
  have h1 := metric_diag hA
  obtain ⟨h, h0, d⟩ := hA
  have dd : 0 < det2 A := d
  refine ⟨?_, ?_, ?_⟩
  · simp only [inv2, Matrix.cons_val_zero, Matrix.cons_val_one, h]
  · simp only [inv2, Matrix.cons_val_zero]
    exact div_pos h1 dd
  · have e : inv2 A 0 0 * inv2 A 1 1 - inv2 A 0 1 * inv2 A 1 0 = 1 / det2 A := by
      simp only [inv2, Matrix.cons_val_zero, Matrix.cons_val_one]
      field_simp
      simp only [det2]
      ring
    rw [e]; positivity

theorem strain_principal {A : T2} (hA : Spec.PosDef.Metric A) {E : Voigt} {lo hi : ℝ}
    (h : PrincipalStrain A E lo hi) : (Lengthens (fun i => -E i) ↔ hi ≤ 0) ∧
      ((0 < -E 0 ∧ 0 < -E 1 ∧ E 2 ^ 2 < 4 * (E 0 * E 1)) → hi < 0) := by
  obtain ⟨hle, ht, hd⟩ := h
  have hi' := metric_inv hA
  have dd : 0 < det2 A := hA.2.2
  have e := trace_stress (inv2 A) (vec3 (-E 0) (-E 1) (-E 2 / 2)) hi'.1
  have ht' : inv2 A 0 0 * (-E 0) + inv2 A 1 1 * (-E 1) + 2 * inv2 A 0 1 * (-E 2 / 2)
      = -hi + -lo := by
    have e2 : (∑ i, ∑ j, inv2 A i j * strainTensor E j i)
        = inv2 A 0 0 * E 0 + inv2 A 1 1 * E 1 + 2 * inv2 A 0 1 * (E 2 / 2) := by
      have h01 := hi'.1
      simp only [strainTensor, Fin.sum_univ_two, Matrix.cons_val_zero, Matrix.cons_val_one, ← h01]
      ring
    rw [e2] at ht
    linarith
  have hd' : (1 / det2 A) * ((-E 0) * (-E 1) - (-E 2 / 2) ^ 2) = -hi * -lo := by
    have : det2 (strainTensor E) = E 0 * E 1 - (E 2 / 2) ^ 2 := by
      simp only [det2, strainTensor, Matrix.cons_val_zero, Matrix.cons_val_one]; ring
    rw [this] at hd
    rw [one_div, inv_mul_eq_iff_eq_mul₀ dd.ne']
    linear_combination hd
  have key := psd_principal hi' (k := 1 / det2 A) (by positivity) (by linarith : -hi ≤ -lo) ht' hd'
  refine ⟨?_, ?_⟩
  · rw [lengthens_iff]
    constructor
    · intro g; have := key.1 g; linarith
    · intro g; exact key.2 (by linarith)
  · rintro ⟨g0, g1, g2⟩
    have g3 := key.1 ⟨g0.le, g1.le, by nlinarith⟩
    rcases g3.lt_or_eq with g | g
    · linarith
    · exfalso
      rw [← g, zero_mul] at hd'
      have : 0 < 1 / det2 A := by positivity
      have := (mul_eq_zero.1 hd').resolve_left this.ne'
      nlinarith

/-! ## Energy -/

theorem energy_eq (C : T3) (E : Voigt) : energy C E = (1 / 2) * quad E C E := by
  rw [energy, quad_eq_sum]

/-- The convexity inequality between the relaxed states of two strains. -/
theorem below {C : T3} (hC : PosDef C) (hs : Symm C) {E T W : Voigt}
    (h : State C (mulVec3 C E) T W) (E' W' : Voigt) (hW' : Lengthens W') :
    energy C (fun i => E i + W i) + work T (fun i => E' i - E i)
      ≤ energy C (fun i => E' i + W' i) := by
  have l := law_eq h
  have a := work_nonneg h.tension hW'
  have b := h.idle
  have q := quad_nonneg hC (fun i => (E' i + W' i) - (E i + W i))
  have h1 := hs 1 0
  have h2 := hs 2 0
  have h3 := hs 2 1
  rw [energy_eq, energy_eq]
  rw [work_eq] at a b ⊢
  simp only [quad, dotV, mulVec3, Fin.sum_univ_three, l, h1, h2, h3] at *
  nlinarith

/-! ## Change of coordinates -/

theorem comp_pull (J : T2) (E : Voigt) (v : Fin 2 → ℝ) :
    comp (strainTensor (pull J E)) v v = comp (strainTensor E)
      (fun i => J i 0 * v 0 + J i 1 * v 1) (fun i => J i 0 * v 0 + J i 1 * v 1) := by
  simp only [comp, strainTensor, pull, Fin.sum_univ_two, Matrix.cons_val_zero,
    Matrix.cons_val_one, vec3_zero, vec3_one, vec3_two]
  ring

theorem lengthens_pull {J : T2} {W : Voigt} (h : Lengthens W) : Lengthens (pull J W) := by
  intro v; rw [comp_pull]; exact h _

theorem pull_inv (J : T2) (hJ : det2 J ≠ 0) (E : Voigt) : pull J (pull (inv2 J) E) = E := by
  obtain ⟨D, hD⟩ : ∃ D, D = det2 J := ⟨_, rfl⟩
  rw [← hD] at hJ
  have hD' : D = J 0 0 * J 1 1 - J 0 1 * J 1 0 := hD
  funext i
  rcases fin3_cases i with rfl | rfl | rfl <;>
  · simp only [comp, strainTensor, pull, Fin.sum_univ_two, Matrix.cons_val_zero,
      Matrix.cons_val_one, vec3_zero, vec3_one, vec3_two, inv2, ← hD]
    field_simp
    rw [hD']
    ring

theorem tension_transfer {J : T2} (hJ : det2 J ≠ 0) {S S' : Voigt} (h : SameStress J S S')
    (hS : NoCompression S) : NoCompression S' := by
  intro v
  have key := work_nonneg hS (lengthens_pull (J := inv2 J) (lengthens_sq v))
  rw [h, pull_inv J hJ, work_eq] at key
  rw [comp_stress]
  simp only [vec3_zero, vec3_one, vec3_two] at key
  linarith

theorem stress_ext {S S' : Voigt} (h : ∀ E, work S E = work S' E) : S = S' := by
  funext i
  have := h (fun j => if j = i then 1 else 0)
  simpa only [work, mul_ite, mul_one, mul_zero, Finset.sum_ite_eq', Finset.mem_univ, if_true]
    using this

theorem work_law (C : T3) (S W E : Voigt) :
    work (fun i => S i + ∑ j, C i j * W j) E = work S E + ∑ i, ∑ j, E i * C i j * W j := by
  simp only [work, Fin.sum_univ_three]; ring

theorem state_transfer {J : T2} (hJ : det2 J ≠ 0) {C C' : T3} (hC : SameStiffness J C C')
    {S S' : Voigt} (hS : SameStress J S S') {T W : Voigt} (h : State C S T W) :
    ∃ T', SameStress J T T' ∧ State C' S' T' (pull J W) := by
  have hT : T = fun i => S i + ∑ j, C i j * W j := funext h.law
  have same : SameStress J T (fun i => S' i + ∑ j, C' i j * pull J W j) := by
    intro E
    rw [hT, work_law, work_law, hS, hC]
  refine ⟨_, same, ⟨fun i => rfl, tension_transfer hJ same h.tension, lengthens_pull h.wrinkles, ?_⟩⟩
  rw [← same, h.idle]

end Verif.Relaxed
