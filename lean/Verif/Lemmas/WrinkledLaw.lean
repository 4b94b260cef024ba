import Verif.Spec.WrinkledTangent
import Verif.Lemmas.Wrinkled
import Verif.Lemmas.TFTSearch
import Mathlib.Analysis.Calculus.ImplicitContDiff

/-! # Helper lemmas: the derivative of the stress that wrinkling leaves -/

namespace Verif.Wrinkled

open V3 Verif.TFT Verif.Spec.Relaxed Verif.Geometry Verif.Variation Verif.ShellSystem Verif.Balance Spec.Wrinkled
open Filter Topology

/-! ## The slope of the searched function -/

theorem quad_cauchy {C : T3} (hC : TFT.PosDef C) (hs : Symm C) (u v : Voigt) :
    TFT.quad u C v ^ 2 ≤ TFT.quad u C u * TFT.quad v C v := by
  by_cases hv : v = 0
  · subst hv; simp [TFT.quad, dotV, mulVec3]
  have hq := Relaxed.quad_pos hC hv
  have h := Relaxed.quad_nonneg hC fun i => TFT.quad v C v * u i - TFT.quad u C v * v i
  have e : TFT.quad (fun i => TFT.quad v C v * u i - TFT.quad u C v * v i) C
      (fun i => TFT.quad v C v * u i - TFT.quad u C v * v i)
      = TFT.quad v C v * (TFT.quad u C u * TFT.quad v C v - TFT.quad u C v ^ 2) := by
    have hc := TFT.quad_comm C hs v u
    have ex : ∀ a b : ℝ, TFT.quad (fun i => a * u i - b * v i) C (fun i => a * u i - b * v i)
        = a ^ 2 * TFT.quad u C u - a * b * TFT.quad u C v - a * b * TFT.quad v C u + b ^ 2 * TFT.quad v C v := by
      intro a b
      simp only [TFT.quad, dotV, mulVec3, Fin.sum_univ_three]; ring
    rw [ex, hc]; ring
  rw [e] at h
  have := nonneg_of_mul_nonneg_right h hq
  linarith

/-- The slope of the searched function: the tension along the wrinkles and the stiffness in shear. -/
theorem dfdT_eq (θ : ℝ) (C : T3) (S : Voigt) : dfdT θ C S = dotV (n4 θ) (computeS θ C S)
    + 2 * gamma θ C S * (TFT.quad (n2 θ) C (n2 θ) - TFT.quad (n2 θ) C (n1 θ) ^ 2 / TFT.quad (n1 θ) C (n1 θ)) := by
  rw [TFT.dotV_computeS, dfdT, dgammadT, tmp]
  ring

theorem shear_nonneg {C : T3} (hC : TFT.PosDef C) (hs : Symm C) (θ : ℝ) :
    0 ≤ TFT.quad (n2 θ) C (n2 θ) - TFT.quad (n2 θ) C (n1 θ) ^ 2 / TFT.quad (n1 θ) C (n1 θ) := by
  have hq := Relaxed.quad_pos hC (Relaxed.n1_ne θ)
  rw [sub_nonneg, div_le_iff₀ hq]
  exact quad_cauchy hC hs _ _

theorem gamma_pos {C : T3} (hC : TFT.PosDef C) {θ : ℝ} {S : Voigt} (n : dotV (n1 θ) S < 0) : 0 < gamma θ C S :=
  div_pos (by linarith) (Relaxed.quad_pos hC (Relaxed.n1_ne θ))

theorem dfdT_pos {C : T3} (hC : TFT.PosDef C) (hs : Symm C) {θ : ℝ} {S : Voigt} (n : dotV (n1 θ) S < 0)
    (m : 0 < dotV (n4 θ) (computeS θ C S)) : 0 < dfdT θ C S := by
  rw [dfdT_eq]
  have := mul_nonneg (gamma_pos hC n).le (shear_nonneg hC hs θ)
  linarith

theorem hasDerivAt_objective {C : T3} (hC : TFT.PosDef C) (hs : Symm C) {S : Voigt} {θ : ℝ}
    (o : objective C S θ = 0) : HasDerivAt (objective C S) (dfdT θ C S) θ := by
  have hq := Relaxed.quad_pos hC (Relaxed.n1_ne θ)
  have hu := TFTSearch.hasDerivAt_u S θ
  have hqd := TFTSearch.hasDerivAt_q hs θ
  have hb : HasDerivAt (fun x => dotV (n2 x) S) (dotV (n4 θ) S - dotV (n1 θ) S) θ := by
    refine (hasDerivAt_dotV (u := n2) (v := fun _ => S) (fun i => hasDerivAt_n2 (hasDerivAt_id' θ) i)
      (fun i => hasDerivAt_const θ (S i))).congr_deriv ?_
    simp only [dotV, Fin.sum_univ_three]; ring
  have hg : HasDerivAt (fun x => TFT.quad (n2 x) C (n1 x)) (TFT.quad (n4 θ) C (n1 θ) - TFT.quad (n1 θ) C (n1 θ)
      + 2 * TFT.quad (n2 θ) C (n2 θ)) θ := by
    refine (hasDerivAt_quad (u := n2) (v := n1) (C := fun _ => C) (C' := 0)
      (fun i => hasDerivAt_n2 (hasDerivAt_id' θ) i) (fun i j => hasDerivAt_const θ (C i j))
      (fun i => hasDerivAt_n1 (hasDerivAt_id' θ) i)).congr_deriv ?_
    simp only [TFT.quad, dotV, mulVec3, Fin.sum_univ_three, Pi.zero_apply]; ring
  have hγ := hu.neg.div hqd hq.ne'
  have h := hb.add (hγ.mul hg)
  refine h.congr_deriv ?_
  have r : dotV (n2 θ) S = -(gamma θ C S * TFT.quad (n2 θ) C (n1 θ)) := by
    unfold objective at o; linarith
  have g : dotV (n1 θ) S = -(gamma θ C S * TFT.quad (n1 θ) C (n1 θ)) := by
    unfold gamma; field_simp
  simp only [Pi.neg_apply, Pi.div_apply]
  rw [r, g, dfdT, dgammadT, tmp]
  field_simp
  ring

/-! ## Smoothness -/

section
variable {V : Type} [NormedAddCommGroup V] [NormedSpace ℝ V] {x : V} {S : V → Voigt} {φ : V → ℝ}

theorem smooth_n1 (h : ContDiffAt ℝ 2 φ x) (i : Fin 3) : ContDiffAt ℝ 2 (fun y => n1 (φ y) i) x := by
  have c := h.cos
  have s := h.sin
  rcases fin3_cases i with rfl | rfl | rfl
  · exact c.mul c
  · exact s.mul s
  · exact (contDiffAt_const.mul c).mul s

theorem smooth_n2 (h : ContDiffAt ℝ 2 φ x) (i : Fin 3) : ContDiffAt ℝ 2 (fun y => n2 (φ y) i) x := by
  have c := h.cos
  have s := h.sin
  rcases fin3_cases i with rfl | rfl | rfl
  · exact s.neg.mul c
  · exact c.mul s
  · exact (s.neg.mul s).add (c.mul c)

theorem smooth_n4 (h : ContDiffAt ℝ 2 φ x) (i : Fin 3) : ContDiffAt ℝ 2 (fun y => n4 (φ y) i) x := by
  have c := h.cos
  have s := h.sin
  rcases fin3_cases i with rfl | rfl | rfl
  · exact s.neg.mul s.neg
  · exact c.mul c
  · exact (contDiffAt_const.mul s.neg).mul c

theorem smooth_dot {u v : V → Voigt} (hu : ∀ i, ContDiffAt ℝ 2 (fun y => u y i) x)
    (hv : ∀ i, ContDiffAt ℝ 2 (fun y => v y i) x) : ContDiffAt ℝ 2 (fun y => dotV (u y) (v y)) x := by
  unfold dotV
  exact ContDiffAt.sum fun i _ => (hu i).mul (hv i)

theorem smooth_mulVec (C : T3) {v : V → Voigt} (hv : ∀ i, ContDiffAt ℝ 2 (fun y => v y i) x) (i : Fin 3) :
    ContDiffAt ℝ 2 (fun y => mulVec3 C (v y) i) x := by
  unfold mulVec3
  exact ContDiffAt.sum fun k _ => contDiffAt_const.mul (hv k)

theorem smooth_gamma {C : T3} (hC : TFT.PosDef C) (h : ContDiffAt ℝ 2 φ x)
    (hS : ∀ i, ContDiffAt ℝ 2 (fun y => S y i) x) : ContDiffAt ℝ 2 (fun y => gamma (φ y) C (S y)) x :=
  (smooth_dot (smooth_n1 h) hS).neg.div (smooth_dot (smooth_n1 h) (smooth_mulVec C (smooth_n1 h)))
    (Relaxed.quad_pos hC (Relaxed.n1_ne _)).ne'

theorem smooth_objective {C : T3} (hC : TFT.PosDef C) (h : ContDiffAt ℝ 2 φ x)
    (hS : ∀ i, ContDiffAt ℝ 2 (fun y => S y i) x) : ContDiffAt ℝ 2 (fun y => objective C (S y) (φ y)) x :=
  (smooth_dot (smooth_n2 h) hS).add ((smooth_gamma hC h hS).mul
    (smooth_dot (smooth_n2 h) (smooth_mulVec C (smooth_n1 h))))

theorem smooth_computeS {C : T3} (hC : TFT.PosDef C) (h : ContDiffAt ℝ 2 φ x)
    (hS : ∀ i, ContDiffAt ℝ 2 (fun y => S y i) x) (i : Fin 3) :
    ContDiffAt ℝ 2 (fun y => computeS (φ y) C (S y) i) x :=
  (hS i).add (smooth_mulVec C (fun k => (smooth_gamma hC h hS).mul (smooth_n1 h k)) i)

end

/-! ## The angle as a function of the stress -/

theorem angle_near {C : T3} (hC : TFT.PosDef C) (hs : Symm C) {S : Voigt} {θ : ℝ} (o : objective C S θ = 0)
    (n : dotV (n1 θ) S < 0) (m : 0 < dotV (n4 θ) (computeS θ C S)) :
    ∃ φ : Voigt → ℝ, ContDiffAt ℝ 2 φ S ∧ φ S = θ ∧ ∀ᶠ S' in 𝓝 S, objective C S' (φ S') = 0 := by
  have hd := hasDerivAt_objective hC hs o
  have hg := dfdT_pos hC hs n m
  have hf : ContDiffAt ℝ 2 (fun z : Voigt × ℝ => objective C z.1 z.2) (S, θ) :=
    smooth_objective hC contDiffAt_snd fun i => (contDiffAt_pi.1 contDiffAt_fst) i
  have hinv : ((fderiv ℝ (fun z : Voigt × ℝ => objective C z.1 z.2) (S, θ)) ∘L .inr ℝ Voigt ℝ).IsInvertible := by
    have h1 := (hf.differentiableAt (by norm_num)).hasFDerivAt
    have hl : HasDerivAt (fun y : ℝ => ((S, y) : Voigt × ℝ)) ((0 : Voigt), (1 : ℝ)) θ :=
      (hasDerivAt_const _ _).prodMk (hasDerivAt_id' _)
    have hc := h1.comp_hasDerivAt θ hl
    have he := hc.unique hd
    refine ⟨ContinuousLinearEquiv.unitsEquivAut ℝ (Units.mk0 _ hg.ne'), ?_⟩
    ext
    simp only [ContinuousLinearEquiv.coe_coe, ContinuousLinearEquiv.unitsEquivAut_apply, Units.val_mk0, one_mul,
      ContinuousLinearMap.comp_apply, ContinuousLinearMap.inr_apply]
    exact he.symm
  refine ⟨hf.implicitFunction (by norm_num) hinv, hf.contDiffAt_implicitFunction (by norm_num) hinv,
    hf.implicitFunction_apply_self (by norm_num) hinv, ?_⟩
  filter_upwards [hf.eventually_apply_implicitFunction (by norm_num) hinv] with z hz
  simpa [o] using hz

/-! ## Wrinkled points -/

theorem lin_apply (D : T3) (d : Voigt) : lin D d = mulVec3 D d := rfl

theorem leaves_eq {C : T3} (hC : TFT.PosDef C) {T : Voigt → Voigt} (hT : Leaves C T) {E T' W : Voigt}
    (h : State C (mulVec3 C E) T' W) : T E = T' := by
  obtain ⟨W', h'⟩ := hT E
  exact (Relaxed.unique hC h' h).1

theorem exists_leaves {C : T3} (hC : TFT.PosDef C) (hs : Symm C) : ∃ T, Leaves C T := by
  choose T W h using fun E => Relaxed.exists_state hC hs (mulVec3 C E)
  exact ⟨T, fun E => ⟨W E, h E⟩⟩

/-- Along lines the stress changes by the matrix. -/
theorem wrinkled_line {C : T3} (hC : TFT.PosDef C) (hs : Symm C) {E d : Voigt} {θ : ℝ} {φ : Voigt → ℝ}
    (hφ : DifferentiableAt ℝ φ (mulVec3 C E)) (h0 : φ (mulVec3 C E) = θ)
    (ho : ∀ᶠ S' in 𝓝 (mulVec3 C E), objective C S' (φ S') = 0) (hf : dfdT θ C (mulVec3 C E) ≠ 0) (i : Fin 3) :
    HasDerivAt (fun s : ℝ => computeS (φ (mulVec3 C (E + s • d))) C (mulVec3 C (E + s • d)) i)
      (mulVec3 (computeCNl θ C (mulVec3 C E) fun _ _ _ => 0) d i) 0 := by
  classical
  have hline : HasDerivAt (fun s : ℝ => mulVec3 C (E + s • d)) (mulVec3 C d) 0 := by
    have h1 : HasDerivAt (fun s : ℝ => E + s • d) d 0 := by
      simpa using ((hasDerivAt_id' (0 : ℝ)).smul_const d).const_add E
    exact (lin C).hasFDerivAt.comp_hasDerivAt (0 : ℝ) h1
  have e0 : mulVec3 C (E + (0 : ℝ) • d) = mulVec3 C E := by simp
  have hang : HasDerivAt (fun s : ℝ => φ (mulVec3 C (E + s • d))) (fderiv ℝ φ (mulVec3 C E) (mulVec3 C d)) 0 := by
    have := hφ.hasFDerivAt
    rw [← e0] at this
    have := this.comp_hasDerivAt (0 : ℝ) hline
    rwa [e0] at this
  have hev : ∀ᶠ s : ℝ in 𝓝 0, objective C (mulVec3 C (E + s • d)) (φ (mulVec3 C (E + s • d))) = 0 := by
    have hc : Tendsto (fun s : ℝ => mulVec3 C (E + s • d)) (𝓝 0) (𝓝 (mulVec3 C E)) := by
      have := hline.continuousAt.tendsto
      rwa [e0] at this
    exact hc.eventually ho
  have o0 : objective C (mulVec3 C E) θ = 0 := by rw [← h0]; exact ho.self_of_nhds
  let ok : ℝ → Prop := fun s => objective C (mulVec3 C (E + s • d)) (φ (mulVec3 C (E + s • d))) = 0
  let S : ℝ → Voigt := fun s => if ok s then mulVec3 C (E + s • d) else mulVec3 C E
  let ψ : ℝ → ℝ := fun s => if ok s then φ (mulVec3 C (E + s • d)) else θ
  have hS : ∀ᶠ s in 𝓝 (0 : ℝ), S s = mulVec3 C (E + s • d) := hev.mono fun s h => if_pos h
  have hψ : ∀ᶠ s in 𝓝 (0 : ℝ), ψ s = φ (mulVec3 C (E + s • d)) := hev.mono fun s h => if_pos h
  have S0 : S 0 = mulVec3 C E := by rw [hS.self_of_nhds, e0]
  have ψ0 : ψ 0 = θ := by rw [hψ.self_of_nhds, e0, h0]
  let P : WrinklePath :=
    { S := S, C := fun _ => C, θ := ψ, d := d, dC := fun _ _ _ => 0, θ' := _
      hS := fun k => ((hasDerivAt_pi.1 hline k).congr_of_eventuallyEq (hS.mono fun s h => congrFun h k))
      hC := fun k l => by simpa using hasDerivAt_const (0 : ℝ) (C k l)
      hθ := hang.congr_of_eventuallyEq hψ
      root := fun s => by
        show objective C (S s) (ψ s) = 0
        by_cases h : ok s
        · simp only [S, ψ, if_pos h]; exact h
        · simp only [S, ψ, if_neg h]; exact o0
      symm := hs
      stiff := (Relaxed.quad_pos hC (Relaxed.n1_ne _)).ne' }
  have hv := P.velocity (by show dfdT (ψ 0) C (S 0) ≠ 0; rw [S0, ψ0]; exact hf) i
  have hv : HasDerivAt (fun s => computeS (ψ s) C (S s) i)
      (mulVec3 (trueTangent (ψ 0) C (S 0) fun _ _ _ => 0) d i) 0 := hv
  rw [S0, ψ0] at hv
  have e : (computeCNl θ C (mulVec3 C E) fun _ _ _ => 0) = trueTangent θ C (mulVec3 C E) fun _ _ _ => 0 := by
    funext k l; exact computeCNl_const θ C _ hs k l
  rw [e]
  refine hv.congr_of_eventuallyEq ?_
  filter_upwards [hS, hψ] with s a b
  rw [a, b]

/-- A wrinkled point: the stress is smooth, its derivative is the matrix of the general variant. -/
theorem wrinkled_law {C : T3} (hC : TFT.PosDef C) (hs : Symm C) {E : Voigt} {θ : ℝ}
    (o : objective C (mulVec3 C E) θ = 0) (n : dotV (n1 θ) (mulVec3 C E) < 0)
    (m : 0 < dotV (n4 θ) (computeS θ C (mulVec3 C E))) {T : Voigt → Voigt} (hT : Leaves C T) :
    ContDiffAt ℝ 2 T E ∧ HasFDerivAt T (lin (computeCNl θ C (mulVec3 C E) fun _ _ _ => 0)) E ∧
    ∀ᶠ E' in 𝓝 E, Regular C E' := by
  obtain ⟨φ, hφ, h0, ho⟩ := angle_near hC hs o n m
  have hlin : ContDiffAt ℝ 2 (fun E' : Voigt => mulVec3 C E') E := (lin C).contDiff.contDiffAt
  have hg : ContDiffAt ℝ 2 (fun E' => φ (mulVec3 C E')) E := hφ.comp E hlin
  have hk := contDiffAt_pi.1 hlin
  have hsm : ∀ i, ContDiffAt ℝ 2 (fun E' => computeS (φ (mulVec3 C E')) C (mulVec3 C E') i) E :=
    smooth_computeS hC hg hk
  have t1 : ∀ᶠ E' in 𝓝 E, objective C (mulVec3 C E') (φ (mulVec3 C E')) = 0 :=
    hlin.continuousAt.eventually ho
  have t2 : ∀ᶠ E' in 𝓝 E, dotV (n1 (φ (mulVec3 C E'))) (mulVec3 C E') < 0 :=
    (smooth_dot (smooth_n1 hg) hk).continuousAt.eventually_lt_const (by simpa only [h0] using n)
  have t3 : ∀ᶠ E' in 𝓝 E, 0 < dotV (n4 (φ (mulVec3 C E'))) (computeS (φ (mulVec3 C E')) C (mulVec3 C E')) :=
    (smooth_dot (smooth_n4 hg) hsm).continuousAt.eventually_const_lt (by simpa only [h0] using m)
  have hst : ∀ᶠ E' in 𝓝 E, State C (mulVec3 C E') (computeS (φ (mulVec3 C E')) C (mulVec3 C E'))
      (fun i => gamma (φ (mulVec3 C E')) C (mulVec3 C E') * n1 (φ (mulVec3 C E')) i) := by
    filter_upwards [t1, t2, t3] with E' a b c
    exact Relaxed.state_of_angle hC a b.le (by rw [TFT.comp_mm]; exact c.le)
  have heq : T =ᶠ[𝓝 E] fun E' => computeS (φ (mulVec3 C E')) C (mulVec3 C E') :=
    hst.mono fun E' h => leaves_eq hC hT h
  have hc : ContDiffAt ℝ 2 (fun E' => computeS (φ (mulVec3 C E')) C (mulVec3 C E')) E := contDiffAt_pi.2 hsm
  refine ⟨hc.congr_of_eventuallyEq heq, ?_, ?_⟩
  · have hd := (hc.differentiableAt (by norm_num)).hasFDerivAt
    refine HasFDerivAt.congr_of_eventuallyEq (hd.congr_fderiv ?_) heq
    ext d i
    have h1 : HasDerivAt (fun s : ℝ => E + s • d) d 0 := by
      simpa using ((hasDerivAt_id' (0 : ℝ)).smul_const d).const_add E
    have hd' := hd
    rw [show E = E + (0 : ℝ) • d by simp] at hd'
    have h2 := hasDerivAt_pi.1 (hd'.comp_hasDerivAt (0 : ℝ) h1) i
    have h3 := wrinkled_line hC hs (d := d) (hφ.differentiableAt (by norm_num)) h0 ho (dfdT_pos hC hs n m).ne' i
    have := h2.unique h3
    simp only [zero_smul, add_zero] at this
    exact this
  · filter_upwards [hst, t2, t3] with E' a b c
    refine ⟨_, _, a, Or.inr (Or.inl ⟨fun h => ?_, fun h => ?_⟩)⟩
    · rw [h] at c
      simp [dotV] at c
    · have hγ := gamma_pos hC b
      refine Relaxed.n1_ne (φ (mulVec3 C E')) (funext fun i => ?_)
      have := congrFun h i
      simp only [Pi.zero_apply] at this ⊢
      exact (mul_eq_zero.1 this).resolve_left hγ.ne'

/-! ## Taut and slack points -/

theorem pd_iff (a b c : ℝ) : (∀ v : Fin 2 → ℝ, v ≠ 0 → 0 < a * v 0 ^ 2 + b * v 1 ^ 2 + 2 * c * v 0 * v 1)
    ↔ 0 < a ∧ c ^ 2 < a * b := by
  constructor
  · intro h
    have h0 := h ![1, 0] (fun e => by simpa using congrFun e 0)
    simp at h0
    refine ⟨h0, ?_⟩
    have h1 := h ![-c, a] (fun e => h0.ne' (by simpa using congrFun e 1))
    simp at h1
    have : 0 < a * (a * b - c ^ 2) := by nlinarith
    have := (mul_pos_iff_of_pos_left h0).1 this
    linarith
  · rintro ⟨h1, h2⟩ v hv
    have e : a * (a * v 0 ^ 2 + b * v 1 ^ 2 + 2 * c * v 0 * v 1)
        = (a * v 0 + c * v 1) ^ 2 + (a * b - c ^ 2) * v 1 ^ 2 := by ring
    have hp : 0 < a * (a * v 0 ^ 2 + b * v 1 ^ 2 + 2 * c * v 0 * v 1) := by
      rw [e]
      by_cases h : v 1 = 0
      · have h0 : v 0 ≠ 0 := fun h0 => hv (funext fun i => by rcases fin2_cases i with rfl | rfl <;> simp [h, h0])
        rw [h]
        have : 0 < (a * v 0) ^ 2 := by positivity
        nlinarith
      · have := mul_pos (sub_pos.2 h2) (pow_pos (abs_pos.2 h) 2)
        rw [sq_abs] at this
        nlinarith [sq_nonneg (a * v 0 + c * v 1)]
    exact (mul_pos_iff_of_pos_left h1).1 hp

theorem taut_iff (T : Voigt) : Taut T ↔ 0 < T 0 ∧ T 2 ^ 2 < T 0 * T 1 := by
  rw [← pd_iff]
  simp only [Taut, Relaxed.comp_stress]

/-- The strain lengthens every direction. -/
def Longer (W : Voigt) : Prop := ∀ v : Fin 2 → ℝ, v ≠ 0 → 0 < TFT.comp (strainTensor W) v v

theorem longer_iff (W : Voigt) : Longer W ↔ 0 < W 0 ∧ (W 2 / 2) ^ 2 < W 0 * W 1 := by
  rw [← pd_iff]
  simp only [Longer, Relaxed.comp_strain]
  refine forall_congr' fun v => ?_
  rw [show W 0 * v 0 ^ 2 + W 1 * v 1 ^ 2 + W 2 * v 0 * v 1
    = W 0 * v 0 ^ 2 + W 1 * v 1 ^ 2 + 2 * (W 2 / 2) * v 0 * v 1 by ring]

theorem taut_state {C : T3} {E : Voigt} (h : Taut (mulVec3 C E)) : State C (mulVec3 C E) (mulVec3 C E) 0 := by
  refine ⟨fun i => by simp, ?_, ?_, by simp [work]⟩
  · intro v
    by_cases hv : v = 0
    · subst hv; rw [Relaxed.comp_stress]; simp
    · exact (h v hv).le
  · rw [Relaxed.lengthens_iff]; simp

theorem slack_state {C : T3} {E : Voigt} (h : Longer fun i => -E i) : State C (mulVec3 C E) 0 fun i => -E i := by
  refine ⟨fun i => ?_, ?_, ?_, by simp [work]⟩
  · simp only [mulVec3, Fin.sum_univ_three, Pi.zero_apply]; ring
  · rw [Relaxed.tension_iff]; simp
  · intro v
    by_cases hv : v = 0
    · subst hv; rw [Relaxed.comp_strain]; simp
    · exact (h v hv).le

theorem taut_near {C : T3} {E : Voigt} (h : Taut (mulVec3 C E)) : ∀ᶠ E' in 𝓝 E, Taut (mulVec3 C E') := by
  have hc : ∀ i, Continuous fun E' : Voigt => mulVec3 C E' i := fun i =>
    (continuous_apply i).comp (lin C).continuous
  obtain ⟨h1, h2⟩ := (taut_iff _).1 h
  filter_upwards [(hc 0).continuousAt.eventually_const_lt h1,
    (((hc 2).pow 2).continuousAt).eventually_lt ((hc 0).mul (hc 1)).continuousAt h2] with E' a b
  exact (taut_iff _).2 ⟨a, b⟩

theorem slack_near {E : Voigt} (h : Longer fun i => -E i) : ∀ᶠ E' : Voigt in 𝓝 E, Longer fun i => -E' i := by
  have hc : ∀ i, Continuous fun E' : Voigt => -E' i := fun i => (continuous_apply i).neg
  obtain ⟨h1, h2⟩ := (longer_iff _).1 h
  filter_upwards [(hc 0).continuousAt.eventually_const_lt h1,
    ((((hc 2).div_const 2).pow 2).continuousAt).eventually_lt ((hc 0).mul (hc 1)).continuousAt h2] with E' a b
  exact (longer_iff _).2 ⟨a, b⟩

theorem taut_law {C : T3} (hC : TFT.PosDef C) {E : Voigt} (h : Taut (mulVec3 C E)) {T : Voigt → Voigt}
    (hT : Leaves C T) : ContDiffAt ℝ 2 T E ∧ HasFDerivAt T (lin C) E ∧ ∀ᶠ E' in 𝓝 E, Regular C E' := by
  have heq : T =ᶠ[𝓝 E] fun E' => lin C E' := (taut_near h).mono fun E' h' => leaves_eq hC hT (taut_state h')
  exact ⟨(lin C).contDiff.contDiffAt.congr_of_eventuallyEq heq, (lin C).hasFDerivAt.congr_of_eventuallyEq heq,
    (taut_near h).mono fun E' h' => ⟨_, _, taut_state h', Or.inl h'⟩⟩

theorem slack_law {C : T3} (hC : TFT.PosDef C) {E : Voigt} (h : Longer fun i => -E i) {T : Voigt → Voigt}
    (hT : Leaves C T) : ContDiffAt ℝ 2 T E ∧ HasFDerivAt T (lin fun _ _ => 0) E ∧ ∀ᶠ E' in 𝓝 E, Regular C E' := by
  have heq : T =ᶠ[𝓝 E] fun _ => 0 := (slack_near h).mono fun E' h' => leaves_eq hC hT (slack_state h')
  refine ⟨contDiffAt_const.congr_of_eventuallyEq heq, ?_, (slack_near h).mono fun E' h' =>
    ⟨_, _, slack_state h', Or.inr (Or.inr h')⟩⟩
  refine ((hasFDerivAt_const _ _).congr_of_eventuallyEq heq).congr_fderiv ?_
  ext d i
  simp [lin_apply, mulVec3]

end Verif.Wrinkled
