import Mathlib.Analysis.Calculus.Deriv.MeanValue
import Mathlib.Analysis.SpecialFunctions.Trigonometric.Bounds
import Verif.Model.TFTSearch
import Verif.Lemmas.RootFind
import Verif.Lemmas.TFTTangent
import Verif.Lemmas.RelaxedWitness

/-! # Helper lemmas: the search for the wrinkling angle -/

namespace Verif.TFTSearch

open Verif.TFT Verif.RootFind Verif.Relaxed Verif.Spec.Relaxed

/-! ## The searched function -/

theorem hasDerivAt_u (S : Voigt) (x : ℝ) :
    HasDerivAt (fun θ => dotV (n1 θ) S) (2 * dotV (n2 x) S) x := by
  have h := hasDerivAt_dotV (u := n1) (v := fun _ => S) (u' := fun i => 2 * 1 * n2 x i)
    (v' := 0) (x := x) (fun i => hasDerivAt_n1 (hasDerivAt_id' x) i)
    (fun i => hasDerivAt_const x (S i))
  refine h.congr_deriv ?_
  simp only [dotV, Fin.sum_univ_three, Pi.zero_apply]
  ring

theorem hasDerivAt_q {C : T3} (hs : Symm C) (x : ℝ) :
    HasDerivAt (fun θ => quad (n1 θ) C (n1 θ)) (4 * quad (n2 x) C (n1 x)) x := by
  have h := hasDerivAt_quad (u := n1) (v := n1) (C := fun _ => C) (u' := fun i => 2 * 1 * n2 x i)
    (v' := fun i => 2 * 1 * n2 x i) (C' := 0) (x := x)
    (fun i => hasDerivAt_n1 (hasDerivAt_id' x) i) (fun i j => hasDerivAt_const x (C i j))
    (fun i => hasDerivAt_n1 (hasDerivAt_id' x) i)
  refine h.congr_deriv ?_
  rw [quad_smul_left, quad_smul_right, quad_comm C hs (n1 x) (n2 x)]
  simp only [quad, dotV, mulVec3, Fin.sum_univ_three, Pi.zero_apply]
  ring

theorem continuous_n1 (i : Fin 3) : Continuous fun θ => n1 θ i := by
  rcases fin3_cases i with rfl | rfl | rfl <;>
  · simp only [n1, vec3_zero, vec3_one, vec3_two]; fun_prop

theorem continuous_n2 (i : Fin 3) : Continuous fun θ => n2 θ i := by
  rcases fin3_cases i with rfl | rfl | rfl <;>
  · simp only [n2, vec3_zero, vec3_one, vec3_two]; fun_prop

theorem continuous_u (S : Voigt) : Continuous fun θ => dotV (n1 θ) S := by
  have h := continuous_n1
  simp only [dotV, Fin.sum_univ_three]
  exact (((h 0).mul continuous_const).add ((h 1).mul continuous_const)).add
    ((h 2).mul continuous_const)

theorem continuous_quad {u v : ℝ → Voigt} (hu : ∀ i, Continuous fun t => u t i)
    (hv : ∀ i, Continuous fun t => v t i) (C : T3) : Continuous fun t => quad (u t) C (v t) := by
  have a := hu 0
  have b := hu 1
  have c := hu 2
  have d := hv 0
  have e := hv 1
  have f := hv 2
  simp only [quad, dotV, mulVec3, Fin.sum_univ_three]
  fun_prop

theorem continuous_gamma {C : T3} (hC : PosDef C) (S : Voigt) : Continuous fun θ => gamma θ C S := by
  unfold gamma
  exact (continuous_u S).neg.div (continuous_quad continuous_n1 continuous_n1 C)
    fun θ => (quad_pos hC (n1_ne θ)).ne'

theorem continuous_objective {C : T3} (hC : PosDef C) (S : Voigt) : Continuous (objective C S) := by
  have h : Continuous fun θ => dotV (n2 θ) S := by
    have h := continuous_n2
    simp only [dotV, Fin.sum_univ_three]
    exact (((h 0).mul continuous_const).add ((h 1).mul continuous_const)).add
      ((h 2).mul continuous_const)
  exact h.add ((continuous_gamma hC S).mul (continuous_quad continuous_n2 continuous_n1 C))

/-- The potential along the angles. -/
noncomputable def along (C : T3) (S : Voigt) (θ : ℝ) : ℝ :=
  -(dotV (n1 θ) S) ^ 2 / (2 * quad (n1 θ) C (n1 θ))

theorem along_eq {C : T3} (hC : PosDef C) (S : Voigt) (θ : ℝ) :
    along C S θ = pot C S (fun i => gamma θ C S * n1 θ i) := by
  have hq := quad_pos hC (n1_ne θ)
  have e : pot C S (fun i => gamma θ C S * n1 θ i)
      = (1 / 2) * gamma θ C S ^ 2 * quad (n1 θ) C (n1 θ) + gamma θ C S * dotV (n1 θ) S := by
    rw [pot, quad_smul_left, quad_smul_right]
    simp only [work, dotV, Fin.sum_univ_three]
    ring
  rw [e, along, gamma]
  field_simp
  ring

theorem hasDerivAt_along {C : T3} (hC : PosDef C) (hs : Symm C) (S : Voigt) (x : ℝ) :
    HasDerivAt (along C S) (2 * gamma x C S * objective C S x) x := by
  have hq := quad_pos hC (n1_ne x)
  have h := ((hasDerivAt_u S x).fun_pow 2).fun_neg.fun_div ((hasDerivAt_q hs x).const_mul 2)
    (by positivity)
  refine h.congr_deriv ?_
  rw [objective, gamma]
  field_simp
  ring

/-- The state without compression minimises the potential. -/
theorem pot_min {C : T3} (hC : PosDef C) (hs : Symm C) {S T W V : Voigt} (h : State C S T W)
    (hV : Lengthens V) : pot C S W ≤ pot C S V := by
  have l := law_eq h
  have a := work_nonneg h.tension hV
  have b := h.idle
  have q := quad_nonneg hC (fun i => V i - W i)
  have h1 := hs 1 0
  have h2 := hs 2 0
  have h3 := hs 2 1
  simp only [pot]
  rw [work_eq] at a b ⊢
  rw [work_eq]
  simp only [quad, dotV, mulVec3, Fin.sum_univ_three, l, h1, h2, h3] at *
  nlinarith

/-- The searched function changes from negative to positive at an angle of the state. -/
theorem upward {C : T3} (hC : PosDef C) (hs : Symm C) {S : Voigt} {θ : ℝ}
    (o : objective C S θ = 0) (n : dotV (n1 θ) S < 0)
    (m : 0 ≤ comp (stressTensor (computeS θ C S)) (dirM θ) (dirM θ)) {a b : ℝ} (ha : a < θ)
    (hb : θ < b) (only : ∀ x ∈ Set.Icc a b, objective C S x = 0 → x = θ) :
    objective C S a < 0 ∧ 0 < objective C S b := by
  have hst := state_of_angle hC o n.le m
  have hcont := continuous_objective hC S
  have hγ : ∀ᶠ x in nhds θ, 0 < gamma x C S := by
    have : 0 < gamma θ C S := div_pos (by linarith) (quad_pos hC (n1_ne θ))
    exact (continuous_gamma hC S).continuousAt.eventually (lt_mem_nhds this)
  obtain ⟨r, hr, hball⟩ := Metric.eventually_nhds_iff.1 hγ
  have hmin : ∀ x, 0 < gamma x C S → along C S θ ≤ along C S x := by
    intro x hx
    rw [along_eq hC, along_eq hC]
    exact pot_min hC hs hst (lengthens_n1 x _ hx.le)
  have hdiff : ∀ x, HasDerivAt (along C S) (2 * gamma x C S * objective C S x) x :=
    hasDerivAt_along hC hs S
  have hac : Continuous (along C S) := continuous_iff_continuousAt.2 fun x => (hdiff x).continuousAt
  constructor
  · by_contra hna
    have ha0 : objective C S a ≠ 0 := fun e => ha.ne (only a ⟨le_refl a, (ha.trans hb).le⟩ e)
    have hpa : 0 < objective C S a := lt_of_le_of_ne (not_lt.1 hna) (Ne.symm ha0)
    have hpos : ∀ x, a ≤ x → x < θ → 0 < objective C S x := by
      intro x hx hxθ
      by_contra hneg
      obtain ⟨z, hz, ez⟩ := intermediate_value_Icc' hx hcont.continuousOn
        ⟨not_lt.1 hneg, hpa.le⟩
      have := only z ⟨hz.1, hz.2.trans (hxθ.trans hb).le⟩ ez
      linarith [hz.2]
    set c := max a (θ - r / 2)
    have hc : c < θ := max_lt ha (by linarith)
    have hcr : ∀ x, c ≤ x → x < θ → 0 < gamma x C S := by
      intro x hx hxθ
      refine hball ?_
      rw [Real.dist_eq, abs_lt]
      have := le_max_right a (θ - r / 2)
      constructor <;> linarith
    have hmono : StrictMonoOn (along C S) (Set.Icc c θ) := by
      refine strictMonoOn_of_deriv_pos (convex_Icc c θ) hac.continuousOn fun x hx => ?_
      rw [interior_Icc] at hx
      rw [(hdiff x).deriv]
      have := mul_pos (hcr x hx.1.le hx.2) (hpos x ((le_max_left _ _).trans hx.1.le) hx.2)
      linarith
    have h1 := hmono ⟨le_refl c, hc.le⟩ ⟨hc.le, le_refl θ⟩ hc
    have h2 := hmin c (hcr c (le_refl c) hc)
    linarith
  · by_contra hnb
    have hb0 : objective C S b ≠ 0 := fun e => hb.ne' (only b ⟨(ha.trans hb).le, le_refl b⟩ e)
    have hpb : objective C S b < 0 := lt_of_le_of_ne (not_lt.1 hnb) hb0
    have hneg : ∀ x, θ < x → x ≤ b → objective C S x < 0 := by
      intro x hxθ hx
      by_contra hge
      obtain ⟨z, hz, ez⟩ := intermediate_value_Icc' hx hcont.continuousOn
        ⟨hpb.le, not_lt.1 hge⟩
      have := only z ⟨(ha.trans hxθ).le.trans hz.1, hz.2⟩ ez
      linarith [hz.1]
    set c := min b (θ + r / 2)
    have hc : θ < c := lt_min hb (by linarith)
    have hcr : ∀ x, θ < x → x ≤ c → 0 < gamma x C S := by
      intro x hxθ hx
      refine hball ?_
      rw [Real.dist_eq, abs_lt]
      have := min_le_right b (θ + r / 2)
      constructor <;> linarith
    have hmono : StrictAntiOn (along C S) (Set.Icc θ c) := by
      refine strictAntiOn_of_deriv_neg (convex_Icc θ c) hac.continuousOn fun x hx => ?_
      rw [interior_Icc] at hx
      rw [(hdiff x).deriv]
      have := mul_pos (hcr x hx.1 hx.2.le)
        (neg_pos.2 (hneg x hx.1 (hx.2.le.trans (min_le_left _ _))))
      linarith
    have h1 := hmono ⟨le_refl θ, hc.le⟩ ⟨hc.le, le_refl c⟩ hc
    have h2 := hmin c (hcr c hc (le_refl c))
    linarith

/-! ## The list of candidates -/

theorem roots_mem (eps : ℝ) (newton : (ℝ → ℝ) → ℝ → ℝ) (f : ℝ → ℝ) (is : List ℕ) (l : List ℝ)
    (h : roots eps newton f is = .ok l) (i : ℕ) (hi : i ∈ is) :
    ∃ x ∈ l, rootOf eps newton f (sample i) (sample (i + 1)) = .ok x := by
  induction is generalizing l with
  | nil => simp at hi
  | cons j js ih =>
    simp only [roots] at h
    rcases hr : rootOf eps newton f (sample j) (sample (j + 1)) with x | _ | _
    · rw [hr] at h
      simp only [Outcome.bind] at h
      rcases hl : roots eps newton f js with l' | _ | _
      · rw [hl] at h
        have h := Outcome.ok.inj h
        subst h
        rcases List.mem_cons.1 hi with e | e
        · subst e
          exact ⟨x, List.mem_cons_self .., hr⟩
        · obtain ⟨y, hy, e⟩ := ih l' hl e
          exact ⟨y, List.mem_cons_of_mem _ hy, e⟩
      · rw [hl] at h; simp at h
      · rw [hl] at h; simp at h
    · rw [hr] at h; simp [Outcome.bind] at h
    · rw [hr] at h; simp [Outcome.bind] at h

theorem candidates_mem (eps : ℝ) (newton : (ℝ → ℝ) → ℝ → ℝ) (f : ℝ → ℝ) (l : List ℝ)
    (h : candidates eps newton f = .ok l) (i : ℕ) (hi : i < 50)
    (hf : f (sample i) * f (sample (i + 1)) < 0) :
    ∃ x ∈ l, rootOf eps newton f (sample i) (sample (i + 1)) = .ok x := by
  classical
  unfold candidates at h
  rcases hr : roots eps newton f (brackets f) with l' | _ | _
  · rw [hr] at h
    have h := Outcome.ok.inj h
    subst h
    obtain ⟨x, hx, e⟩ := roots_mem eps newton f _ l' hr i (by
      unfold brackets
      rw [List.mem_filter]
      exact ⟨List.mem_range.2 hi, by simpa using hf⟩)
    exact ⟨x, List.mem_append_left _ hx, e⟩
  · rw [hr] at h; simp [Outcome.bind] at h
  · rw [hr] at h; simp [Outcome.bind] at h

theorem sample_lt (i : ℕ) : sample i < sample (i + 1) := by
  unfold sample
  push_cast
  have := Real.pi_pos
  nlinarith

/-- The searched function has period π. -/
theorem objective_pi (C : T3) (S : Voigt) (θ : ℝ) : objective C S (θ + Real.pi) = objective C S θ := by
  have h1 : n1 (θ + Real.pi) = n1 θ := by
    simp only [n1, Real.cos_add_pi, Real.sin_add_pi]
    congr 1 <;> ring
  have h2 : n2 (θ + Real.pi) = n2 θ := by
    simp only [n2, Real.cos_add_pi, Real.sin_add_pi]
    congr 1 <;> ring
  simp only [objective, gamma, h1, h2]

/-- For a definite stress the interval is empty. -/
theorem interval_definite (C : T3) (N E : Voigt) (h : N 2 * N 2 ≤ N 0 * N 1) :
    thetaInterval C N E = (0, 0) := by
  have hz : Real.sqrt (N 2 * N 2 - N 0 * N 1) = 0 := Real.sqrt_eq_zero_of_nonpos (by linarith)
  unfold thetaInterval
  simp only [hz, neg_zero, lt_irrefl, if_false, gt_iff_lt]

/-! ## Outcomes -/

theorem rootOf_safe (eps : ℝ) (newton : (ℝ → ℝ) → ℝ → ℝ) (f : ℝ → ℝ) (a b : ℝ) :
    rootOf eps newton f a b ≠ .ub := by
  unfold rootOf
  rcases hb : brent f eps a b 1e-18 1000 with r | _ | _
  · rcases r with _ | x
    · simp only [Outcome.bind]
      split_ifs <;> simp
    · simp [Outcome.bind]
  · simp [Outcome.bind]
  · exfalso
    unfold brent at hb
    split_ifs at hb
    rcases hl : brentLoop f eps 1e-18 1000 (brentInit f a b) with y | _ | _
    · rw [hl] at hb; simp [Outcome.map] at hb
    · rw [hl] at hb; simp [Outcome.map] at hb
    · exact brentLoop_safe f eps _ _ _ hl

theorem roots_safe (eps : ℝ) (newton : (ℝ → ℝ) → ℝ → ℝ) (f : ℝ → ℝ) (is : List ℕ) :
    roots eps newton f is ≠ .ub := by
  induction is with
  | nil => simp [roots]
  | cons i is ih =>
    simp only [roots]
    rcases hr : rootOf eps newton f (sample i) (sample (i + 1)) with x | _ | _
    · simp only [Outcome.bind]
      rcases hl : roots eps newton f is with l | _ | _
      · simp
      · simp
      · exact absurd hl ih
    · simp [Outcome.bind]
    · exact absurd hr (rootOf_safe eps newton f _ _)

theorem candidates_safe (eps : ℝ) (newton : (ℝ → ℝ) → ℝ → ℝ) (f : ℝ → ℝ) :
    candidates eps newton f ≠ .ub := by
  unfold candidates
  rcases hr : roots eps newton f (brackets f) with l | _ | _
  · simp [Outcome.bind]
  · simp [Outcome.bind]
  · exact absurd hr (roots_safe eps newton f _)

theorem scan_ok {eps : ℝ} {newton : (ℝ → ℝ) → ℝ → ℝ} {p : Pt} {θ : ℝ}
    (h : scan eps newton p = .ok θ) : ∃ l, candidates eps newton (objective p.C p.N) = .ok l ∧
      ((θ ∈ l ∧ checkTheta θ p.N p.E) ∨ (θ = 0 ∧ ∀ x ∈ l, ¬ checkTheta x p.N p.E)) := by
  classical
  unfold scan at h
  rcases hc : candidates eps newton (objective p.C p.N) with l | _ | _
  · rw [hc] at h
    have h := Outcome.ok.inj h
    refine ⟨l, rfl, ?_⟩
    rcases hf : l.find? (fun θ => decide (checkTheta θ p.N p.E)) with _ | y
    · right
      rw [hf] at h
      refine ⟨h.symm, fun x hx => ?_⟩
      simpa using List.find?_eq_none.1 hf x hx
    · left
      rw [hf] at h
      have h : y = θ := h
      subst h
      exact ⟨List.mem_of_find?_eq_some hf, by simpa using List.find?_some hf⟩
  · rw [hc] at h; simp [Outcome.bind] at h
  · rw [hc] at h; simp [Outcome.bind] at h

/-- The root of an interval whose ends are negative and positive. -/
theorem rootOf_upward {eps : ℝ} {newton : (ℝ → ℝ) → ℝ → ℝ} {f : ℝ → ℝ} (hf : Continuous f)
    (he : 0 ≤ eps) {a b x : ℝ} (hab : a ≤ b) (ha : f a < 0) (hb : 0 < f b)
    (h : rootOf eps newton f a b = .ok x) :
    ∃ z ∈ Set.Icc a b, f z = 0 ∧ |z - x| ≤ 2 * (2 * eps * |x| + 1e-18) := by
  have hx : brent f eps a b 1e-18 1000 = .ok (some x) := by
    unfold rootOf at h
    rcases hbr : brent f eps a b 1e-18 1000 with r | _ | _
    · rcases r with _ | y
      · exfalso
        unfold brent at hbr
        rw [if_neg (not_le.2 (mul_neg_of_neg_of_pos ha hb))] at hbr
        rcases hl : brentLoop f eps 1e-18 1000 (brentInit f a b) with y | _ | _ <;>
        · rw [hl] at hbr; simp [Outcome.map] at hbr
      · rw [hbr] at h
        have h : y = x := Outcome.ok.inj h
        rw [h]
    · rw [hbr] at h; simp [Outcome.bind] at h
    · rw [hbr] at h; simp [Outcome.bind] at h
  obtain ⟨_, z, hz, h0, e⟩ := brent_increasing f hf eps a b 1e-18 1000 he (by norm_num) hab ha hb x hx
  refine ⟨z, hz, h0, ?_⟩
  rcases e with e | e
  · rw [e, sub_self, abs_zero]; positivity
  · exact e

/-- The candidates contain an approximation of the angle of the state. -/
theorem found {C : T3} (hC : PosDef C) (hs : Symm C) {S : Voigt} {θ : ℝ}
    (o : objective C S θ = 0) (n : dotV (n1 θ) S < 0)
    (m : 0 ≤ comp (stressTensor (computeS θ C S)) (dirM θ) (dirM θ)) {i : ℕ} (hi : i < 50)
    (ha : sample i < θ) (hb : θ < sample (i + 1))
    (only : ∀ x ∈ Set.Icc (sample i) (sample (i + 1)), objective C S x = 0 → x = θ)
    {eps : ℝ} {newton : (ℝ → ℝ) → ℝ → ℝ} (he : 0 ≤ eps) {l : List ℝ}
    (h : candidates eps newton (objective C S) = .ok l) :
    ∃ x ∈ l, |θ - x| ≤ 2 * (2 * eps * |x| + 1e-18) := by
  obtain ⟨fa, fb⟩ := upward hC hs o n m ha hb only
  obtain ⟨x, hx, e⟩ := candidates_mem eps newton _ l h i hi (mul_neg_of_neg_of_pos fa fb)
  obtain ⟨z, hz, h0, d⟩ := rootOf_upward (continuous_objective hC S) he (sample_lt i).le fa fb e
  rw [only z hz h0] at d
  exact ⟨x, hx, d⟩

/-! ## The isotropic material in orthonormal coordinates -/

theorem iso_only {c m : ℝ} (hm : 0 < m) (hc : 0 < c + m) (E : Voigt) {θ x : ℝ}
    (o : objective (mk3 (c + 2 * m) c 0 c (c + 2 * m) 0 0 0 m)
      (mulVec3 (mk3 (c + 2 * m) c 0 c (c + 2 * m) 0 0 0 m) E) θ = 0)
    (n : dotV (n1 θ) (mulVec3 (mk3 (c + 2 * m) c 0 c (c + 2 * m) 0 0 0 m) E) < 0)
    (t : 0 ≤ comp (stressTensor (computeS θ (mk3 (c + 2 * m) c 0 c (c + 2 * m) 0 0 0 m)
      (mulVec3 (mk3 (c + 2 * m) c 0 c (c + 2 * m) 0 0 0 m) E))) (dirM θ) (dirM θ))
    (ox : objective (mk3 (c + 2 * m) c 0 c (c + 2 * m) 0 0 0 m)
      (mulVec3 (mk3 (c + 2 * m) c 0 c (c + 2 * m) 0 0 0 m) E) x = 0)
    (hd : |x - θ| ≤ Real.pi / 50) : x = θ := by
  rw [iso_objective] at o ox
  have o1 : (E 1 - E 0) * Real.cos θ * Real.sin θ
      + E 2 / 2 * (Real.cos θ ^ 2 - Real.sin θ ^ 2) = 0 :=
    (mul_eq_zero.1 o).resolve_left (by positivity)
  have o2 : (E 1 - E 0) * Real.cos x * Real.sin x
      + E 2 / 2 * (Real.cos x ^ 2 - Real.sin x ^ 2) = 0 :=
    (mul_eq_zero.1 ox).resolve_left (by positivity)
  have p1 : (E 1 - E 0) * Real.sin (2 * θ) + E 2 * Real.cos (2 * θ) = 0 := by
    rw [Real.sin_two_mul, Real.cos_two_mul']
    linear_combination 2 * o1
  have p2 : (E 1 - E 0) * Real.sin (2 * x) + E 2 * Real.cos (2 * x) = 0 := by
    rw [Real.sin_two_mul, Real.cos_two_mul']
    linear_combination 2 * o2
  have hcs := Real.cos_sq_add_sin_sq θ
  have hne : ¬ (E 1 - E 0 = 0 ∧ E 2 = 0) := by
    rintro ⟨h0, h2⟩
    have h1 : E 1 = E 0 := by linarith
    have q1 : quad (n1 θ) (mk3 (c + 2 * m) c 0 c (c + 2 * m) 0 0 0 m) (n1 θ) = c + 2 * m := by
      have h4 : (Real.cos θ ^ 2 + Real.sin θ ^ 2) ^ 2 = 1 := by rw [hcs]; norm_num
      simp only [quad, dotV, mulVec3, n1, Fin.sum_univ_three, mk3_zero, mk3_one, mk3_two,
        vec3_zero, vec3_one, vec3_two]
      linear_combination (c + 2 * m) * h4
    have q4 : quad (n4 θ) (mk3 (c + 2 * m) c 0 c (c + 2 * m) 0 0 0 m) (n1 θ) = c := by
      have h4 : (Real.cos θ ^ 2 + Real.sin θ ^ 2) ^ 2 = 1 := by rw [hcs]; norm_num
      simp only [quad, dotV, mulVec3, n1, n4, Fin.sum_univ_three, mk3_zero, mk3_one, mk3_two,
        vec3_zero, vec3_one, vec3_two]
      linear_combination c * h4
    have d1 : dotV (n1 θ) (mulVec3 (mk3 (c + 2 * m) c 0 c (c + 2 * m) 0 0 0 m) E)
        = 2 * (c + m) * E 0 := by
      simp only [dotV, mulVec3, n1, Fin.sum_univ_three, mk3_zero, mk3_one, mk3_two,
        vec3_zero, vec3_one, vec3_two, h1, h2]
      linear_combination 2 * (c + m) * E 0 * hcs
    have d4 : dotV (n4 θ) (mulVec3 (mk3 (c + 2 * m) c 0 c (c + 2 * m) 0 0 0 m) E)
        = 2 * (c + m) * E 0 := by
      simp only [dotV, mulVec3, n4, Fin.sum_univ_three, mk3_zero, mk3_one, mk3_two,
        vec3_zero, vec3_one, vec3_two, h1, h2]
      linear_combination 2 * (c + m) * E 0 * hcs
    rw [comp_mm, dotV_computeS, gamma, q1, q4, d1, d4] at t
    rw [d1] at n
    have hk : 0 < c + 2 * m := by linarith
    have e : 2 * (c + m) * E 0 + -(2 * (c + m) * E 0) / (c + 2 * m) * c
        = 2 * (c + m) * E 0 * (2 * m / (c + 2 * m)) := by
      field_simp; ring
    rw [e] at t
    have := mul_neg_of_neg_of_pos n (show 0 < 2 * m / (c + 2 * m) by positivity)
    linarith
  have hsin : Real.sin (2 * x - 2 * θ) = 0 := by
    rw [Real.sin_sub]
    by_cases h2 : E 2 = 0
    · have h0 : E 1 - E 0 ≠ 0 := fun e => hne ⟨e, h2⟩
      rw [h2] at p1 p2
      have s1 : Real.sin (2 * θ) = 0 := by
        refine (mul_eq_zero.1 (?_ : (E 1 - E 0) * Real.sin (2 * θ) = 0)).resolve_left h0
        linarith
      have s2 : Real.sin (2 * x) = 0 := by
        refine (mul_eq_zero.1 (?_ : (E 1 - E 0) * Real.sin (2 * x) = 0)).resolve_left h0
        linarith
      rw [s1, s2]; ring
    · refine (mul_eq_zero.1 (?_ : E 2 * (Real.sin (2 * x) * Real.cos (2 * θ)
        - Real.cos (2 * x) * Real.sin (2 * θ)) = 0)).resolve_left h2
      linear_combination Real.sin (2 * x) * p1 - Real.sin (2 * θ) * p2
  have hpi := Real.pi_pos
  obtain ⟨d1, d2⟩ := abs_le.1 hd
  have := (Real.sin_eq_zero_iff_of_lt_of_lt (by linarith) (by linarith)).1 hsin
  linarith

/-- The hypotheses for the strain `(1,-4,0)` around the angle π/2. -/
theorem third_only (x : ℝ) (hx : x ∈ Set.Icc (sample 24) (sample 26))
    (o : objective (mk3 3 1 0 1 3 0 0 0 1) (vec3 (-1) (-11) 0) x = 0) : x = Real.pi / 2 := by
  have hpi := Real.pi_pos
  have hS : mulVec3 (mk3 (1 + 2 * 1) 1 0 1 (1 + 2 * 1) 0 0 0 1) (vec3 1 (-4) 0) = vec3 (-1) (-11) 0 := by
    funext i
    rcases fin3_cases i with rfl | rfl | rfl <;> norm_num [mulVec3, Fin.sum_univ_three]
  have hM : mk3 (1 + 2 * 1) 1 0 1 (1 + 2 * 1) 0 0 0 1 = mk3 3 1 0 1 3 0 0 0 1 := by norm_num
  refine iso_only (c := 1) (m := 1) (by norm_num) (by norm_num) (vec3 1 (-4) 0) ?_ ?_ ?_ ?_ ?_
  · rw [hS, hM]
    norm_num [objective, gamma, quad, dotV, mulVec3, n1, n2, Fin.sum_univ_three]
  · rw [hS]; norm_num [dotV, n1, Fin.sum_univ_three]
  · rw [hS, hM]
    norm_num [comp, stressTensor, dirM, Fin.sum_univ_two, computeS, mulVec3, gamma, quad, dotV, n1,
      Fin.sum_univ_three]
  · rw [hS, hM]; exact o
  · obtain ⟨h1, h2⟩ := hx
    unfold sample at h1 h2
    push_cast at h1 h2
    rw [abs_le]
    constructor <;> linarith

/-! ## A skew parametrisation -/

/-- Cosine of the angle between the coordinate lines. -/
noncomputable def kap : ℝ := 1999 / 2000

/-- Contravariant metric of the skew coordinates. -/
noncomputable def skew : T2 := ![![1, -kap], ![-kap, 1]]

/-- Material of the skew coordinates. -/
noncomputable def skewC : T3 :=
  mk3 3 (1 + 2 * kap ^ 2) (-3 * kap) (1 + 2 * kap ^ 2) 3 (-3 * kap) (-3 * kap) (-3 * kap)
    (1 + 2 * kap ^ 2)

theorem skew_matrix : Linear.matrix (8 / 3) (1 / 3) skew = skewC := by
  have hm : Linear.mu (8 / 3) (1 / 3) = 1 := by norm_num [Linear.mu]
  have hc : Linear.Cconst (8 / 3) (1 / 3) = 1 := by
    norm_num [Linear.Cconst, Linear.mu, Linear.lam]
  simp only [Linear.matrix, Linear.Cval, hm, hc]
  funext i j
  rcases fin3_cases i with rfl | rfl | rfl <;> rcases fin3_cases j with rfl | rfl | rfl <;>
    simp [skew, skewC] <;> ring

/-- Strain of the witness. -/
noncomputable def skewE : Voigt :=
  vec3 (4000000 / 3999 * (-39 / 4)) (4000000 / 3999 * (-43 / 4)) (4000000 / 3999 * (-41 / 2 * kap))

/-- Stress of the witness. -/
noncomputable def skewS : Voigt := vec3 (-40) (-42) (41 * kap)

theorem skew_stress : mulVec3 skewC skewE = skewS := by
  funext i
  rcases fin3_cases i with rfl | rfl | rfl <;>
    norm_num [mulVec3, skewC, skewE, skewS, kap, Fin.sum_univ_three]

theorem skew_objective (θ : ℝ) :
    objective skewC skewS θ = (kap - Real.sin (2 * θ)) / (1 - kap * Real.sin (2 * θ)) := by
  have hcs := Real.cos_sq_add_sin_sq θ
  have hs1 := Real.sin_le_one (2 * θ)
  have hs0 := Real.neg_one_le_sin (2 * θ)
  have hk0 : 0 < kap := by norm_num [kap]
  have hk1 : kap < 1 := by norm_num [kap]
  have hq : 0 < 1 - kap * Real.sin (2 * θ) := by nlinarith
  rw [Real.sin_two_mul] at *
  set c := Real.cos θ
  set s := Real.sin θ
  have e1 : quad (n1 θ) skewC (n1 θ) = 3 * (1 - kap * (2 * s * c)) ^ 2 := by
    have : (1 - kap * (2 * s * c)) = c ^ 2 + s ^ 2 - kap * (2 * s * c) := by rw [hcs]
    rw [this]
    simp only [quad, dotV, mulVec3, n1, skewC, Fin.sum_univ_three, mk3_zero, mk3_one, mk3_two,
      vec3_zero, vec3_one, vec3_two]
    ring
  have e2 : quad (n2 θ) skewC (n1 θ) = 3 * (-kap * (c ^ 2 - s ^ 2)) * (1 - kap * (2 * s * c)) := by
    have : (1 - kap * (2 * s * c)) = c ^ 2 + s ^ 2 - kap * (2 * s * c) := by rw [hcs]
    rw [this]
    simp only [quad, dotV, mulVec3, n1, n2, skewC, Fin.sum_univ_three, mk3_zero, mk3_one, mk3_two,
      vec3_zero, vec3_one, vec3_two]
    ring
  have e3 : dotV (n1 θ) skewS = -41 * (1 - kap * (2 * s * c)) + (c ^ 2 - s ^ 2) := by
    have : (1 - kap * (2 * s * c)) = c ^ 2 + s ^ 2 - kap * (2 * s * c) := by rw [hcs]
    rw [this]
    simp only [dotV, n1, skewS, Fin.sum_univ_three, vec3_zero, vec3_one, vec3_two]
    ring
  have e4 : dotV (n2 θ) skewS = -(2 * s * c) + 41 * kap * (c ^ 2 - s ^ 2) := by
    simp only [dotV, n2, skewS, Fin.sum_univ_three, vec3_zero, vec3_one, vec3_two]
    ring
  have hsq : (c ^ 2 - s ^ 2) ^ 2 = 1 - (2 * s * c) ^ 2 := by
    have : (c ^ 2 + s ^ 2) ^ 2 = 1 := by rw [hcs]; norm_num
    linear_combination this
  rw [objective, gamma, e1, e2, e3, e4]
  generalize c ^ 2 - s ^ 2 = x at *
  generalize 2 * s * c = y at *
  rw [eq_div_iff hq.ne']
  have hne := hq.ne'
  have : -(-41 * (1 - kap * y) + x) / (3 * (1 - kap * y) ^ 2) * (3 * (-kap * x) * (1 - kap * y))
      * (1 - kap * y) = -(-41 * (1 - kap * y) + x) * (-kap * x) := by
    field_simp
  rw [add_mul, this]
  linear_combination kap * hsq

theorem sample_sin (i : ℕ) (hi : i ≤ 50) : Real.sin (2 * sample i) < kap := by
  have hpi := Real.pi_pos
  have hk : (0 : ℝ) < kap := by norm_num [kap]
  rcases le_or_gt i 25 with h | h
  · have e : Real.sin (2 * sample i) = Real.cos (Real.pi / 2 - 2 * sample i) :=
      (Real.cos_pi_div_two_sub _).symm
    have hx : Real.pi / 2 - 2 * sample i = (25 - 2 * i) * (Real.pi / 50) := by
      unfold sample; ring
    have h0 : (0 : ℝ) ≤ i := Nat.cast_nonneg i
    have h1 : (i : ℝ) ≤ 25 := by exact_mod_cast h
    have habs : |Real.pi / 2 - 2 * sample i| ≤ Real.pi := by
      rw [hx, abs_le]; constructor <;> nlinarith
    rw [e]
    refine lt_of_le_of_lt (Real.cos_le_one_sub_mul_cos_sq habs) ?_
    rw [hx]
    have hodd : (1 : ℝ) ≤ (25 - 2 * (i : ℝ)) ^ 2 := by
      have : (1 : ℤ) ≤ (25 - 2 * (i : ℤ)) ^ 2 := by
        rcases le_or_gt i 12 with g | g
        · have : (1 : ℤ) ≤ 25 - 2 * i := by omega
          nlinarith
        · have : (25 : ℤ) - 2 * i ≤ -1 := by omega
          nlinarith
      exact_mod_cast this
    have : 2 / Real.pi ^ 2 * ((25 - 2 * (i : ℝ)) * (Real.pi / 50)) ^ 2
        = (25 - 2 * (i : ℝ)) ^ 2 / 1250 := by
      field_simp; ring
    rw [this]
    have : kap = 1 - 1 / 2000 := by norm_num [kap]
    rw [this]
    linarith
  · refine lt_of_le_of_lt ?_ hk
    have e : Real.sin (2 * sample i) = -Real.sin (2 * sample i - Real.pi) := by
      rw [Real.sin_sub_pi, neg_neg]
    rw [e, neg_nonpos]
    have h0 : (25 : ℝ) ≤ i := by exact_mod_cast h.le
    have h1 : (i : ℝ) ≤ 50 := by exact_mod_cast hi
    apply Real.sin_nonneg_of_nonneg_of_le_pi <;> unfold sample <;> nlinarith

theorem skew_sample (i : ℕ) (hi : i ≤ 50) : 0 < objective skewC skewS (sample i) := by
  have h := sample_sin i hi
  have hk0 : 0 < kap := by norm_num [kap]
  have hk1 : kap < 1 := by norm_num [kap]
  rw [skew_objective]
  apply div_pos
  · linarith
  · nlinarith

theorem skew_scan (eps : ℝ) (newton : (ℝ → ℝ) → ℝ → ℝ) (E : Voigt) :
    scan eps newton ⟨skewC, skewS, E⟩ = .ok 0 := by
  classical
  have hb : brackets (objective skewC skewS) = [] := by
    unfold brackets
    rw [List.filter_eq_nil_iff]
    intro i hi
    have hi := List.mem_range.1 hi
    have := mul_pos (skew_sample i (by omega)) (skew_sample (i + 1) (by omega))
    simpa using this.le
  have hc : candidates eps newton (objective skewC skewS) = .ok [] := by
    unfold candidates
    rw [hb]
    have := mul_pos (skew_sample 0 (by norm_num)) (skew_sample 50 (by norm_num))
    simp only [roots, Outcome.bind, List.nil_append]
    rw [if_neg (not_le.2 this)]
  unfold scan
  simp only [hc]
  simp [Outcome.bind]

theorem skew_inv : inv2 (inv2 skew) = skew := by
  funext i j
  rcases fin2_cases i with rfl | rfl <;> rcases fin2_cases j with rfl | rfl <;>
    norm_num [skew, inv2, det2, kap]

theorem skew_metric : Spec.PosDef.Metric (inv2 skew) := by
  refine ⟨?_, ?_, ?_⟩ <;> norm_num [skew, inv2, det2, kap]

end Verif.TFTSearch
