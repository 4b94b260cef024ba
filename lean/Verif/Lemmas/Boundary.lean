import Verif.Lemmas.Variation

/-! # Helper lemmas on boundary tangents and outer normals -/

set_option linter.unusedSimpArgs false

namespace Verif.Variation

open V3 Verif.Geometry

theorem Indep.ne (s : Surf) (h : Indep (s.a 0) (s.a 1)) (c : Fin 2) : s.a c ≠ 0 := by
  intro h0
  rcases fin2_cases c with rfl | rfl
  · have := h 1 0 (by rw [h0]; ext <;> simp)
    exact one_ne_zero this.1
  · have := h 0 1 (by rw [h0]; ext <;> simp)
    exact one_ne_zero this.2

theorem normalized_dot (a o : V3) : dot (normalized a) o = (1 / V3.norm a) * dot a o := by
  unfold normalized; rw [dot_smul_left]

theorem abs_div_self_sqrt (x : ℝ) (h : x ≠ 0) : |x / Real.sqrt (x * x)| = 1 := by
  rw [Real.sqrt_mul_self_eq_abs, abs_div, abs_abs]
  exact div_self (abs_ne_zero.2 h)

theorem colIndex_eq (s : Surf) (h : Indep (s.a 0) (s.a 1)) (c : Fin 2) (o : V3)
    (ho : Crosses s c o) : colIndex s o = some c := by
  obtain ⟨h1, h2⟩ := ho
  have hn0 := (norm_pos (Indep.ne s h 0)).ne'
  have hn1 := (norm_pos (Indep.ne s h 1)).ne'
  unfold colIndex
  simp only [normalized_dot]
  rcases fin2_cases c with rfl | rfl
  · simp only [other, if_true] at h2
    rw [h1]
    have hx : 1 / V3.norm (s.a 1) * dot (s.a 1) o ≠ 0 := mul_ne_zero (one_div_ne_zero hn1) h2
    rw [if_pos]
    simp only [mul_zero, zero_add, zero_div, abs_zero]
    rw [abs_div_self_sqrt _ hx]
    norm_num
  · simp only [other, Fin.reduceEq, if_false] at h2
    rw [h1]
    have hx : 1 / V3.norm (s.a 0) * dot (s.a 0) o ≠ 0 := mul_ne_zero (one_div_ne_zero hn0) h2
    rw [if_neg, if_pos]
    · simp only [mul_zero, add_zero, zero_div, abs_zero]
      rw [abs_div_self_sqrt _ hx]
      norm_num
    · simp only [mul_zero, add_zero, zero_div, abs_zero]
      rw [abs_div_self_sqrt _ hx]
      norm_num

theorem sgn_eq (a : V3) (h : a ≠ 0) (σ : ℝ) (hσ : σ = 1 ∨ σ = -1) :
    sgn (dot (σ • a) (normalized a)) = σ := by
  have hp : 0 < dot a (normalized a) := by
    rw [dot_comm, normalized_dot]
    exact mul_pos (one_div_pos.2 (norm_pos h)) (dot_self_pos h)
  rw [dot_smul_left]
  unfold sgn
  rcases hσ with rfl | rfl
  · rw [if_pos (by linarith)]
  · rw [if_neg (by linarith), if_pos (by linarith)]

theorem smul_ne (a : V3) (h : a ≠ 0) (σ : ℝ) (hσ : σ = 1 ∨ σ = -1) : σ • a ≠ 0 := by
  intro h0
  apply h
  have hx := congrArg V3.x h0; have hy := congrArg V3.y h0; have hz := congrArg V3.z h0
  rcases hσ with rfl | rfl <;> simp at hx hy hz <;> ext <;> simp <;> assumption

/-- First variation of the unit tangent `σ a_c`. -/
noncomputable def tvarC (s : Surf) (c : Fin 2) (σ : ℝ) (u : Surf) : V3 :=
  (1 / V3.norm (σ • s.a c)) •
    (σ • u.a c - dot (normalized (σ • s.a c)) (σ • u.a c) • normalized (σ • s.a c))

/-- First variation of the outer normal. -/
noncomputable def ovarC (s : Surf) (c : Fin 2) (σ : ℝ) (u : Surf) : V3 :=
  cross (tvarC s c σ u) (normal s) + cross (normalized (σ • s.a c)) (var1 s u)

/-- Second variation of the unit tangent. -/
noncomputable def tvar2C (s : Surf) (c : Fin 2) (σ : ℝ) (u v : Surf) : V3 :=
  (-1 / V3.norm (σ • s.a c)) •
    (dot (tvarC s c σ v) (σ • u.a c) • normalized (σ • s.a c)
      + dot (normalized (σ • s.a c)) (σ • v.a c) • tvarC s c σ u
      + dot (normalized (σ • s.a c)) (σ • u.a c) • tvarC s c σ v)

/-- Second variation of the outer normal. -/
noncomputable def ovar2C (s : Surf) (c : Fin 2) (σ : ℝ) (u v : Surf) : V3 :=
  cross (tvar2C s c σ u v) (normal s) + cross (tvarC s c σ u) (var1 s v)
    + cross (tvarC s c σ v) (var1 s u) + cross (normalized (σ • s.a c)) (var2 s u v)

theorem tvar1_eq (s : Surf) (h : Indep (s.a 0) (s.a 1)) (c : Fin 2) (o : V3)
    (ho : Crosses s c o) (σ : ℝ) (hσ : σ = 1 ∨ σ = -1) (u : Surf) :
    tvar1 s o (σ • s.a c) u = tvarC s c σ u := by
  unfold tvar1
  rw [colIndex_eq s h c o ho]
  simp only
  rw [sgn_eq _ (Indep.ne s h c) σ hσ]
  rfl

theorem ovar1_eq (s : Surf) (h : Indep (s.a 0) (s.a 1)) (c : Fin 2) (o : V3)
    (ho : Crosses s c o) (σ : ℝ) (hσ : σ = 1 ∨ σ = -1) (u : Surf) :
    ovar1 s o (σ • s.a c) u = ovarC s c σ u := by
  unfold ovar1 ovarC
  rw [tvar1_eq s h c o ho σ hσ]

theorem hasVDeriv_tv (s v : Surf) (c : Fin 2) (σ : ℝ) :
    HasVDeriv (fun t => σ • (shift s v t).a c) (σ • v.a c) 0 := by
  refine (HasVDeriv.line (σ • s.a c) (σ • v.a c) 0).congr (fun t => ?_) rfl
  ext <;> simp <;> ring

theorem hasVDeriv_utan (s v : Surf) (h : Indep (s.a 0) (s.a 1)) (c : Fin 2) (σ : ℝ)
    (hσ : σ = 1 ∨ σ = -1) :
    HasVDeriv (fun t => normalized (σ • (shift s v t).a c)) (tvarC s c σ v) 0 := by
  have h0 : σ • (shift s v 0).a c ≠ 0 := by
    rw [shift_zero]; exact smul_ne _ (Indep.ne s h c) σ hσ
  refine ((hasVDeriv_tv s v c σ).normalized h0).congr (fun t => rfl) ?_
  rw [shift_zero]
  unfold tvarC
  rw [dot_comm (σ • v.a c)]

theorem hasVDeriv_tvarC (s u v : Surf) (h : Indep (s.a 0) (s.a 1)) (c : Fin 2) (σ : ℝ)
    (hσ : σ = 1 ∨ σ = -1) :
    HasVDeriv (fun t => tvarC (shift s v t) c σ u) (tvar2C s c σ u v) 0 := by
  have hne := smul_ne _ (Indep.ne s h c) σ hσ
  have h0 : σ • (shift s v 0).a c ≠ 0 := by rw [shift_zero]; exact hne
  have hN := (norm_pos hne).ne'
  have hN0 := (norm_pos h0).ne'
  have h1 := (hasVDeriv_tv s v c σ).norm h0
  have h2 := hasVDeriv_utan s v h c σ hσ
  have h3 := h2.dot_const (σ • u.a c)
  have h4 := HasVDeriv.smul (h1.inv hN0) ((HasVDeriv.const (σ • u.a c) 0).sub (HasVDeriv.smul h3 h2))
  refine h4.congr (fun t => ?_) ?_
  · unfold tvarC; simp
  · simp only [Pi.inv_apply, shift_zero]
    unfold tvar2C
    rw [dot_comm (normalized (σ • s.a c)) (σ • v.a c)]
    generalize dot (tvarC s c σ v) (σ • u.a c) = d1
    generalize dot (σ • v.a c) (normalized (σ • s.a c)) = d2
    unfold tvarC
    generalize dot (normalized (σ • s.a c)) (σ • u.a c) = d3
    generalize dot (normalized (σ • s.a c)) (σ • v.a c) = d4
    generalize normalized (σ • s.a c) = w
    generalize V3.norm (σ • s.a c) = N at *
    ext <;> simp <;> field_simp <;> ring

theorem hasVDeriv_ovarC (s u v : Surf) (h : Indep (s.a 0) (s.a 1)) (c : Fin 2) (σ : ℝ)
    (hσ : σ = 1 ∨ σ = -1) :
    HasVDeriv (fun t => ovarC (shift s v t) c σ u) (ovar2C s c σ u v) 0 := by
  have h1 := hasVDeriv_tvarC s u v h c σ hσ
  have h2 := hasVDeriv_utan s v h c σ hσ
  have h3 := hasVDeriv_normal s v h
  have h4 := hasVDeriv_var1 s u v h
  refine ((h1.cross h3).add (h2.cross h4)).congr (fun t => rfl) ?_
  rw [shift_zero]
  unfold ovar2C
  ext <;> simp <;> ring

theorem unitCols_eq (s : Surf) (h : ∀ i, V3.norm (s.a i) = 1) : unitCols s = s := by
  unfold unitCols
  cases s with
  | mk a d11 d22 d12 =>
    congr 1
    funext i
    have := h i
    simp only at this
    simp only [normalized, this]
    ext <;> simp

theorem ovar2_eq (s : Surf) (h : Indep (s.a 0) (s.a 1)) (hu : ∀ i, V3.norm (s.a i) = 1)
    (c : Fin 2) (o : V3) (ho : Crosses s c o) (σ : ℝ) (hσ : σ = 1 ∨ σ = -1) (u v : Surf) :
    ovar2 s o (σ • s.a c) u v = ovar2C s c σ u v := by
  unfold ovar2
  rw [colIndex_eq s h c o ho, unitCols_eq s hu]
  simp only
  have hs : sgn (dot (σ • s.a c) (s.a c)) = σ := by
    have := sgn_eq _ (Indep.ne s h c) σ hσ
    have hn : normalized (s.a c) = s.a c := by
      unfold normalized; rw [hu c]; ext <;> simp
    rwa [hn] at this
  rw [hs]
  unfold ovar2C tvar2C tvarC var2 var2From var1
  simp only [dot_comm (mvec s u) (normal s), dot_comm (mvec s v) (normal s)]

theorem eventually_indep (s v : Surf) (h : Indep (s.a 0) (s.a 1)) :
    ∀ᶠ t in nhds (0 : ℝ), cross ((shift s v t).a 0) ((shift s v t).a 1) ≠ 0 := by
  have hc := hasVDeriv_cross s v
  have hd := hc.dot hc
  have h0 : dot (cross ((shift s v 0).a 0) ((shift s v 0).a 1))
      (cross ((shift s v 0).a 0) ((shift s v 0).a 1)) ≠ 0 := by
    rw [shift_zero]; exact (dot_self_pos h.cross_ne).ne'
  filter_upwards [hd.continuousAt.eventually_ne h0] with t ht hz
  exact ht (by rw [hz]; simp [dot])

theorem indep_of_cross {a b : V3} (h : cross a b ≠ 0) : Indep a b := by
  intro c d e
  have e1 : cross (c • a + d • b) b = c • cross a b := by ext <;> simp [cross] <;> ring
  have e2 : cross a (c • a + d • b) = d • cross a b := by ext <;> simp [cross] <;> ring
  rw [e] at e1 e2
  have hz : ∀ x : ℝ, x • cross a b = 0 → x = 0 := by
    intro x hx
    by_contra hne
    apply h
    have hx1 := congrArg V3.x hx; have hx2 := congrArg V3.y hx; have hx3 := congrArg V3.z hx
    simp only [V3.smul_x, V3.smul_y, V3.smul_z, V3.zero_x, V3.zero_y, V3.zero_z,
      mul_eq_zero, hne, false_or] at hx1 hx2 hx3
    ext <;> simp [*]
  exact ⟨hz c (by rw [← e1]; ext <;> simp [cross]), hz d (by rw [← e2]; ext <;> simp [cross])⟩

theorem HasVDeriv.congr_eventually {f g : ℝ → V3} {f' : V3} {t : ℝ} (h : HasVDeriv f f' t)
    (e : ∀ᶠ s in nhds t, g s = f s) : HasVDeriv g f' t :=
  ⟨h.1.congr_of_eventuallyEq (e.mono fun s hs => by simp only [hs]),
    h.2.1.congr_of_eventuallyEq (e.mono fun s hs => by simp only [hs]),
    h.2.2.congr_of_eventuallyEq (e.mono fun s hs => by simp only [hs])⟩

theorem HasVDeriv.unique {f : ℝ → V3} {a b : V3} {t : ℝ} (h : HasVDeriv f a t)
    (k : HasVDeriv f b t) : a = b := by
  ext
  · exact h.1.unique k.1
  · exact h.2.1.unique k.2.1
  · exact h.2.2.unique k.2.2

theorem hasVDeriv_outer (s u : Surf) (h : Indep (s.a 0) (s.a 1)) (c : Fin 2) (σ : ℝ)
    (hσ : σ = 1 ∨ σ = -1) :
    HasVDeriv (fun t => cross (unitVec (σ • (shift s u t).a c))
      (unitNormal ((shift s u t).a 0) ((shift s u t).a 1))) (ovarC s c σ u) 0 := by
  refine ((hasVDeriv_utan s u h c σ hσ).cross (hasVDeriv_normal s u h)).congr (fun t => rfl) ?_
  rw [shift_zero]; rfl

end Verif.Variation
