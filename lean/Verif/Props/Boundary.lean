import Verif.Lemmas.Boundary

/-! # Property C65: variations of the boundary tangent and of the outer normal -/

set_option linter.unusedSimpArgs false

namespace Verif.Variation

open V3 Verif.Geometry

/-- **C65** For every regular surface, boundary side and parametrisation speed the first variation
of the unit tangent is its exact derivative. -/
theorem C65_tangent (s u : Surf) (h : Indep (s.a 0) (s.a 1)) (c : Fin 2) (σ : ℝ)
    (hσ : σ = 1 ∨ σ = -1) (o : V3) (ho : Crosses s c o) :
    HasVDeriv (fun t => unitVec (σ • (shift s u t).a c)) (tvar1 s o (σ • s.a c) u) 0 := by
  rw [tvar1_eq s h c o ho σ hσ]
  exact hasVDeriv_utan s u h c σ hσ

/-- **C65** The first variation of the outer normal is its exact derivative. -/
theorem C65_outer (s u : Surf) (h : Indep (s.a 0) (s.a 1)) (c : Fin 2) (σ : ℝ)
    (hσ : σ = 1 ∨ σ = -1) (o : V3) (ho : Crosses s c o) :
    HasVDeriv (fun t => cross (unitVec (σ • (shift s u t).a c))
      (unitNormal ((shift s u t).a 0) ((shift s u t).a 1))) (ovar1 s o (σ • s.a c) u) 0 := by
  rw [ovar1_eq s h c o ho σ hσ]
  exact hasVDeriv_outer s u h c σ hσ

/-- **C65** The hypothesis on the outer normal holds for the outer normal itself, on every side of
every regular surface. -/
theorem C65_side (s : Surf) (h : Indep (s.a 0) (s.a 1)) (c : Fin 2) (σ : ℝ)
    (hσ : σ = 1 ∨ σ = -1) :
    Crosses s c (cross (σ • s.a c) (unitNormal (s.a 0) (s.a 1))) := by
  have hp := dot_self_pos h.cross_ne
  have hn := (Real.sqrt_pos.2 hp).ne'
  have hσ0 : σ ≠ 0 := by rcases hσ with rfl | rfl <;> norm_num
  constructor
  · simp [dot, cross]; ring
  · have : dot (s.a (other c)) (cross (σ • s.a c) (unitNormal (s.a 0) (s.a 1)))
        = (if c = 0 then -1 else 1) * σ * (1 / Real.sqrt (dot (cross (s.a 0) (s.a 1))
          (cross (s.a 0) (s.a 1)))) * dot (cross (s.a 0) (s.a 1)) (cross (s.a 0) (s.a 1)) := by
      unfold unitNormal
      generalize 1 / Real.sqrt (dot (cross (s.a 0) (s.a 1)) (cross (s.a 0) (s.a 1))) = k
      rcases fin2_cases c with rfl | rfl
      · simp [other, dot, cross]; ring
      · simp [other, dot, cross]; ring
    rw [this]
    refine mul_ne_zero (mul_ne_zero (mul_ne_zero ?_ hσ0) (one_div_ne_zero hn)) hp.ne'
    split_ifs <;> norm_num

/-- Non-vacuity: a side of a stretched plate. -/
example : ∃ (s : Surf) (o : V3), Indep (s.a 0) (s.a 1) ∧ V3.dot (s.a 0) (s.a 0) = 4 ∧
    Crosses s 1 o := by
  have hI : Indep (⟨2, 0, 0⟩ : V3) ⟨0, 3, 0⟩ := by
    intro c d h
    have hx := congrArg V3.x h
    have hy := congrArg V3.y h
    simp at hx hy
    exact ⟨hx, hy⟩
  refine ⟨⟨![⟨2, 0, 0⟩, ⟨0, 3, 0⟩], 0, 0, 0⟩, ⟨1, 0, 0⟩, hI, by norm_num [dot], ?_⟩
  constructor <;> norm_num [other, dot]

/-- **C65** (partial: parametric tangents of unit length) The second variation of the outer normal
is its exact second derivative. -/
theorem C65_outer2_partial (s u v : Surf) (h : Indep (s.a 0) (s.a 1))
    (hu : ∀ i, V3.norm (s.a i) = 1) (c : Fin 2) (σ : ℝ) (hσ : σ = 1 ∨ σ = -1) (o : V3)
    (ho : Crosses s c o) :
    IsOuterSecond s c σ u v (ovar2 s o (σ • s.a c) u v) := by
  rw [ovar2_eq s h hu c o ho σ hσ]
  exact ⟨fun t => ovarC (shift s v t) c σ u, fun t ht => hasVDeriv_outer _ _ ht c σ hσ,
    hasVDeriv_ovarC s u v h c σ hσ⟩

/-- Non-vacuity: a side of the unit square. -/
example : ∃ (s : Surf) (o : V3), Indep (s.a 0) (s.a 1) ∧ (∀ i, V3.norm (s.a i) = 1) ∧
    Crosses s 1 o := by
  have hI : Indep (⟨1, 0, 0⟩ : V3) ⟨0, 1, 0⟩ := by
    intro c d h
    have hx := congrArg V3.x h
    have hy := congrArg V3.y h
    simp at hx hy
    exact ⟨hx, hy⟩
  refine ⟨⟨![⟨1, 0, 0⟩, ⟨0, 1, 0⟩], 0, 0, 0⟩, ⟨1, 0, 0⟩, hI, ?_, ?_⟩
  · intro i; rcases fin2_cases i with rfl | rfl <;> simp [V3.norm, dot]
  · constructor <;> norm_num [other, dot]

/-- **C65** The second variation is symmetric in the two fields. -/
theorem C65_symmetric (s : Surf) (o tv : V3) (u v : Surf) :
    ovar2 s o tv u v = ovar2 s o tv v u := by
  unfold ovar2
  cases hc : colIndex s o with
  | none => rfl
  | some c =>
    simp only
    have hm : muv (unitCols s) u v = muv (unitCols s) v u := by
      unfold muv; congr 1; ext <;> simp [cross] <;> ring
    rw [hm]
    simp only [dot_sub_right, dot_smul_right, dot_sub_left, dot_smul_left,
      dot_comm (mvec (unitCols s) v) (normal s), dot_comm (mvec (unitCols s) u) (normal s),
      dot_comm (mvec (unitCols s) v) (mvec (unitCols s) u), dot_comm (v.a c) (u.a c)]
    ext <;> simp [cross] <;> ring

/-- **C65** is violated: on a plate parametrised with speed 2 the second variation of the outer
normal is not its second derivative. -/
theorem C65_outer2_violated :
    ∃ (s u : Surf) (o : V3), Indep (s.a 0) (s.a 1) ∧ Crosses s 1 o ∧
      ¬ IsOuterSecond s 1 1 u u (ovar2 s o ((1 : ℝ) • s.a 1) u u) := by
  let s : Surf := ⟨![⟨2, 0, 0⟩, ⟨0, 1, 0⟩], 0, 0, 0⟩
  let u : Surf := ⟨![⟨0, 0, 1⟩, 0], 0, 0, 0⟩
  have hI : Indep (s.a 0) (s.a 1) := by
    intro c d h
    have hx := congrArg V3.x h
    have hy := congrArg V3.y h
    simp [s] at hx hy
    exact ⟨hx, hy⟩
  have hC : Crosses s 1 ⟨1, 0, 0⟩ := by constructor <;> norm_num [s, other, dot]
  refine ⟨s, u, ⟨1, 0, 0⟩, hI, hC, ?_⟩
  rintro ⟨D, hD, hw⟩
  have e : ∀ᶠ t in nhds (0 : ℝ), D t = ovarC (shift s u t) 1 1 u := by
    filter_upwards [eventually_indep s u hI] with t ht
    have ht' := indep_of_cross ht
    exact (hD t ht').unique (hasVDeriv_outer _ _ ht' 1 1 (Or.inl rfl))
  have h2 := (hasVDeriv_ovarC s u u hI 1 1 (Or.inl rfl)).congr_eventually e
  have h3 := congrArg V3.x (hw.unique h2)
  have hn4 : Real.sqrt 4 = 2 := by
    rw [show (4 : ℝ) = 2 * 2 by norm_num, Real.sqrt_mul_self (by norm_num)]
  have hn : normal s = ⟨0, 0, 1⟩ := by
    unfold normal normalized V3.norm
    ext <;> norm_num [s, dot, cross, hn4]
  have hm : measure s = 2 := by
    unfold measure V3.norm; norm_num [s, dot, cross, hn4]
  have hm' : measure (unitCols s) = 1 := by
    unfold measure unitCols normalized V3.norm; norm_num [s, dot, cross, hn4]
  have hN : V3.norm (s.a 1) = 1 := by simp [s, V3.norm, dot]
  have hN0 : V3.norm (s.a 0) = 2 := by norm_num [s, V3.norm, dot, hn4]
  have h1 : (1 : ℝ) • s.a 1 = ⟨0, 1, 0⟩ := by ext <;> simp [s]
  have hN1 : V3.norm (⟨0, 1, 0⟩ : V3) = 1 := by simp [V3.norm, dot]
  have hu : normalized (⟨0, 1, 0⟩ : V3) = ⟨0, 1, 0⟩ := by
    unfold normalized; rw [hN1]; ext <;> simp
  have hsg : sgn (dot ((1 : ℝ) • s.a 1) ((unitCols s).a 1)) = 1 :=
    sgn_eq _ (Indep.ne s hI 1) 1 (Or.inl rfl)
  have hc0 : (unitCols s).a 0 = ⟨1, 0, 0⟩ := by
    simp only [unitCols, normalized, hN0]; ext <;> simp [s]
  have hc1 : (unitCols s).a 1 = ⟨0, 1, 0⟩ := by
    simp only [unitCols, normalized, hN]; ext <;> simp [s]
  unfold ovar2 at h3
  rw [colIndex_eq s hI 1 _ hC] at h3
  simp only [hsg] at h3
  unfold ovar2C tvar2C tvarC var2 var2From var1 mvec muv at h3
  simp only [hm, hm', hn, hc0, hc1, h1, hN1, hu] at h3
  norm_num [s, u, dot, cross] at h3

end Verif.Variation
