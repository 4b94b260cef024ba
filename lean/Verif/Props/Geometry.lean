import Verif.Lemmas.Geometry

/-! # Properties C13 – C17: metrics, bases, strains of rigid motions, area ratio -/

namespace Verif.Geometry

open V3

/-! ## C13 -/

/-- **C13** The contravariant metric is the (two-sided) inverse of the covariant one and
symmetric, for all linearly independent tangents. -/
theorem C13_metric_inverse (s : Surf) (h : Indep (s.a 0) (s.a 1)) (i j : Fin 2) :
    (∑ k, Acon s i k * dot (s.a k) (s.a j)) = δ i j ∧
    (∑ k, dot (s.a i) (s.a k) * Acon s k j) = δ i j ∧ Acon s i j = Acon s j i := by
  have hd := (det_Acov_pos s h.cross_ne).ne'
  refine ⟨?_, ?_, inv2_symm _ (Acov_symm s 0 1) i j⟩
  · rw [Fin.sum_univ_two]; exact inv2_mul (Acov s) hd i j
  · rw [Fin.sum_univ_two]; exact mul_inv2 (Acov s) hd i j

/-- **C13** The contravariant basis is dual to the covariant basis and tangent to the
surface. -/
theorem C13_basis_dual (s : Surf) (h : Indep (s.a 0) (s.a 1)) (i j : Fin 2) :
    dot (acon s i) (s.a j) = δ i j ∧ dot (acon s i) (cross (s.a 0) (s.a 1)) = 0 := by
  have hd := (det_Acov_pos s h.cross_ne).ne'
  refine ⟨?_, ?_⟩
  · have := inv2_mul (Acov s) hd i j
    simp only [acon, dot_add_left, dot_smul_left]
    exact this
  · simp [acon, dot_add_left, dot_smul_left, dot_cross_left, dot_cross_right]

/-- **C13** The dual basis is the only one: a tangent vector with the duality property is
the computed one. -/
theorem C13_basis_unique (s : Surf) (h : Indep (s.a 0) (s.a 1)) (i : Fin 2) (c d : ℝ)
    (hw : ∀ j, dot (c • s.a 0 + d • s.a 1) (s.a j) = δ i j) :
    c • s.a 0 + d • s.a 1 = acon s i := by
  have hz : c • s.a 0 + d • s.a 1 - acon s i = 0 := by
    rw [← dot_self_eq_zero]
    have e : c • s.a 0 + d • s.a 1 - acon s i =
        (c - Acon s i 0) • s.a 0 + (d - Acon s i 1) • s.a 1 := by
      ext <;> simp [acon] <;> ring
    have h0 := hw 0
    have h1 := hw 1
    have g0 := (C13_basis_dual s h i 0).1
    have g1 := (C13_basis_dual s h i 1).1
    conv_lhs => arg 2; rw [e]
    rw [dot_add_right, dot_smul_right, dot_smul_right, dot_sub_left, dot_sub_left, h0, h1, g0, g1]
    ring
  ext
  · have := congrArg V3.x hz; simp at this ⊢; linarith
  · have := congrArg V3.y hz; simp at this ⊢; linarith
  · have := congrArg V3.z hz; simp at this ⊢; linarith

/-- **C13** is violated by the member `m_acon_def`/`m_acon_ori` left behind for
three-dimensional surfaces: it is the covariant basis, so it is not dual as soon as a
tangent is not a unit vector. -/
theorem C13_stored_basis_violated :
    ∃ s : Surf, Indep (s.a 0) (s.a 1) ∧ dot (storedAcon s 0) (s.a 0) ≠ δ (0 : Fin 2) 0 := by
  refine ⟨⟨![⟨2, 0, 0⟩, ⟨0, 1, 0⟩], 0, 0, 0⟩, ?_, ?_⟩
  · intro c d h
    have hx := congrArg V3.x h
    have hy := congrArg V3.y h
    simp at hx hy
    exact ⟨hx, hy⟩
  · simp [storedAcon, dot, δ]; norm_num

/-- **C13** (partial) The stored basis is dual exactly for orthonormal tangents. -/
theorem C13_stored_basis_partial (s : Surf) :
    (∀ i j, dot (storedAcon s i) (s.a j) = δ i j) ↔ ∀ i j, dot (s.a i) (s.a j) = δ i j :=
  Iff.rfl

/-- Non-vacuity: a skew pair of tangents. -/
example : Indep (⟨1, 0, 0⟩ : V3) ⟨1, 2, 3⟩ := by
  intro c d h
  have hx := congrArg V3.x h
  have hy := congrArg V3.y h
  simp at hx hy
  subst hy; simpa using hx

/-! ## C14 -/

/-- **C14** The 3×3 covariant metric at height `z` is the Gram matrix of the covariant
basis at height `z`, for every `z`. -/
theorem C14_gram (s : Surf) (h : Indep (s.a 0) (s.a 1)) (z : ℝ) (i j : Fin 3) :
    Gcov s z i j = dot (gcov s z i) (gcov s z j) := by
  have hc := h.cross_ne
  have hn := normal_unit s hc
  have han := dot_a_normal s
  have hna : ∀ i, dot (normal s) (s.a i) = 0 := fun i => by rw [dot_comm]; exact han i
  have hcn := ncov_dot_normal s
  have hnc : ∀ i, dot (normal s) (ncov s i) = 0 := fun i => by rw [dot_comm]; exact hcn i
  have hca := ncov_dot_a s hc
  have hac : ∀ i j, dot (s.a i) (ncov s j) = -Bcov s j i := fun i j => by
    rw [dot_comm]; exact hca j i
  have hB := Bcov_symm s 0 1
  rcases fin3_cases i with rfl | rfl | rfl <;> rcases fin3_cases j with rfl | rfl | rfl <;>
    simp [Gcov, embed, gcov, Gblock, dot_add_left, dot_add_right, dot_smul_left,
      dot_smul_right, Acov, hn, han, hna, hcn, hnc, hca, hac, hB] <;> ring

/-- **C14** The normal derivatives are tangent and reproduce the second fundamental form. -/
theorem C14_weingarten (s : Surf) (h : Indep (s.a 0) (s.a 1)) (i j : Fin 2) :
    dot (ncov s i) (normal s) = 0 ∧ dot (ncov s i) (s.a j) = -Bcov s i j :=
  ⟨ncov_dot_normal s i, ncov_dot_a s h.cross_ne i j⟩

/-- **C14** The contravariant basis at height `z` is dual to the covariant one wherever the
metric at that height is invertible. -/
theorem C14_dual (s : Surf) (h : Indep (s.a 0) (s.a 1)) (z : ℝ) (hz : det3 (Gcov s z) ≠ 0)
    (i j : Fin 3) : dot (gcon s z i) (gcov s z j) = δ i j := by
  have := inv3_mul (Gcov s z) hz i j
  unfold gcon
  rw [dot_add_left, dot_add_left, dot_smul_left, dot_smul_left, dot_smul_left,
    ← C14_gram s h, ← C14_gram s h, ← C14_gram s h]
  exact this

/-- **C14** Where the metric at height `z` degenerates: its determinant is that of the
mid-surface times the square of `1 - 2 H z + K z²` (mean and Gaussian curvature from the
mixed tensor).  So the metric is invertible at every `z` that is not a principal radius. -/
theorem C14_shifter (s : Surf) (h : Indep (s.a 0) (s.a 1)) (z : ℝ) :
    det3 (Gcov s z) = det2 (Acov s) *
      (1 - z * (mixedB s 0 0 + mixedB s 1 1)
        + z ^ 2 * (mixedB s 0 0 * mixedB s 1 1 - mixedB s 0 1 * mixedB s 1 0)) ^ 2 := by
  have hg : ∀ i j : Fin 2, Gblock s z i j = dot (s.a i + z • ncov s i) (s.a j + z • ncov s j) := by
    intro i j
    have := C14_gram s h z (i.castSucc) (j.castSucc)
    fin_cases i <;> fin_cases j <;> simpa [Gcov, embed, gcov] using this
  unfold Gcov
  rw [det3_embed]
  simp only [det2, hg]
  simp only [ncov, Acov, dot, add_x, add_y, add_z, smul_x, smul_y, smul_z, sub_x, sub_y, sub_z]
  ring

/-- Non-vacuity: a curved surface with a non-degenerate metric at a height. -/
example : ∃ s : Surf, Indep (s.a 0) (s.a 1) ∧ Bcov s 0 0 = 1 ∧ det3 (Gcov s 2) ≠ 0 := by
  refine ⟨⟨![⟨1, 0, 0⟩, ⟨0, 1, 0⟩], ⟨0, 0, 1⟩, 0, 0⟩, ?_, ?_, ?_⟩
  · intro c d h
    have hx := congrArg V3.x h
    have hy := congrArg V3.y h
    simp at hx hy
    exact ⟨hx, hy⟩
  · simp [Bcov, normal, normalized, V3.norm, cross, dot]
  · rw [C14_shifter]
    · simp [Acov, det2, mixedB, Acon, inv2, Bcov, normal, normalized, V3.norm, cross, dot]
      norm_num
    · intro c d h
      have hx := congrArg V3.x h
      have hy := congrArg V3.y h
      simp at hx hy
      exact ⟨hx, hy⟩

/-! ## C15 -/

/-- **C15** is violated: the contravariant metric stored for planar geometries is the
covariant metric (the inner products of the tangents), hence not its inverse for a stretched parametrisation. -/
theorem C15_planar_violated :
    ∃ J : Fin 2 → Fin 2 → ℝ, J 0 0 * J 1 1 - J 0 1 * J 1 0 ≠ 0 ∧
      (∑ k, storedAconPlanar J 0 k * plane (J k) (J 0)) ≠ 1 := by
  refine ⟨![![2, 0], ![0, 1]], ?_, ?_⟩
  · simp
  · rw [Fin.sum_univ_two]; simp [storedAconPlanar, AcovPlanar, plane]; norm_num

/-- **C15** (partial) The stored matrix is the inverse of the covariant metric exactly for
orthonormal parametrisations: the rows of a regular Jacobian are unit vectors at a right
angle. -/
theorem C15_planar_partial (J : Fin 2 → Fin 2 → ℝ) (h : J 0 0 * J 1 1 - J 0 1 * J 1 0 ≠ 0) :
    (∀ i j, (∑ k, storedAconPlanar J i k * plane (J k) (J j)) = δ i j) ↔
      (J 0 0 ^ 2 + J 0 1 ^ 2 = 1 ∧ J 1 0 ^ 2 + J 1 1 ^ 2 = 1 ∧ J 0 0 * J 1 0 + J 0 1 * J 1 1 = 0) := by
  constructor
  · intro H
    have h00 := H 0 0
    have h01 := H 0 1
    have h11 := H 1 1
    rw [Fin.sum_univ_two] at h00 h01 h11
    simp only [storedAconPlanar, AcovPlanar, plane, δ] at h00 h01 h11
    norm_num at h00 h01 h11
    generalize J 0 0 = a at *
    generalize J 0 1 = b at *
    generalize J 1 0 = c at *
    generalize J 1 1 = d at *
    have hx : 0 < a * a + b * b := by
      rcases eq_or_ne a 0 with rfl | ha
      · have : b ≠ 0 := fun hb => h (by simp [hb])
        have := mul_self_pos.2 this
        linarith
      · have := mul_self_pos.2 ha
        nlinarith [mul_self_nonneg b]
    have hm : (a * c + b * d) * ((a * a + b * b) + (c * c + d * d)) = 0 := by nlinarith [h01]
    have hb0 : a * c + b * d = 0 := by
      rcases mul_eq_zero.1 hm with h0 | h0
      · exact h0
      · nlinarith [sq_nonneg c, sq_nonneg d]
    have e1 : (a * a + b * b) * (a * a + b * b) = 1 := by
      have : c * a + d * b = 0 := by linarith
      rw [hb0, this] at h00; linarith
    have e2 : (c * c + d * d) * (c * c + d * d) = 1 := by
      have : c * a + d * b = 0 := by linarith
      rw [hb0, this] at h11; linarith
    refine ⟨?_, ?_, hb0⟩
    · have : (a * a + b * b - 1) * (a * a + b * b + 1) = 0 := by linarith
      rcases mul_eq_zero.1 this with h0 | h0
      · linarith [sq a, sq b]
      · nlinarith
    · have : (c * c + d * d - 1) * (c * c + d * d + 1) = 0 := by linarith
      rcases mul_eq_zero.1 this with h0 | h0
      · linarith [sq c, sq d]
      · nlinarith [sq_nonneg c, sq_nonneg d]
  · rintro ⟨h1, h2, h3⟩ i j
    have h1' : J 0 0 * J 0 0 + J 0 1 * J 0 1 = 1 := by linarith [sq (J 0 0), sq (J 0 1)]
    have h2' : J 1 0 * J 1 0 + J 1 1 * J 1 1 = 1 := by linarith [sq (J 1 0), sq (J 1 1)]
    have h3' : J 1 0 * J 0 0 + J 1 1 * J 0 1 = 0 := by linarith
    rw [Fin.sum_univ_two]
    rcases fin2_cases i with rfl | rfl <;> rcases fin2_cases j with rfl | rfl <;>
      simp [storedAconPlanar, AcovPlanar, plane, δ, h1', h2', h3, h3']

/-- Non-vacuity: a rotated orthonormal parametrisation. -/
example : (3 / 5 : ℝ) * (3 / 5) - (-(4 / 5)) * (4 / 5) ≠ 0 ∧ (3 / 5 : ℝ) ^ 2 + (-(4 / 5)) ^ 2 = 1 ∧
    (4 / 5 : ℝ) ^ 2 + (3 / 5) ^ 2 = 1 ∧ (3 / 5 : ℝ) * (4 / 5) + (-(4 / 5)) * (3 / 5) = 0 := by
  norm_num

/-- **C15** (partial: concerns the 3×3 metric only.)  The 3×3 contravariant metric used by
the nonlinear materials is the inverse also in the planar case. -/
theorem C15_planar_full_metric_partial (J : Fin 2 → Fin 2 → ℝ)
    (h : J 0 0 * J 1 1 - J 0 1 * J 1 0 ≠ 0) (i j : Fin 3) :
    (∑ k, GconPlanar J i k * embed (fun a b => plane (J a) (J b)) k j) = δ i j := by
  rw [Fin.sum_univ_three]
  apply inv3_mul
  rw [det3_embed]
  have : det2 (AcovPlanar J) = (J 0 0 * J 1 1 - J 0 1 * J 1 0) ^ 2 := by
    simp [det2, AcovPlanar]; ring
  rw [this]
  exact pow_ne_zero 2 h

/-- Non-vacuity: a sheared planar parametrisation. -/
example : (![![1, 0], ![3, 2]] : Fin 2 → Fin 2 → ℝ) 0 0 * (![![1, 0], ![3, 2]] : Fin 2 → Fin 2 → ℝ) 1 1
    - (![![1, 0], ![3, 2]] : Fin 2 → Fin 2 → ℝ) 0 1 * (![![1, 0], ![3, 2]] : Fin 2 → Fin 2 → ℝ) 1 0 ≠ 0 := by
  simp

/-! ## C16 -/

/-- **C16** A rigid motion of the reference surface gives zero membrane strain, zero bending
strain, zero Green–Lagrange strain at every height (also in the Voigt form handed to the
user) and area ratio one. -/
theorem C16_rigid_motion (R : Rotation) (s : Surf) :
    (∀ i j, membraneStrain s (R.move s) i j = 0) ∧ (∀ i j, bendingStrain s (R.move s) i j = 0) ∧
    (∀ z i j, strainAt s (R.move s) z i j = 0) ∧ (∀ z k, strainVoigt s (R.move s) z k = 0) ∧
    (∀ z, areaRatioSq (det3 (Gcov s z)) (det3 (Gcov (R.move s) z)) = .ok 1) := by
  have hG : ∀ z, Gblock (R.move s) z = Gblock s z := by
    intro z; funext i j
    unfold Gblock
    rw [R.Acov_move, R.Bcov_move, R.ncov_move, R.ncov_move, R.dot_act]
  refine ⟨?_, ?_, ?_, ?_, ?_⟩
  · intro i j; simp [membraneStrain, R.Acov_move]
  · intro i j; simp [bendingStrain, R.Bcov_move]
  · intro z i j; simp [strainAt, hG]
  · intro z k; fin_cases k <;> simp [strainVoigt, strainAt, hG]
  · intro z
    unfold Gcov
    rw [hG]
    unfold areaRatioSq
    by_cases h : det3 (embed (Gblock s z)) = 0
    · simp [h]
    · simp [h]

/-- **C16** Through the thickness the strain is membrane strain plus `z` times bending strain
plus a quadratic remainder given by the normal derivatives. -/
theorem C16_strain_expansion (ori defo : Surf) (z : ℝ) (i j : Fin 2) :
    strainAt ori defo z i j = membraneStrain ori defo i j + z * bendingStrain ori defo i j
      + z ^ 2 / 2 * (dot (ncov defo i) (ncov defo j) - dot (ncov ori i) (ncov ori j)) := by
  simp only [strainAt, Gblock, membraneStrain, bendingStrain]; ring

/-- **C16** Conversely: zero strain at all heights is equality of first and second
fundamental forms together with equality of the third. -/
theorem C16_zero_strain_iff (ori defo : Surf) :
    (∀ z i j, strainAt ori defo z i j = 0) ↔
      (∀ i j, Acov ori i j = Acov defo i j ∧ Bcov ori i j = Bcov defo i j ∧
        dot (ncov ori i) (ncov ori j) = dot (ncov defo i) (ncov defo j)) := by
  constructor
  · intro h i j
    have h0 := h 0 i j
    have h1 := h 1 i j
    have h2 := h (-1) i j
    rw [C16_strain_expansion] at h0 h1 h2
    simp only [membraneStrain, bendingStrain] at h0 h1 h2
    refine ⟨?_, ?_, ?_⟩ <;> linarith
  · intro h z i j
    obtain ⟨h1, h2, h3⟩ := h i j
    rw [C16_strain_expansion]
    simp only [membraneStrain, bendingStrain, h1, h2, h3]; ring

/-- Non-vacuity: a quarter turn about the vertical axis. -/
noncomputable example : Rotation where
  c0 := ⟨0, 1, 0⟩
  c1 := ⟨-1, 0, 0⟩
  c2 := ⟨0, 0, 1⟩
  h00 := by simp [dot]
  h11 := by simp [dot]
  h22 := by simp [dot]
  h01 := by simp [dot]
  h02 := by simp [dot]
  h12 := by simp [dot]
  right_handed := by simp [dot, cross]

/-! ## C17 -/

/-- **C17** (partial: excludes a singular reference metric with non-singular deformed metric.)
The result is the ratio of determinants if that is non-negative, an error if it is
negative, and 1 when both determinants vanish. -/
theorem C17_ratio_partial (detOri detDef : ℝ) (h : detOri ≠ 0 ∨ detDef = 0) :
    (detOri ≠ 0 → 0 ≤ detDef / detOri → areaRatioSq detOri detDef = .ok (detDef / detOri)) ∧
    (detOri ≠ 0 → detDef / detOri < 0 → areaRatioSq detOri detDef = .throws) ∧
    (detOri = 0 → areaRatioSq detOri detDef = .ok 1) := by
  refine ⟨?_, ?_, ?_⟩
  · intro h0 h1; simp [areaRatioSq, h0, h1]
  · intro h0 h1; simp [areaRatioSq, h0, not_le.2 h1]
  · intro h0
    have hd : detDef = 0 := by tauto
    simp [areaRatioSq, h0, hd]

/-- **C17** is violated for a singular reference metric with non-singular deformed metric:
the code divides by zero instead of reporting. -/
theorem C17_singular_reference_violated (d : ℝ) (hd : d ≠ 0) : areaRatioSq 0 d = .ub := by
  simp [areaRatioSq, hd]

/-- **C17** For equal geometries the ratio is one. -/
theorem C17_equal (d : ℝ) : areaRatioSq d d = .ok 1 := by
  unfold areaRatioSq
  by_cases h : d = 0
  · simp [h]
  · simp [h]

/-- **C17** On the mid-surface the ratio is the square of the ratio of areas
`|a₁×a₂|` and never an error for regular surfaces. -/
theorem C17_midsurface (ori defo : Surf) (h : Indep (ori.a 0) (ori.a 1)) :
    areaRatioSq (det3 (Gcov ori 0)) (det3 (Gcov defo 0)) =
      .ok ((V3.norm (cross (defo.a 0) (defo.a 1)) / V3.norm (cross (ori.a 0) (ori.a 1))) ^ 2) := by
  have hG : ∀ s : Surf, det3 (Gcov s 0) = dot (cross (s.a 0) (s.a 1)) (cross (s.a 0) (s.a 1)) := by
    intro s
    unfold Gcov
    rw [det3_embed, ← det_Acov]
    simp [det2, Gblock]
  rw [hG, hG]
  have hp := dot_self_pos h.cross_ne
  have hr : 0 ≤ dot (cross (defo.a 0) (defo.a 1)) (cross (defo.a 0) (defo.a 1)) /
      dot (cross (ori.a 0) (ori.a 1)) (cross (ori.a 0) (ori.a 1)) :=
    div_nonneg (dot_self_nonneg _) hp.le
  rw [(C17_ratio_partial _ _ (Or.inl hp.ne')).1 hp.ne' hr]
  congr 1
  rw [div_pow, pow_two, pow_two, norm_sq, norm_sq]

/-- Non-vacuity. -/
example : areaRatioSq 2 8 = .ok 4 ∧ areaRatioSq 2 (-8) = .throws := by
  constructor
  · have := (C17_ratio_partial 2 8 (by norm_num)).1 (by norm_num) (by norm_num)
    rw [this]; norm_num
  · exact (C17_ratio_partial 2 (-8) (by norm_num)).2.1 (by norm_num) (by norm_num)

end Verif.Geometry
