import Verif.Model.Transform
import Verif.Spec.Geometry
import Verif.Lemmas.Geometry
import Verif.Props.Geometry

/-! # Properties C34 – C36: changes of basis -/

namespace Verif.Transform

open V3 Verif.Geometry

/-! ## C34 -/

/-- Specification: the value `u · S · v` of the symmetric tensor `S = Σ S^{ab} b_a ⊗ b_b`
with Voigt components `(S^00, S^11, S^01)`. -/
def bilin (b : Fin 2 → V3) (S : Voigt) (u v : V3) : ℝ :=
  S 0 * (dot u (b 0) * dot v (b 0)) + S 1 * (dot u (b 1) * dot v (b 1))
    + S 2 * (dot u (b 0) * dot v (b 1) + dot u (b 1) * dot v (b 0))

/-- **C34** The matrix maps the components of a symmetric tensor in the first basis to its
values on the vectors of the second, for all bases and tensors. -/
theorem C34_tensor_law (b1 b2 : Fin 2 → V3) (S : Voigt) :
    mulVec3 (transformation b1 b2) S 0 = bilin b1 S (b2 0) (b2 0) ∧
    mulVec3 (transformation b1 b2) S 1 = bilin b1 S (b2 1) (b2 1) ∧
    mulVec3 (transformation b1 b2) S 2 = bilin b1 S (b2 0) (b2 1) := by
  refine ⟨?_, ?_, ?_⟩ <;> simp [mulVec3, transformation, bilin, Fin.sum_univ_three] <;> ring

/-- **C34** The matrices of the two directions are inverse to each other: for any two bases
`b1`, `b2` with dual bases `c1`, `c2` such that the products of `b2` with `b1` and of `c1`
with `c2` are inverse 2×2 matrices (true when all lie in one plane, see below). -/
theorem C34_inverse (b1 b2 c1 c2 : Fin 2 → V3)
    (h : ∀ i j, dot (b2 i) (b1 0) * dot (c1 0) (c2 j) + dot (b2 i) (b1 1) * dot (c1 1) (c2 j) = δ i j)
    (i j : Fin 3) :
    mul3 (transformation b1 b2) (transformation c2 c1) i j = δ i j := by
  have h00 := h 0 0; have h01 := h 0 1; have h10 := h 1 0; have h11 := h 1 1
  simp [δ] at h00 h01 h10 h11
  unfold mul3
  rw [Fin.sum_univ_three]
  rcases fin3_cases i with rfl | rfl | rfl <;> rcases fin3_cases j with rfl | rfl | rfl <;>
    simp [transformation, δ]
  · linear_combination (dot (b2 0) (b1 0) * dot (c1 0) (c2 0) + dot (b2 0) (b1 1) * dot (c1 1) (c2 0) + 1) * h00
  · linear_combination (dot (b2 0) (b1 0) * dot (c1 0) (c2 1) + dot (b2 0) (b1 1) * dot (c1 1) (c2 1)) * h01
  · linear_combination 2 * (dot (b2 0) (b1 0) * dot (c1 0) (c2 0) + dot (b2 0) (b1 1) * dot (c1 1) (c2 0)) * h01
  · linear_combination (dot (b2 1) (b1 0) * dot (c1 0) (c2 0) + dot (b2 1) (b1 1) * dot (c1 1) (c2 0)) * h10
  · linear_combination (dot (b2 1) (b1 0) * dot (c1 0) (c2 1) + dot (b2 1) (b1 1) * dot (c1 1) (c2 1) + 1) * h11
  · linear_combination 2 * (dot (b2 1) (b1 0) * dot (c1 0) (c2 1) + dot (b2 1) (b1 1) * dot (c1 1) (c2 1)) * h10
  · linear_combination (dot (b2 0) (b1 0) * dot (c1 0) (c2 0) + dot (b2 0) (b1 1) * dot (c1 1) (c2 0)) * h10
  · linear_combination (dot (b2 1) (b1 0) * dot (c1 0) (c2 1) + dot (b2 1) (b1 1) * dot (c1 1) (c2 1)) * h01
  · linear_combination (dot (b2 1) (b1 0) * dot (c1 0) (c2 1) + dot (b2 1) (b1 1) * dot (c1 1) (c2 1)) * h00
      + (dot (b2 1) (b1 0) * dot (c1 0) (c2 0) + dot (b2 1) (b1 1) * dot (c1 1) (c2 0)) * h01 + h11

/-- **C34** In particular for two orthonormal bases of the same plane. -/
theorem C34_inverse_orthonormal (b1 b2 : Fin 2 → V3) (h1 : ∀ i j, dot (b1 i) (b1 j) = δ i j)
    (h2 : ∀ i j, dot (b2 i) (b2 j) = δ i j)
    (hplane : ∀ i, ∃ p q : ℝ, b2 i = p • b1 0 + q • b1 1) (i j : Fin 3) :
    mul3 (transformation b1 b2) (transformation b2 b1) i j = δ i j := by
  apply C34_inverse b1 b2 b1 b2
  intro i j
  obtain ⟨p, q, hpq⟩ := hplane j
  rw [← h2 i j]
  have h00 := h1 0 0; have h01 := h1 0 1; have h10 := h1 1 0; have h11 := h1 1 1
  simp [δ] at h00 h01 h10 h11
  rw [hpq]
  simp only [dot_add_right, dot_smul_right, h00, h01, h10, h11]
  ring

/-- Non-vacuity: two orthonormal bases of the x-y plane, a quarter turn apart. -/
example : ∃ p q : ℝ, (⟨0, 1, 0⟩ : V3) = p • (⟨1, 0, 0⟩ : V3) + q • (⟨0, 1, 0⟩ : V3) :=
  ⟨0, 1, by ext <;> simp⟩

/-! ## C35 -/

/-- **C35** is violated: the two reported transformations are the same for every surface,
height and spectral basis. -/
theorem C35_spec2con_equals_spec2cov_violated (s : Surf) (z : ℝ) (sp : Fin 2 → V3) :
    spec2con s z sp = spec2cov s z sp := rfl

/-- **C35** … although the transformation with the contravariant basis is different: a plane
with first tangent of length 2. -/
theorem C35_should_differ_violated :
    ∃ (s : Surf) (sp : Fin 2 → V3), Indep (s.a 0) (s.a 1) ∧
      spec2con s 0 sp ≠ transformation (conBasis s 0) sp := by
  refine ⟨⟨![⟨2, 0, 0⟩, ⟨0, 1, 0⟩], 0, 0, 0⟩, ![⟨1, 0, 0⟩, ⟨0, 1, 0⟩], ?_, ?_⟩
  · intro c d h
    have hx := congrArg V3.x h
    have hy := congrArg V3.y h
    simp at hx hy
    exact ⟨hx, hy⟩
  · intro h
    have := congrFun (congrFun h 0) 0
    simp [spec2con, transformation, covBasis, conBasis, gcon, Gcon, gcov, Gcov, inv3, embed, Gblock,
      det3, Acov, Bcov, dot] at this
    norm_num at this

/-- **C35** (partial) `spec2cov` maps contravariant components to spectral ones, and when the
surface basis is orthonormal `spec2con` is the right matrix as well.  Missing: all other
bases. -/
theorem C35_spec2con_partial (s : Surf) (z : ℝ) (sp : Fin 2 → V3)
    (h : ∀ i, conBasis s z i = covBasis s z i) :
    spec2con s z sp = transformation (conBasis s z) sp ∧
    spec2cov s z sp = transformation (covBasis s z) sp := by
  refine ⟨?_, rfl⟩
  unfold spec2con
  have : conBasis s z = covBasis s z := funext h
  rw [this]

/-- Non-vacuity: for an orthonormal plane the two bases agree. -/
example (i : Fin 2) : conBasis ⟨![⟨1, 0, 0⟩, ⟨0, 1, 0⟩], 0, 0, 0⟩ 0 i =
    covBasis ⟨![⟨1, 0, 0⟩, ⟨0, 1, 0⟩], 0, 0, 0⟩ 0 i := by
  rcases fin2_cases i with rfl | rfl <;> ext <;>
    simp [covBasis, conBasis, gcon, Gcon, gcov, Gcov, inv3, embed, Gblock, det3, Acov, Bcov, dot]

/-! ## C36 -/

/-- The Gram–Schmidt vector is not zero. -/
theorem gs_ne (s : Surf) (h : Indep (s.a 0) (s.a 1)) :
    s.a 1 - dot (s.a 1) (e1 s) • e1 s ≠ 0 := by
  intro h0
  have := h (-(dot (s.a 1) (e1 s) * (1 / V3.norm (s.a 0)))) 1 (by
    rw [← h0]; unfold e1 normalized
    ext <;> simp <;> ring)
  exact one_ne_zero this.2

theorem a0_ne (s : Surf) (h : Indep (s.a 0) (s.a 1)) : s.a 0 ≠ 0 := by
  intro h0
  have := h 1 0 (by rw [h0]; ext <;> simp)
  exact one_ne_zero this.1

/-- **C36** The local frame is orthonormal. -/
theorem C36_frame_orthonormal (s : Surf) (h : Indep (s.a 0) (s.a 1)) :
    dot (e1 s) (e1 s) = 1 ∧ dot (e2 s) (e2 s) = 1 ∧ dot (e1 s) (e2 s) = 0 := by
  have u1 : dot (e1 s) (e1 s) = 1 := normalized_unit (a0_ne s h)
  refine ⟨u1, normalized_unit (gs_ne s h), ?_⟩
  conv_lhs => unfold e2 normalized
  rw [dot_smul_right, dot_sub_right, dot_smul_right, u1, dot_comm (e1 s) (s.a 1)]; ring

/-- The tangents in the local frame. -/
theorem tangents_in_frame (s : Surf) (h : Indep (s.a 0) (s.a 1)) (i : Fin 2) :
    s.a i = dot (s.a i) (e1 s) • e1 s + dot (s.a i) (e2 s) • e2 s := by
  obtain ⟨u1, u2, u12⟩ := C36_frame_orthonormal s h
  have n0 := (norm_pos (a0_ne s h)).ne'
  have n1 := (norm_pos (gs_ne s h)).ne'
  have ha0 : s.a 0 = V3.norm (s.a 0) • e1 s := by
    unfold e1 normalized; ext <;> simp <;> field_simp
  have ha1 : s.a 1 = dot (s.a 1) (e1 s) • e1 s
      + V3.norm (s.a 1 - dot (s.a 1) (e1 s) • e1 s) • e2 s := by
    conv_rhs => unfold e2 normalized
    ext <;> simp <;> field_simp <;> ring
  rcases fin2_cases i with rfl | rfl
  · have d1 : dot (s.a 0) (e1 s) = V3.norm (s.a 0) := by
      conv_lhs => rw [ha0]
      rw [dot_smul_left, u1]; ring
    have d2 : dot (s.a 0) (e2 s) = 0 := by
      rw [ha0, dot_smul_left, u12]; ring
    rw [d1, d2]; nth_rewrite 1 [ha0]; ext <;> simp
  · have d2 : dot (s.a 1) (e2 s) = V3.norm (s.a 1 - dot (s.a 1) (e1 s) • e1 s) := by
      conv_lhs => rw [ha1]
      rw [dot_add_left, dot_smul_left, dot_smul_left, u12, u2]; ring
    rw [d2]; exact ha1

/-- **C36** `cartcov` maps the contravariant components of a symmetric tensor (stress) to the
Cartesian ones. -/
theorem C36_cartcov (s : Surf) (S : Voigt) :
    mulVec3 (cartcov s) S 0 = bilin s.a S (e1 s) (e1 s) ∧
    mulVec3 (cartcov s) S 1 = bilin s.a S (e2 s) (e2 s) ∧
    mulVec3 (cartcov s) S 2 = bilin s.a S (e1 s) (e2 s) := by
  have c1 := dot_comm (s.a 0) (e1 s); have c2 := dot_comm (s.a 0) (e2 s)
  have c3 := dot_comm (s.a 1) (e1 s); have c4 := dot_comm (s.a 1) (e2 s)
  refine ⟨?_, ?_, ?_⟩ <;>
    simp [mulVec3, cartcov, cartMat, bilin, Fin.sum_univ_three, c1, c2, c3, c4] <;> ring

/-- **C36** `cartcon` maps the covariant components of a symmetric tensor (strain, tensor
shear) to the Cartesian ones. -/
theorem C36_cartcon (s : Surf) (E : Voigt) :
    mulVec3 (cartcon s) E 0 = bilin (acon s) E (e1 s) (e1 s) ∧
    mulVec3 (cartcon s) E 1 = bilin (acon s) E (e2 s) (e2 s) ∧
    mulVec3 (cartcon s) E 2 = bilin (acon s) E (e1 s) (e2 s) := by
  have c1 := dot_comm (acon s 0) (e1 s); have c2 := dot_comm (acon s 0) (e2 s)
  have c3 := dot_comm (acon s 1) (e1 s); have c4 := dot_comm (acon s 1) (e2 s)
  refine ⟨?_, ?_, ?_⟩ <;>
    simp [mulVec3, cartcon, cartMat, bilin, Fin.sum_univ_three, c1, c2, c3, c4] <;> ring

/-- **C36** The contravariant basis from the inverted 3×3 metric is the dual basis. -/
theorem C36_metric_3x3 (s : Surf) (h : Indep (s.a 0) (s.a 1)) (i : Fin 2) :
    conBasisExpr s i = acon s i := by
  have hn := normal_unit s h.cross_ne
  have h0 := dot_a_normal s 0
  have h1 := dot_a_normal s 1
  have hd := (det_Acov_pos s h.cross_ne).ne'
  have g0 : dot (normal s) (s.a 0) = 0 := by rw [dot_comm]; exact h0
  have g1 : dot (normal s) (s.a 1) = 0 := by rw [dot_comm]; exact h1
  have hm : covMetric s = embed (Acov s) := by
    unfold covMetric embed Acov; rw [hn, h0, h1, g0, g1]
  unfold conBasisExpr acon Acon
  rw [hm]
  have hdet := det3_embed (Acov s)
  rcases fin2_cases i with rfl | rfl <;> ext <;> simp [inv3, hdet, inv2] <;> simp [embed]

/-- **C36** Stress power is preserved: for every stress `S` (contravariant components) and
strain `E` (covariant components) the sum `S00 E00 + S11 E11 + 2 S01 E01` equals the same sum
of the Cartesian components. -/
theorem C36_power (s : Surf) (h : Indep (s.a 0) (s.a 1)) (S E : Voigt) :
    mulVec3 (cartcov s) S 0 * mulVec3 (cartcon s) E 0
      + mulVec3 (cartcov s) S 1 * mulVec3 (cartcon s) E 1
      + 2 * (mulVec3 (cartcov s) S 2 * mulVec3 (cartcon s) E 2) =
      S 0 * E 0 + S 1 * E 1 + 2 * (S 2 * E 2) := by
  have key : ∀ i j, dot (e1 s) (s.a i) * dot (e1 s) (acon s j)
      + dot (e2 s) (s.a i) * dot (e2 s) (acon s j) = δ i j := by
    intro i j
    have hd := (C13_basis_dual s h j i).1
    have hs : (δ i j : ℝ) = δ j i := by unfold δ; simp only [eq_comm]
    rw [hs, ← hd, dot_comm (acon s j)]
    conv_rhs => rw [tangents_in_frame s h i]
    rw [dot_add_left, dot_smul_left, dot_smul_left, dot_comm (e1 s) (s.a i), dot_comm (e2 s) (s.a i)]
  obtain ⟨a0, a1, a2⟩ := C36_cartcov s S
  obtain ⟨b0, b1, b2⟩ := C36_cartcon s E
  rw [a0, a1, a2, b0, b1, b2]
  have h00 := key 0 0; have h01 := key 0 1; have h10 := key 1 0; have h11 := key 1 1
  simp [δ] at h00 h01 h10 h11
  unfold bilin
  generalize dot (e1 s) (s.a 0) = p0 at *
  generalize dot (e2 s) (s.a 0) = p1 at *
  generalize dot (e1 s) (s.a 1) = q0 at *
  generalize dot (e2 s) (s.a 1) = q1 at *
  generalize dot (e1 s) (acon s 0) = r0 at *
  generalize dot (e2 s) (acon s 0) = r1 at *
  generalize dot (e1 s) (acon s 1) = t0 at *
  generalize dot (e2 s) (acon s 1) = t1 at *
  linear_combination (S 0 * E 0 * (p0 * r0 + p1 * r1 + 1)) * h00
    + (S 0 * E 1 * (p0 * t0 + p1 * t1)) * h01 + (S 1 * E 0 * (q0 * r0 + q1 * r1)) * h10
    + (S 1 * E 1 * (q0 * t0 + q1 * t1 + 1)) * h11
    + (2 * S 0 * E 2 * (p0 * r0 + p1 * r1)) * h01
    + (2 * S 1 * E 2 * (q0 * t0 + q1 * t1)) * h10
    + (2 * S 2 * E 0 * (p0 * r0 + p1 * r1)) * h10
    + (2 * S 2 * E 1 * (q0 * t0 + q1 * t1)) * h01
    + (2 * S 2 * E 2 * (q0 * t0 + q1 * t1)) * h00 + 2 * S 2 * E 2 * h11
    + (2 * S 2 * E 2 * (q0 * r0 + q1 * r1)) * h01

/-- Non-vacuity: a skew pair of tangents. -/
example : Indep (⟨1, 0, 0⟩ : V3) ⟨1, 2, 0⟩ := by
  intro c d h
  have hx := congrArg V3.x h
  have hy := congrArg V3.y h
  simp at hx hy
  subst hy; simp at hx; exact ⟨hx, rfl⟩

end Verif.Transform
