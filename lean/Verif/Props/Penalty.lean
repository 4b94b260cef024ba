import Verif.Lemmas.Penalty

/-! # Property C117: penalty factors of the weak conditions -/

namespace Verif.Penalty

open V3 Verif.Geometry Verif.Transform Verif.Spec.Penalty

/-- The x-y plane with the second tangent sheared by `c`. -/
def sheared (c : ℝ) : Surf := ⟨![⟨1, 0, 0⟩, ⟨c, 1, 0⟩], 0, 0, 0⟩

theorem sheared_indep (c : ℝ) : Indep ((sheared c).a 0) ((sheared c).a 1) := by
  intro x y h
  have hx := congrArg V3.x h
  have hy := congrArg V3.y h
  simp [sheared] at hx hy
  subst hy
  simpa using hx

theorem sheared_Acon (c : ℝ) : Acon (sheared c) 0 0 = 1 + c ^ 2 ∧ Acon (sheared c) 0 1 = -c ∧
    Acon (sheared c) 1 0 = -c ∧ Acon (sheared c) 1 1 = 1 := by
  have d : Acov (sheared c) 0 0 * Acov (sheared c) 1 1
      - Acov (sheared c) 0 1 * Acov (sheared c) 1 0 = 1 := by
    simp [Acov, sheared, dot]
  refine ⟨?_, ?_, ?_, ?_⟩
  · have : Acon (sheared c) 0 0 = Acov (sheared c) 1 1 / (Acov (sheared c) 0 0
      * Acov (sheared c) 1 1 - Acov (sheared c) 0 1 * Acov (sheared c) 1 0) := rfl
    rw [this, d]; simp [Acov, sheared, dot]; ring
  · have : Acon (sheared c) 0 1 = -Acov (sheared c) 0 1 / (Acov (sheared c) 0 0
      * Acov (sheared c) 1 1 - Acov (sheared c) 0 1 * Acov (sheared c) 1 0) := rfl
    rw [this, d]; simp [Acov, sheared, dot]
  · have : Acon (sheared c) 1 0 = -Acov (sheared c) 1 0 / (Acov (sheared c) 0 0
      * Acov (sheared c) 1 1 - Acov (sheared c) 0 1 * Acov (sheared c) 1 0) := rfl
    rw [this, d]; simp [Acov, sheared, dot]
  · have : Acon (sheared c) 1 1 = Acov (sheared c) 0 0 / (Acov (sheared c) 0 0
      * Acov (sheared c) 1 1 - Acov (sheared c) 0 1 * Acov (sheared c) 1 0) := rfl
    rw [this, d]; simp [Acov, sheared, dot]

/-- **C117** For every regular surface, positive definite stiffness, positive option and element
size the penalty factor is positive. -/
theorem C117_positive (s : Surf) (h : Indep (s.a 0) (s.a 1)) (A : T3) (hA : PosDef A) (c hh : ℝ)
    (hc : 0 < c) (hhh : 0 < hh) : 0 < alpha c hh s A := by
  have a00 : 0 < A 0 0 := by
    have := hA (vec3 1 0 0) (by intro h0; simpa using congrFun h0 0)
    simpa [Fin.sum_univ_three] using this
  have hm : 0 < maxEntry (mmCart s A) := by
    refine lt_of_lt_of_le ?_ (le_maxEntry _ 0 0)
    rw [mmCart_zero s h]
    have := Acov_pos s h
    positivity
  unfold alpha; positivity

/-- Non-vacuity: the identity is positive definite. -/
example : PosDef (mk3 1 0 0 0 1 0 0 0 1) := by
  intro x hx
  simp only [Fin.sum_univ_three, mk3_zero, mk3_one, mk3_two]
  simp
  by_contra hn
  apply hx
  have h0 : x 0 = 0 := by nlinarith [sq_nonneg (x 0), sq_nonneg (x 1), sq_nonneg (x 2)]
  have h1 : x 1 = 0 := by nlinarith [sq_nonneg (x 0), sq_nonneg (x 1), sq_nonneg (x 2)]
  have h2 : x 2 = 0 := by nlinarith [sq_nonneg (x 0), sq_nonneg (x 1), sq_nonneg (x 2)]
  funext i
  rcases fin3_cases i with rfl | rfl | rfl
  · exact h0
  · exact h1
  · exact h2

/-- **C117** (partial) When the tangents are orthogonal, the matrix whose largest entry is taken is
the stiffness in the Cartesian frame along the tangents, for every stiffness.  Missing: oblique
tangents. -/
theorem C117_orthogonal_partial (s : Surf) (f1 f2 : V3) (p r : ℝ) (hp : 0 < p) (hr : 0 < r)
    (u1 : dot f1 f1 = 1) (u2 : dot f2 f2 = 1) (u12 : dot f1 f2 = 0)
    (h0 : s.a 0 = p • f1) (h1 : s.a 1 = r • f2) (A : T3) :
    IsCartesianStiffness f1 f2 s A (mmCart s A) := by
  have u21 : dot f2 f1 = 0 := by rw [dot_comm]; exact u12
  have hind : Indep (s.a 0) (s.a 1) := by
    intro x y h
    rw [h0, h1] at h
    have k1 := congrArg (dot f1) h
    have k2 := congrArg (dot f2) h
    simp only [dot_add_right, dot_smul_right, u1, u2, u12, u21] at k1 k2
    have z : ∀ v : V3, dot v 0 = 0 := by intro v; simp [dot]
    rw [z] at k1 k2
    constructor
    · have : x * p = 0 := by linarith
      exact (mul_eq_zero.mp this).resolve_right hp.ne'
    · have : y * r = 0 := by linarith
      exact (mul_eq_zero.mp this).resolve_right hr.ne'
  obtain ⟨p', q', r', hp', hr', d1, d2, d3, d4, g00, g01, g10, g11⟩ := coords s hind
  obtain ⟨hc, hi, -⟩ := matrices s p' q' r' hp' hr' d1 d2 d3 d4 g00 g01 g10 g11
  have a00 : Acov s 0 0 = p ^ 2 := by
    unfold Acov; rw [h0, dot_smul_left, dot_smul_right, u1]; ring
  have a01 : Acov s 0 1 = 0 := by
    unfold Acov; rw [h0, h1, dot_smul_left, dot_smul_right, u12]; ring
  have a11 : Acov s 1 1 = r ^ 2 := by
    unfold Acov; rw [h1, dot_smul_left, dot_smul_right, u2]; ring
  have ep : p' = p := by
    have : p' ^ 2 = p ^ 2 := by rw [← g00, a00]
    nlinarith
  have eq : q' = 0 := by
    have : p' * q' = 0 := by rw [← g01, a01]
    exact (mul_eq_zero.mp this).resolve_left hp'.ne'
  have er : r' = r := by
    have : r' ^ 2 = r ^ 2 := by rw [eq] at g11; rw [← a11, g11]; ring
    nlinarith
  subst ep er
  rw [eq] at hc hi
  have v1 : dot f1 (s.a 0) = p' := by rw [h0, dot_smul_right, u1]; ring
  have v2 : dot f2 (s.a 0) = 0 := by rw [h0, dot_smul_right, u21]; ring
  have v3 : dot f1 (s.a 1) = 0 := by rw [h1, dot_smul_right, u12]; ring
  have v4 : dot f2 (s.a 1) = r' := by rw [h1, dot_smul_right, u2]; ring
  have w1 : dot (s.a 0) f1 = p' := by rw [dot_comm]; exact v1
  have w2 : dot (s.a 0) f2 = 0 := by rw [dot_comm]; exact v2
  have w3 : dot (s.a 1) f1 = 0 := by rw [dot_comm]; exact v3
  have w4 : dot (s.a 1) f2 = r' := by rw [dot_comm]; exact v4
  intro ε
  refine ⟨?_, ?_, ?_⟩ <;>
    simp [mmCart, mul3, hc, hi, stressOn, covariantStrain, strainOn, mulVec3, Fin.sum_univ_three,
      v1, v2, v3, v4, w1, w2, w3, w4] <;> ring

/-- Non-vacuity: a plane with tangents of lengths 2 and 3. -/
example : (sheared 0).a 0 = (1 : ℝ) • (⟨1, 0, 0⟩ : V3) ∧
    (⟨![⟨2, 0, 0⟩, ⟨0, 3, 0⟩], 0, 0, 0⟩ : Surf).a 1 = (3 : ℝ) • (⟨0, 1, 0⟩ : V3) := by
  constructor <;> ext <;> simp [sheared]

/-- The stiffness of the linear material in the frame of the coordinate axes of the
sheared plane is the plane stress stiffness. -/
theorem sheared_planeStress (c : ℝ) :
    IsCartesianStiffness ⟨1, 0, 0⟩ ⟨0, 1, 0⟩ (sheared c) (Linear.matrix 1 0 (Acon (sheared c)))
      (planeStress 1 0 1) := by
  obtain ⟨c00, c01, c10, c11⟩ := sheared_Acon c
  intro ε
  have v1 : (sheared c).a 0 = ⟨1, 0, 0⟩ := rfl
  have v2 : (sheared c).a 1 = ⟨c, 1, 0⟩ := rfl
  refine ⟨?_, ?_, ?_⟩ <;>
    simp [Linear.matrix, Linear.Cval, Linear.Cconst, Linear.lam, Linear.mu, planeStress, stressOn,
      covariantStrain, strainOn, mulVec3, Fin.sum_univ_three, c00, c01, c10, c11, v1, v2, dot] <;>
    ring

/-- **C117** is violated: for oblique tangents the matrix is not the Cartesian stiffness, and the
penalty factor exceeds that of the true stiffness by any factor, although the material (linear,
`E = 1`, `ν = 0`, unit thickness), the surface (the x-y plane), the option and the element size are
the same. -/
theorem C117_oblique_violated (K : ℝ) :
    ∃ s : Surf, Indep (s.a 0) (s.a 1) ∧
      IsCartesianStiffness ⟨1, 0, 0⟩ ⟨0, 1, 0⟩ s (Linear.matrix 1 0 (Acon s)) (planeStress 1 0 1) ∧
      (∀ i j, planeStress 1 0 1 i j ≤ 1) ∧
      ∀ c h : ℝ, 0 < c → 0 < h → c * K / h < alpha c h s (Linear.matrix 1 0 (Acon s)) := by
  refine ⟨sheared (|K| + 1), sheared_indep _, sheared_planeStress _, ?_, ?_⟩
  · intro i j
    rcases fin3_cases i with rfl | rfl | rfl <;> rcases fin3_cases j with rfl | rfl | rfl <;>
      simp [planeStress]
    norm_num
  · intro c h hc hh
    have hm := le_maxEntry (mmCart (sheared (|K| + 1))
      (Linear.matrix 1 0 (Acon (sheared (|K| + 1))))) 0 0
    rw [mmCart_zero _ (sheared_indep _)] at hm
    obtain ⟨c00, -⟩ := sheared_Acon (|K| + 1)
    have e1 : Acov (sheared (|K| + 1)) 0 0 = 1 := by simp [Acov, sheared, dot]
    have e2 : Linear.matrix 1 0 (Acon (sheared (|K| + 1))) 0 0 = (1 + (|K| + 1) ^ 2) ^ 2 := by
      simp [Linear.matrix, Linear.Cval, Linear.Cconst, Linear.lam, Linear.mu, c00]; ring
    rw [e1, e2] at hm
    have hK : K < (1 + (|K| + 1) ^ 2) ^ 2 := by
      have := le_abs_self K
      have h0 := abs_nonneg K
      nlinarith [sq_nonneg (|K|), sq_nonneg (|K| + 1), mul_nonneg h0 h0,
        sq_nonneg ((|K| + 1) ^ 2)]
    unfold alpha
    have : K < maxEntry (mmCart (sheared (|K| + 1))
      (Linear.matrix 1 0 (Acon (sheared (|K| + 1))))) := lt_of_lt_of_le hK (by simpa using hm)
    exact div_lt_div_of_pos_right (mul_lt_mul_of_pos_left this hc) hh

/-- **C117** For the linear material and every regular parametrisation the penalty factor is at
least that of the true (plane stress) stiffness: oblique tangents never make it too small. -/
theorem C117_lower (s : Surf) (h : Indep (s.a 0) (s.a 1)) (E ν t c hh : ℝ) (hE : 0 ≤ E)
    (h1 : -1 < ν) (h2 : ν < 1 / 2) (ht : 0 ≤ t) (hc : 0 ≤ c) (hhh : 0 < hh) :
    c * (t * (E / (1 - ν ^ 2))) / hh ≤
      alpha c hh s (fun i j => t * Linear.matrix E ν (Acon s) i j) := by
  unfold alpha
  refine div_le_div_of_nonneg_right (mul_le_mul_of_nonneg_left ?_ hc) hhh.le
  refine le_trans ?_ (le_maxEntry _ 0 0)
  rw [mmCart_zero s h]
  obtain ⟨p, q, r, hp, hr, d1, d2, d3, d4, g00, g01, g10, g11⟩ := coords s h
  obtain ⟨-, -, c00, -⟩ := matrices s p q r hp hr d1 d2 d3 d4 g00 g01 g10 g11
  have hC : Linear.matrix E ν (Acon s) 0 0 = E / (1 - ν ^ 2) * Acon s 0 0 ^ 2 := by
    have := (modulus E ν h1 h2).1
    rw [← this]; simp [Linear.matrix, Linear.Cval]; ring
  have hm : 0 ≤ E / (1 - ν ^ 2) := div_nonneg hE (by nlinarith)
  have hk : 1 ≤ (Acov s 0 0 * Acon s 0 0) ^ 2 := by
    have : 1 ≤ Acov s 0 0 * Acon s 0 0 := by
      rw [g00, c00]
      have : p ^ 2 * ((q ^ 2 + r ^ 2) / (p ^ 2 * r ^ 2)) = 1 + (q / r) ^ 2 := by
        field_simp; ring
      rw [this]; nlinarith [sq_nonneg (q / r)]
    nlinarith
  show _ ≤ Acov s 0 0 ^ 2 * (t * Linear.matrix E ν (Acon s) 0 0)
  rw [hC]
  calc t * (E / (1 - ν ^ 2)) = t * (E / (1 - ν ^ 2)) * 1 := by ring
    _ ≤ t * (E / (1 - ν ^ 2)) * (Acov s 0 0 * Acon s 0 0) ^ 2 :=
        mul_le_mul_of_nonneg_left hk (mul_nonneg ht hm)
    _ = _ := by ring

/-- **C117** (partial) For the linear material and orthogonal tangents of any length the penalty
factor is that of the plane stress stiffness: it does not depend on the parametrisation.  Missing:
oblique tangents. -/
theorem C117_isotropic_partial (s : Surf) (h : Indep (s.a 0) (s.a 1)) (h0 : dot (s.a 0) (s.a 1) = 0)
    (E ν t c hh : ℝ) (hE : 0 ≤ E) (h1 : -1 < ν) (h2 : ν < 1 / 2) (ht : 0 ≤ t) :
    alpha c hh s (fun i j => t * Linear.matrix E ν (Acon s) i j) =
      c * (t * (E / (1 - ν ^ 2))) / hh := by
  obtain ⟨p, q, r, hp, hr, d1, d2, d3, d4, g00, g01, g10, g11⟩ := coords s h
  have hq : q = 0 := by
    have : p * q = 0 := by rw [← g01]; exact h0
    exact (mul_eq_zero.mp this).resolve_left hp.ne'
  subst hq
  obtain ⟨hc, hi, c00, c01, c10, c11⟩ := matrices s p 0 r hp hr d1 d2 d3 d4 g00 g01 g10 g11
  obtain ⟨m1, m2⟩ := modulus E ν h1 h2
  have hd : (0 : ℝ) < 1 - ν ^ 2 := by nlinarith
  have hm : 0 ≤ E / (1 - ν ^ 2) := div_nonneg hE hd.le
  have hmu : Linear.mu E ν = E / (1 - ν ^ 2) * ((1 - ν) / 2) := by
    have : 1 - ν ^ 2 = (1 + ν) * (1 - ν) := by ring
    have a : 1 + ν ≠ 0 := by linarith
    have b : 1 - ν ≠ 0 := by linarith
    rw [this]; unfold Linear.mu; field_simp
  have hCc : Linear.Cconst E ν = E / (1 - ν ^ 2) * ν := by rw [m2]; ring
  have hM : mmCart s (fun i j => t * Linear.matrix E ν (Acon s) i j)
      = mk3 (t * (E / (1 - ν ^ 2))) (t * (E / (1 - ν ^ 2)) * ν) 0
        (t * (E / (1 - ν ^ 2)) * ν) (t * (E / (1 - ν ^ 2))) 0
        0 0 (t * (E / (1 - ν ^ 2)) * ((1 - ν) / 2)) := by
    funext i j
    rcases fin3_cases i with rfl | rfl | rfl <;> rcases fin3_cases j with rfl | rfl | rfl <;>
      simp [mmCart, mul3, hc, hi, Fin.sum_univ_three, Linear.matrix, Linear.Cval, c00, c01, c10, c11,
        hmu, hCc] <;> generalize E / (1 - ν ^ 2) = m <;> field_simp <;> ring
  unfold alpha
  rw [hM]
  have hn : 0 ≤ t * (E / (1 - ν ^ 2)) := mul_nonneg ht hm
  have k1 : t * (E / (1 - ν ^ 2)) * ν ≤ t * (E / (1 - ν ^ 2)) :=
    mul_le_of_le_one_right hn (by linarith)
  have k2 : t * (E / (1 - ν ^ 2)) * ((1 - ν) / 2) ≤ t * (E / (1 - ν ^ 2)) :=
    mul_le_of_le_one_right hn (by linarith)
  rw [maxEntry_iso _ _ _ hn k1 k2]

/-- Non-vacuity: tangents of lengths 2 and 3. -/
example : dot ((⟨![⟨2, 0, 0⟩, ⟨0, 3, 0⟩], 0, 0, 0⟩ : Surf).a 0)
    ((⟨![⟨2, 0, 0⟩, ⟨0, 3, 0⟩], 0, 0, 0⟩ : Surf).a 1) = 0 := by simp [dot]

end Verif.Penalty
