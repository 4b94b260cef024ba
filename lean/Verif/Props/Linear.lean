import Verif.Lemmas.Linear

/-! # Properties C18 – C22: the linear material -/

namespace Verif.Linear

open Verif.Geometry V3

/-! ## C18 -/

/-- **C18** Minor and major symmetries of the elasticity tensor for every symmetric metric. -/
theorem C18_symmetries (E ν : ℝ) (A : T2) (hA : ∀ i j, A i j = A j i) (i j k l : Fin 2) :
    Cval E ν A i j k l = Cval E ν A j i k l ∧ Cval E ν A i j k l = Cval E ν A i j l k ∧
    Cval E ν A i j k l = Cval E ν A k l i j := by
  unfold Cval
  refine ⟨?_, ?_, ?_⟩
  · rw [hA i j]; ring
  · rw [hA k l]; ring
  · rw [hA k i, hA l j, hA k j, hA l i]; ring

/-- **C18** The material matrix is symmetric. -/
theorem C18_matrix_symmetric (E ν : ℝ) (A : T2) (i j : Fin 3) :
    matrix E ν A i j = matrix E ν A j i := by
  rcases fin3_cases i with rfl | rfl | rfl <;> rcases fin3_cases j with rfl | rfl | rfl <;>
    simp [matrix]

/-- **C18** The returned stress is the material matrix times the Voigt strain with doubled
shear, for every symmetric strain (and it is the full double contraction of the tensor). -/
theorem C18_stress_is_matrix_times_strain (E ν : ℝ) (A e : T2) (hA : ∀ i j, A i j = A j i)
    (he : e 0 1 = e 1 0) (k : Fin 3) :
    stress E ν A e k = mulVec3 (matrix E ν A) (vec3 (e 0 0) (e 1 1) (e 0 1 + e 1 0)) k := by
  have h10 := hA 1 0
  rcases fin3_cases k with rfl | rfl | rfl <;>
    simp [stress, mulVec3, matrix, Sij, Fin.sum_univ_three, Cval, he, h10] <;> ring

/-- **C18** The tensor is available (no error, no division by zero) exactly for the
admissible constants. -/
theorem C18_available (E ν : ℝ) (A : T2) (i j k l : Fin 2) (hE : E ≠ 0) :
    Cijkl E ν A i j k l = .ok (Cval E ν A i j k l) ↔ (ν ≠ -1 ∧ ν ≠ 1 / 2 ∧ ν ≠ 1) := by
  unfold Cijkl
  by_cases h1 : 1 + ν = 0
  · simp [h1]; intro h; exact absurd (by linarith) h
  by_cases h2 : 1 - 2 * ν = 0
  · simp [h1, h2]; intro _ h; exact absurd (by linarith) h
  have e := lam_two_mu E ν h1 h2
  by_cases h3 : 1 - ν = 0
  · have : lam E ν + 2 * mu E ν = 0 := by rw [e, h3]; simp
    simp [h1, h2, this]; intro _ _; linarith
  · have : lam E ν + 2 * mu E ν ≠ 0 := by
      rw [e]; exact div_ne_zero (mul_ne_zero hE h3) (mul_ne_zero h1 h2)
    simp only [h1, h2, this, if_false, true_iff]
    refine ⟨fun h => h1 (by linarith), fun h => h2 (by linarith), fun h => h3 (by linarith)⟩

/-- Non-vacuity: a skew symmetric-positive metric and a shear strain give a non-zero stress. -/
example : stress 1 0 ![![2, 1], ![1, 3]] ![![0, 1], ![1, 0]] 2 = 7 := by
  simp [stress, Sij, Cval, Cconst, mu, lam]; norm_num

/-! ## C19 -/

/-- Specification: plane-stress Hooke matrix. -/
noncomputable def hooke (E ν : ℝ) : T3 :=
  mk3 (E / (1 - ν ^ 2)) (E / (1 - ν ^ 2) * ν) 0
    (E / (1 - ν ^ 2) * ν) (E / (1 - ν ^ 2)) 0
    0 0 (E / (1 - ν ^ 2) * ((1 - ν) / 2))

/-- Specification: plane-stress compliance. -/
noncomputable def compliance (E ν : ℝ) : T3 :=
  mk3 (1 / E) (-ν / E) 0 (-ν / E) (1 / E) 0 0 0 (2 * (1 + ν) / E)

/-- Identity metric. -/
def idMetric : T2 := ![![1, 0], ![0, 1]]

/-- **C19** In an orthonormal basis the material matrix is the plane-stress Hooke matrix. -/
theorem C19_hooke (E ν : ℝ) (h1 : ν ≠ -1) (h2 : ν ≠ 1 / 2) (h3 : ν ≠ 1) (i j : Fin 3) :
    matrix E ν idMetric i j = hooke E ν i j := by
  have g1 : 1 + ν ≠ 0 := fun h => h1 (by linarith)
  have g2 : 1 - 2 * ν ≠ 0 := fun h => h2 (by linarith)
  have g3 : 1 - ν ≠ 0 := fun h => h3 (by linarith)
  have g4 : 1 - ν ^ 2 ≠ 0 := by
    have : 1 - ν ^ 2 = (1 + ν) * (1 - ν) := by ring
    rw [this]; exact mul_ne_zero g1 g3
  have hc := Cconst_eq E ν g1 g2 g3
  rcases fin3_cases i with rfl | rfl | rfl <;> rcases fin3_cases j with rfl | rfl | rfl <;>
    simp [matrix, hooke, Cval, idMetric, hc] <;> unfold mu <;>
    rw [show 1 - ν ^ 2 = (1 + ν) * (1 - ν) by ring] <;> field_simp <;> ring

/-- **C19** Its inverse is the plane-stress compliance. -/
theorem C19_compliance (E ν : ℝ) (hE : E ≠ 0) (h1 : ν ≠ -1) (h2 : ν ≠ 1 / 2) (h3 : ν ≠ 1)
    (i j : Fin 3) :
    mul3 (matrix E ν idMetric) (compliance E ν) i j = δ i j := by
  have g1 : 1 + ν ≠ 0 := fun h => h1 (by linarith)
  have g3 : 1 - ν ≠ 0 := fun h => h3 (by linarith)
  have g4 : 1 - ν ^ 2 ≠ 0 := by
    have : 1 - ν ^ 2 = (1 + ν) * (1 - ν) := by ring
    rw [this]; exact mul_ne_zero g1 g3
  unfold mul3
  rw [Fin.sum_univ_three, C19_hooke E ν h1 h2 h3, C19_hooke E ν h1 h2 h3, C19_hooke E ν h1 h2 h3]
  rcases fin3_cases i with rfl | rfl | rfl <;> rcases fin3_cases j with rfl | rfl | rfl <;>
    simp [hooke, compliance, δ] <;>
    rw [show 1 - ν ^ 2 = (1 + ν) * (1 - ν) by ring] <;> field_simp <;> ring

/-- **C19** An incompressible material (`ν = 1/2`) is rejected with an error for every
Young's modulus and metric, although the Hooke matrix is finite there. -/
theorem C19_incompressible_rejected (E : ℝ) (A : T2) (i j k l : Fin 2) :
    Cijkl E (1 / 2) A i j k l = .throws := by
  unfold Cijkl
  rw [if_neg (by norm_num), if_pos (by norm_num)]

/-- Non-vacuity: steel-like constants. -/
example : matrix 210 (1 / 4) idMetric 0 1 = 56 := by
  rw [C19_hooke _ _ (by norm_num) (by norm_num) (by norm_num)]; simp [hooke]; norm_num

/-! ## C20 -/

/-- **C20** For admissible constants and every positive definite metric the strain energy is
strictly positive for every non-zero symmetric strain. -/
theorem C20_positive_energy (E ν : ℝ) (hE : 0 < E) (h1 : -1 < ν) (h2 : ν < 1 / 2) (A e : T2)
    (hA : A 0 1 = A 1 0) (hpos : 0 < A 0 0) (hdet : 0 < A 0 0 * A 1 1 - A 0 1 * A 1 0)
    (he : e 0 1 = e 1 0) (hne : ∃ i j, e i j ≠ 0) :
    0 < ∑ i, ∑ j, ∑ k, ∑ l, Cval E ν A i j k l * e i j * e k l := by
  rw [energy_form E ν A e hA he, Cconst_eq E ν (by linarith) (by linarith) (by linarith)]
  have hmu : 0 < mu E ν := by unfold mu; apply div_pos hE; linarith
  have hk : -(1 / 2) < ν / (1 - ν) := by
    rw [lt_div_iff₀ (by linarith)]; linarith
  have hne' : ¬ (e 0 0 = 0 ∧ e 0 1 = 0 ∧ e 1 1 = 0) := by
    rintro ⟨a, b, c⟩
    obtain ⟨i, j, hij⟩ := hne
    apply hij
    rcases fin2_cases i with rfl | rfl <;> rcases fin2_cases j with rfl | rfl
    · exact a
    · exact b
    · rw [← he]; exact b
    · exact c
  have hdet' : 0 < A 0 0 * A 1 1 - A 0 1 * A 0 1 := by rw [hA]; rw [hA] at hdet; exact hdet
  have := invariants (A 0 0) (A 0 1) (A 1 1) (e 0 0) (e 0 1) (e 1 1) (ν / (1 - ν)) hpos hdet' hk hne'
  have h2mu : 0 < 2 * mu E ν := by linarith
  have := mul_pos h2mu this
  nlinarith

/-- **C20** The same for the 3×3 matrix and Voigt strain `(e00, e11, 2 e01)`: the quadratic
form of the material matrix is the energy, hence positive definite. -/
theorem C20_matrix_form (E ν : ℝ) (A e : T2) (hA : A 0 1 = A 1 0) (he : e 0 1 = e 1 0) :
    dotV (vec3 (e 0 0) (e 1 1) (2 * e 0 1)) (mulVec3 (matrix E ν A) (vec3 (e 0 0) (e 1 1) (2 * e 0 1))) =
      ∑ i, ∑ j, ∑ k, ∑ l, Cval E ν A i j k l * e i j * e k l := by
  simp [dotV, mulVec3, matrix, Fin.sum_univ_three, Fin.sum_univ_two, Cval, hA, he]; ring

/-- **C20** The contravariant metric of a regular surface satisfies the hypotheses. -/
theorem C20_surface_metric (s : Surf) (h : Indep (s.a 0) (s.a 1)) :
    Acon s 0 1 = Acon s 1 0 ∧ 0 < Acon s 0 0 ∧ 0 < Acon s 0 0 * Acon s 1 1 - Acon s 0 1 * Acon s 1 0 := by
  have hd := det_Acov_pos s h.cross_ne
  have hs := Acov_symm s 0 1
  have h11 : 0 < Acov s 1 1 := by
    by_contra hc
    have h0 : 0 ≤ Acov s 0 0 := dot_self_nonneg _
    have h1 : 0 ≤ Acov s 1 1 := dot_self_nonneg _
    have : Acov s 1 1 = 0 := le_antisymm (not_lt.1 hc) h1
    unfold det2 at hd
    rw [this, hs] at hd
    nlinarith [mul_self_nonneg (Acov s 1 0)]
  refine ⟨inv2_symm _ hs 0 1, ?_, ?_⟩
  · have : Acon s 0 0 = Acov s 1 1 / det2 (Acov s) := by simp [Acon, inv2]
    rw [this]; exact div_pos h11 hd
  · have : Acon s 0 0 * Acon s 1 1 - Acon s 0 1 * Acon s 1 0 = 1 / det2 (Acov s) := by
      simp only [Acon, inv2]
      simp
      field_simp
      unfold det2; ring
    rw [this]; exact one_div_pos.2 hd

/-- Non-vacuity: an auxetic material (negative Poisson ratio) on a skew metric, pure shear. -/
example : 0 < ∑ i, ∑ j, ∑ k, ∑ l,
    Cval 1 (-1 / 2) ![![2, 1], ![1, 3]] i j k l * (![![0, 1], ![1, 0]] : T2) i j
      * (![![0, 1], ![1, 0]] : T2) k l :=
  C20_positive_energy 1 (-1 / 2) (by norm_num) (by norm_num) (by norm_num) _ _ (by simp)
    (by simp) (by simp; norm_num) (by simp) ⟨0, 1, by simp⟩

/-! ## C21 -/

/-- Specification: derivatives of a re-parametrised surface.  `P` is the Jacobian of the
change of parameters, `Γ` holds its second derivatives. -/
def reparam (P : T2) (Γ11 Γ22 Γ12 : Fin 2 → ℝ) (s : Surf) : Surf where
  a := fun i => P i 0 • s.a 0 + P i 1 • s.a 1
  d11 := (P 0 0 * P 0 0) • s.d11 + (2 * P 0 0 * P 0 1) • s.d12 + (P 0 1 * P 0 1) • s.d22
    + Γ11 0 • s.a 0 + Γ11 1 • s.a 1
  d22 := (P 1 0 * P 1 0) • s.d11 + (2 * P 1 0 * P 1 1) • s.d12 + (P 1 1 * P 1 1) • s.d22
    + Γ22 0 • s.a 0 + Γ22 1 • s.a 1
  d12 := (P 0 0 * P 1 0) • s.d11 + (P 0 0 * P 1 1 + P 0 1 * P 1 0) • s.d12
    + (P 0 1 * P 1 1) • s.d22 + Γ12 0 • s.a 0 + Γ12 1 • s.a 1

/-- Strain energy density of a strain on a surface (twice). -/
noncomputable def energy (E ν : ℝ) (ori : Surf) (e : T2) : ℝ :=
  ∑ i, ∑ j, ∑ k, ∑ l, Cval E ν (Acon ori) i j k l * e i j * e k l

/-- Congruence of tensors. -/
def congr (P e : T2) : T2 := fun i j =>
  P i 0 * P j 0 * e 0 0 + P i 0 * P j 1 * e 0 1 + P i 1 * P j 0 * e 1 0 + P i 1 * P j 1 * e 1 1

theorem energy_congr (E ν : ℝ) (P M e : T2) (hP : det2 P ≠ 0) (hM : det2 M ≠ 0)
    (hs : M 0 1 = M 1 0) (he : e 0 1 = e 1 0) :
    (∑ i, ∑ j, ∑ k, ∑ l, Cval E ν (inv2 (congr P M)) i j k l * congr P e i j * congr P e k l) =
      ∑ i, ∑ j, ∑ k, ∑ l, Cval E ν (inv2 M) i j k l * e i j * e k l := by
  have hdet : det2 (congr P M) = det2 P ^ 2 * det2 M := by simp [det2, congr]; ring
  have h1 : inv2 (congr P M) 0 1 = inv2 (congr P M) 1 0 :=
    inv2_symm _ (by simp [congr, hs]; ring) 0 1
  have h2 : inv2 M 0 1 = inv2 M 1 0 := inv2_symm _ hs 0 1
  rw [energy_form E ν _ _ h1 (by simp [congr, he]; ring), energy_form E ν _ _ h2 he]
  have t1 : inv2 (congr P M) 0 0 * congr P e 0 0 + 2 * inv2 (congr P M) 0 1 * congr P e 0 1
      + inv2 (congr P M) 1 1 * congr P e 1 1 =
      inv2 M 0 0 * e 0 0 + 2 * inv2 M 0 1 * e 0 1 + inv2 M 1 1 * e 1 1 := by
    simp only [inv2, hdet]
    simp
    rw [← sub_eq_zero]
    field_simp
    simp only [congr, det2, ← he, ← hs]
    ring
  have t2 : (inv2 (congr P M) 0 0 * congr P e 0 0 + inv2 (congr P M) 0 1 * congr P e 0 1) ^ 2
      + 2 * (inv2 (congr P M) 0 0 * congr P e 0 1 + inv2 (congr P M) 0 1 * congr P e 1 1)
        * (inv2 (congr P M) 0 1 * congr P e 0 0 + inv2 (congr P M) 1 1 * congr P e 0 1)
      + (inv2 (congr P M) 0 1 * congr P e 0 1 + inv2 (congr P M) 1 1 * congr P e 1 1) ^ 2 =
      (inv2 M 0 0 * e 0 0 + inv2 M 0 1 * e 0 1) ^ 2
      + 2 * (inv2 M 0 0 * e 0 1 + inv2 M 0 1 * e 1 1) * (inv2 M 0 1 * e 0 0 + inv2 M 1 1 * e 0 1)
      + (inv2 M 0 1 * e 0 1 + inv2 M 1 1 * e 1 1) ^ 2 := by
    have key : ∀ A f : T2, (A 0 0 * f 0 0 + A 0 1 * f 0 1) ^ 2
      + 2 * (A 0 0 * f 0 1 + A 0 1 * f 1 1) * (A 0 1 * f 0 0 + A 1 1 * f 0 1)
      + (A 0 1 * f 0 1 + A 1 1 * f 1 1) ^ 2 =
      (A 0 0 * f 0 0 + 2 * A 0 1 * f 0 1 + A 1 1 * f 1 1) ^ 2
      - 2 * (A 0 0 * A 1 1 - A 0 1 ^ 2) * (f 0 0 * f 1 1 - f 0 1 ^ 2) := by intro A f; ring
    rw [key, key, t1]
    congr 1
    have d1 : inv2 (congr P M) 0 0 * inv2 (congr P M) 1 1 - inv2 (congr P M) 0 1 ^ 2 = 1 / det2 (congr P M) := by
      have hne : det2 (congr P M) ≠ 0 := by rw [hdet]; exact mul_ne_zero (pow_ne_zero 2 hP) hM
      rw [pow_two, h1]
      nth_rewrite 1 [← h1]
      simp only [inv2]
      simp
      field_simp
      simp only [det2]; ring
    have d2 : inv2 M 0 0 * inv2 M 1 1 - inv2 M 0 1 ^ 2 = 1 / det2 M := by
      rw [pow_two, h2]
      nth_rewrite 1 [← h2]
      simp only [inv2]
      simp
      field_simp
      simp only [det2]; ring
    rw [d1, d2, hdet]
    have : congr P e 0 0 * congr P e 1 1 - congr P e 0 1 ^ 2 = det2 P ^ 2 * (e 0 0 * e 1 1 - e 0 1 ^ 2) := by
      simp only [congr, det2, ← he]; ring
    rw [this]
    field_simp
  rw [t1, t2]

theorem Acov_reparam (P : T2) (g1 g2 g3 : Fin 2 → ℝ) (s : Surf) :
    Acov (reparam P g1 g2 g3 s) = congr P (Acov s) := by
  funext i j
  simp only [Acov, reparam, congr, dot_add_left, dot_add_right, dot_smul_left, dot_smul_right]
  ring

/-- The unit normal of a re-parametrised surface is the old one, up to orientation. -/
theorem normal_reparam (P : T2) (g1 g2 g3 : Fin 2 → ℝ) (s : Surf) :
    normal (reparam P g1 g2 g3 s) = (det2 P / |det2 P|) • normal s := by
  have hc : cross ((reparam P g1 g2 g3 s).a 0) ((reparam P g1 g2 g3 s).a 1) =
      det2 P • cross (s.a 0) (s.a 1) := by
    ext <;> simp [reparam, cross, det2] <;> ring
  have hn : V3.norm (det2 P • cross (s.a 0) (s.a 1)) = |det2 P| * V3.norm (cross (s.a 0) (s.a 1)) := by
    unfold V3.norm
    rw [dot_smul_left, dot_smul_right, ← mul_assoc, Real.sqrt_mul (mul_self_nonneg _),
      Real.sqrt_mul_self_eq_abs]
  unfold normal normalized
  rw [hc, hn]
  ext <;> simp <;> ring

theorem Bcov_reparam (P : T2) (g1 g2 g3 : Fin 2 → ℝ) (s : Surf) (i j : Fin 2) :
    Bcov (reparam P g1 g2 g3 s) i j = det2 P / |det2 P| * congr P (Bcov s) i j := by
  have h0 := dot_a_normal s 0
  have h1 := dot_a_normal s 1
  have e00 : ∀ t : Surf, Bcov t 0 0 = dot t.d11 (normal t) := fun _ => rfl
  have e01 : ∀ t : Surf, Bcov t 0 1 = dot t.d12 (normal t) := fun _ => rfl
  have e10 : ∀ t : Surf, Bcov t 1 0 = dot t.d12 (normal t) := fun _ => rfl
  have e11 : ∀ t : Surf, Bcov t 1 1 = dot t.d22 (normal t) := fun _ => rfl
  rcases fin2_cases i with rfl | rfl <;> rcases fin2_cases j with rfl | rfl <;>
    simp only [e00, e01, e10, e11, congr] <;> rw [normal_reparam] <;>
    simp only [dot_smul_right, reparam, dot_add_left, dot_smul_left, h0, h1] <;> ring

/-- **C21** The membrane energy density of the linear material does not depend on the
parametrisation: any regular change of parameters (Jacobian `P`, second derivatives `Γ`)
of reference and deformed surface gives the same value. -/
theorem C21_membrane_invariant (E ν : ℝ) (P : T2) (hP : det2 P ≠ 0) (g1 g2 g3 : Fin 2 → ℝ)
    (ori defo : Surf) (h : Indep (ori.a 0) (ori.a 1)) :
    energy E ν (reparam P g1 g2 g3 ori)
        (membraneStrain (reparam P g1 g2 g3 ori) (reparam P g1 g2 g3 defo)) =
      energy E ν ori (membraneStrain ori defo) := by
  have hd := (det_Acov_pos ori h.cross_ne).ne'
  have he : membraneStrain (reparam P g1 g2 g3 ori) (reparam P g1 g2 g3 defo) =
      congr P (membraneStrain ori defo) := by
    funext i j
    simp only [membraneStrain, Acov_reparam, congr]; ring
  unfold energy Acon
  rw [he, Acov_reparam]
  exact energy_congr E ν P (Acov ori) _ hP hd (Acov_symm ori 0 1)
    (by simp only [membraneStrain, Acov_symm ori 0 1, Acov_symm defo 0 1])

/-- **C21** The same for the bending energy (also when the change of parameters reverses the
orientation, which flips both normals). -/
theorem C21_bending_invariant (E ν : ℝ) (P : T2) (hP : det2 P ≠ 0) (g1 g2 g3 : Fin 2 → ℝ)
    (ori defo : Surf) (h : Indep (ori.a 0) (ori.a 1)) :
    energy E ν (reparam P g1 g2 g3 ori)
        (bendingStrain (reparam P g1 g2 g3 ori) (reparam P g1 g2 g3 defo)) =
      energy E ν ori (bendingStrain ori defo) := by
  have hd := (det_Acov_pos ori h.cross_ne).ne'
  have hs : det2 P / |det2 P| * (det2 P / |det2 P|) = 1 := by
    rw [div_mul_div_comm, abs_mul_abs_self]
    exact div_self (mul_ne_zero hP hP)
  have he : bendingStrain (reparam P g1 g2 g3 ori) (reparam P g1 g2 g3 defo) =
      fun i j => det2 P / |det2 P| * congr P (bendingStrain ori defo) i j := by
    funext i j
    simp only [bendingStrain, Bcov_reparam, congr]; ring
  unfold energy Acon
  rw [he, Acov_reparam]
  have := energy_congr E ν P (Acov ori) (bendingStrain ori defo) hP hd (Acov_symm ori 0 1)
    (by simp only [bendingStrain, Bcov_symm ori 0 1, Bcov_symm defo 0 1])
  rw [← this]
  refine Finset.sum_congr rfl fun i _ => Finset.sum_congr rfl fun j _ =>
    Finset.sum_congr rfl fun k _ => Finset.sum_congr rfl fun l _ => ?_
  linear_combination (Cval E ν (inv2 (congr P (Acov ori))) i j k l * congr P (bendingStrain ori defo) i j
    * congr P (bendingStrain ori defo) k l) * hs

/-- **C21** is violated in the planar case, where the stored contravariant metric is the
covariant one (see C15): doubling the first parameter changes the energy of the same
uniaxial stretch.  `J'` is the doubled Jacobian, the strain scales covariantly. -/
theorem C21_planar_violated :
    ∃ J J' : Fin 2 → Fin 2 → ℝ, ∃ e e' : T2, (∀ i j, J' i j = (if i = 0 then 2 else 1) * J i j) ∧
      (∀ i j, e' i j = (if i = 0 then 2 else 1) * (if j = 0 then 2 else 1) * e i j) ∧
      (∑ i, ∑ j, ∑ k, ∑ l, Cval 1 0 (storedAconPlanar J) i j k l * e i j * e k l) ≠
        ∑ i, ∑ j, ∑ k, ∑ l, Cval 1 0 (storedAconPlanar J') i j k l * e' i j * e' k l := by
  refine ⟨![![1, 0], ![0, 1]], ![![2, 0], ![0, 1]], ![![1, 0], ![0, 0]], ![![4, 0], ![0, 0]],
    ?_, ?_, ?_⟩
  · intro i j; rcases fin2_cases i with rfl | rfl <;> rcases fin2_cases j with rfl | rfl <;> simp
  · intro i j; rcases fin2_cases i with rfl | rfl <;> rcases fin2_cases j with rfl | rfl <;> simp; norm_num
  · simp [Fin.sum_univ_two, Cval, Cconst, mu, lam, storedAconPlanar, AcovPlanar]; norm_num

/-- Non-vacuity: a shear of the parameters is regular. -/
example : det2 ![![1, 2], ![0, 1]] ≠ 0 := by simp [det2]

/-! ## C22 -/

/-- **C22** is violated: two of the output kinds offered by the evaluator are not accepted by
the linear material – the Cauchy stress and the principal stress directions raise an error
(and the latter would continue with a reshape of 6 to 9 entries). -/
theorem C22_outputs_violated :
    evaluatesStress .cauchyStress = true ∧ evalOutput .cauchyStress = .throws ∧
    evaluatesStress .pstressDir = true ∧ evalOutput .pstressDir = .throws ∧
    reshapeOk (3 * 2) 9 = .ub := by decide

/-- **C22** (partial) All other output kinds are evaluated, with the membrane strain for
`…N`, the bending strain for `…M` and the full strain for the pointwise kinds. -/
theorem C22_outputs_partial (o : Output) (h : evaluatesStress o = true)
    (h1 : o ≠ .cauchyStress) (h2 : o ≠ .pstressDir) :
    ∃ k, evalOutput o = .ok k ∧
      (o ∈ [Output.vectorN, .cauchyVectorN, .pstressN, .pcauchyStressN, .stressN, .cauchyStressN]
        → k = .membrane) ∧
      (o ∈ [Output.vectorM, .cauchyVectorM, .pstressM, .pcauchyStressM, .stressM, .cauchyStressM]
        → k = .bending) ∧
      (o ∈ [Output.generic, .pstress, .stress] → k = .full) := by
  cases o <;> simp_all [evaluatesStress, evalOutput, strainKind]

/-- Non-vacuity. -/
example : evaluatesStress .stressM = true ∧ evalOutput .stressM = .ok .bending := by decide

end Verif.Linear
