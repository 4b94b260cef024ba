import Verif.Lemmas.BalloonLaw
import Mathlib.Analysis.SpecialFunctions.Trigonometric.Deriv
import Mathlib.Analysis.Calculus.LineDeriv.Basic
import Mathlib.Analysis.SpecialFunctions.Trigonometric.Basic

/-! # Lemmas: longitude and latitude on a sphere -/

namespace Verif.Balloon

open V3 Geometry Fields ShellTangent Hyper Spectral Spec.Balloon

/-- The sphere of radius `R` by longitude and latitude. -/
noncomputable def globe (R : ℝ) (q : ℝ × ℝ) : V3 :=
  R • ⟨Real.cos q.2 * Real.cos q.1, Real.cos q.2 * Real.sin q.1, Real.sin q.2⟩

/-- Latitudes between the poles. -/
def band : Set (ℝ × ℝ) := {q | 0 < Real.cos q.2}

theorem pd_line {i : Fin 2} {f : ℝ × ℝ → ℝ} {f' : ℝ} {q : ℝ × ℝ} (hf : DifferentiableAt ℝ f q)
    (h : HasDerivAt (fun t : ℝ => f (q + t • dir i)) f' 0) : pd i f q = f' := by
  have : HasLineDerivAt ℝ f f' q (dir i) := h
  rw [pd_eq, ← hf.lineDeriv_eq_fderiv]
  exact this.lineDeriv

theorem globe_smooth (R : ℝ) : SmoothOn 2 (globe R) band := by
  refine ⟨ContDiff.contDiffOn ?_, ContDiff.contDiffOn ?_, ContDiff.contDiffOn ?_⟩
  · show ContDiff ℝ (2 : ℕ) fun q : ℝ × ℝ => R * (Real.cos q.2 * Real.cos q.1)
    fun_prop
  · show ContDiff ℝ (2 : ℕ) fun q : ℝ × ℝ => R * (Real.cos q.2 * Real.sin q.1)
    fun_prop
  · show ContDiff ℝ (2 : ℕ) fun q : ℝ × ℝ => R * Real.sin q.2
    fun_prop

theorem band_open : IsOpen band := by
  have : Continuous fun q : ℝ × ℝ => Real.cos q.2 := by fun_prop
  exact isOpen_lt continuous_const this

theorem globe_0 (R : ℝ) (q : ℝ × ℝ) : vpd 0 (globe R) q
    = R • ⟨-(Real.cos q.2 * Real.sin q.1), Real.cos q.2 * Real.cos q.1, 0⟩ := by
  have e : ∀ t : ℝ, q + t • dir 0 = (q.1 + t, q.2) := by
    intro t; ext <;> simp [dir]
  have l : HasDerivAt (fun t : ℝ => q.1 + t) 1 0 := by
    simpa using (hasDerivAt_id' (0 : ℝ)).const_add q.1
  ext
  · refine pd_line (f := fun q : ℝ × ℝ => R * (Real.cos q.2 * Real.cos q.1)) (by fun_prop) ?_
    simp only [e]
    refine ((l.cos.const_mul (Real.cos q.2)).const_mul R).congr_deriv ?_
    simp
  · refine pd_line (f := fun q : ℝ × ℝ => R * (Real.cos q.2 * Real.sin q.1)) (by fun_prop) ?_
    simp only [e]
    refine ((l.sin.const_mul (Real.cos q.2)).const_mul R).congr_deriv ?_
    simp
  · refine pd_line (f := fun q : ℝ × ℝ => R * Real.sin q.2) (by fun_prop) ?_
    simp only [e]
    refine (hasDerivAt_const _ _).congr_deriv ?_
    simp

theorem globe_1 (R : ℝ) (q : ℝ × ℝ) : vpd 1 (globe R) q
    = R • ⟨-(Real.sin q.2 * Real.cos q.1), -(Real.sin q.2 * Real.sin q.1), Real.cos q.2⟩ := by
  have e : ∀ t : ℝ, q + t • dir 1 = (q.1, q.2 + t) := by
    intro t; ext <;> simp [dir]
  have l : HasDerivAt (fun t : ℝ => q.2 + t) 1 0 := by
    simpa using (hasDerivAt_id' (0 : ℝ)).const_add q.2
  ext
  · refine pd_line (f := fun q : ℝ × ℝ => R * (Real.cos q.2 * Real.cos q.1)) (by fun_prop) ?_
    simp only [e]
    refine ((l.cos.mul_const (Real.cos q.1)).const_mul R).congr_deriv ?_
    simp
  · refine pd_line (f := fun q : ℝ × ℝ => R * (Real.cos q.2 * Real.sin q.1)) (by fun_prop) ?_
    simp only [e]
    refine ((l.cos.mul_const (Real.sin q.1)).const_mul R).congr_deriv ?_
    simp
  · refine pd_line (f := fun q : ℝ × ℝ => R * Real.sin q.2) (by fun_prop) ?_
    simp only [e]
    refine (l.sin.const_mul R).congr_deriv ?_
    simp

/-- The sphere without its poles. -/
theorem globe_patch {R : ℝ} (hR : 0 < R) : SpherePatch R (globe R) band where
  open' := band_open
  nonempty := ⟨(0, 0), by simp [band]⟩
  radius := hR
  smooth := globe_smooth R
  sphere := by
    intro q _
    have a := Real.sin_sq_add_cos_sq q.1
    have b := Real.sin_sq_add_cos_sq q.2
    simp only [globe, dot, smul_x, smul_y, smul_z]
    linear_combination R ^ 2 * Real.cos q.2 ^ 2 * a + R ^ 2 * b
  outward := by
    intro q hq
    have a := Real.sin_sq_add_cos_sq q.1
    have b := Real.sin_sq_add_cos_sq q.2
    have hq' : 0 < Real.cos q.2 := hq
    have e : dot (cross (vpd 0 (globe R) q) (vpd 1 (globe R) q)) (globe R q)
        = R ^ 3 * Real.cos q.2 := by
      rw [globe_0, globe_1]
      simp only [globe, dot, cross, smul_x, smul_y, smul_z]
      linear_combination R ^ 3 * Real.cos q.2 * (Real.cos q.2 ^ 2 + Real.sin q.2 ^ 2) * a
        + R ^ 3 * Real.cos q.2 * b
    rw [e]
    positivity

/-- Contravariant basis at the mid-surface, as columns. -/
noncomputable def midCols (s : Surf) : Cols := fun k =>
  let v := if k = 0 then acon s 0 else if k = 1 then acon s 1 else normal s
  vec3 v.x v.y v.z

open Classical in
/-- An exact eigenvalue solver. -/
noncomputable def exactSolver (B : T3) : Eig :=
  if h : ∃ E : Eig, Spec.Spectral.IsEigenDecomposition B E.val E.vec then h.choose else ⟨0, 0⟩

/-- The hypothesis on the solver holds for the globe stretched by 2. -/
theorem regular_globe {q : ℝ × ℝ} (hq : q ∈ band) :
    Regular (Gblock (jet (globe 1) q) 0) (Gblock (jet (fun q => (2 : ℝ) • globe 1 q) q) 0)
      (midCols (jet (globe 1) q)) (eigOf exactSolver
        (Bmat (Gblock (jet (fun q => (2 : ℝ) • globe 1 q) q) 0) (midCols (jet (globe 1) q)))) := by
  have hS := sph (globe_patch one_pos) hq
  have hc : 0 < Real.cos q.2 := hq
  have k1 := Real.sin_sq_add_cos_sq q.1
  have k2 := Real.sin_sq_add_cos_sq q.2
  set s := jet (globe 1) q with hs
  have a0 : s.a 0 = ⟨-(Real.cos q.2 * Real.sin q.1), Real.cos q.2 * Real.cos q.1, 0⟩ := by
    show vpd 0 (globe 1) q = _
    rw [globe_0]; ext <;> simp
  have a1 : s.a 1 = ⟨-(Real.sin q.2 * Real.cos q.1), -(Real.sin q.2 * Real.sin q.1), Real.cos q.2⟩ := by
    show vpd 1 (globe 1) q = _
    rw [globe_1]; ext <;> simp
  have n : normal s = ⟨Real.cos q.2 * Real.cos q.1, Real.cos q.2 * Real.sin q.1, Real.sin q.2⟩ := by
    have := normal_scale hS one_pos
    have e : scaleS 1 s = s := by
      have : ∀ v : V3, (1 : ℝ) • v = v := by intro v; ext <;> simp
      simp [scaleS, this]
    rw [e] at this
    rw [this]; ext <;> simp [globe]
  generalize Real.cos q.1 = c at *
  generalize Real.sin q.1 = d at *
  generalize Real.cos q.2 = C at *
  generalize Real.sin q.2 = D at *
  have A00 : Acov s 0 0 = C ^ 2 := by
    simp only [Acov, a0, dot]; linear_combination C ^ 2 * k1
  have A01 : Acov s 0 1 = 0 := by simp only [Acov, a0, a1, dot]; ring
  have A10 : Acov s 1 0 = 0 := by simp only [Acov, a0, a1, dot]; ring
  have A11 : Acov s 1 1 = 1 := by
    simp only [Acov, a1, dot]; linear_combination D ^ 2 * k1 + k2
  have dA : det2 (Acov s) = C ^ 2 := by simp only [det2, A00, A01, A10, A11]; ring
  have i00 : Acon s 0 0 = 1 / C ^ 2 := by
    show Acov s 1 1 / det2 (Acov s) = _; rw [A11, dA]
  have i01 : Acon s 0 1 = 0 := by show -(Acov s 0 1) / det2 (Acov s) = _; rw [A01]; simp
  have i10 : Acon s 1 0 = 0 := by show -(Acov s 1 0) / det2 (Acov s) = _; rw [A10]; simp
  have i11 : Acon s 1 1 = 1 := by
    show Acov s 0 0 / det2 (Acov s) = _; rw [A00, dA]; exact div_self (by positivity)
  have b0 : acon s 0 = ⟨-(d / C), c / C, 0⟩ := by
    rw [acon, i00, i01, a0, a1]; ext <;> simp <;> field_simp
  have b1 : acon s 1 = ⟨-(D * c), -(D * d), C⟩ := by
    rw [acon, i10, i11, a0, a1]; ext <;> simp
  have g0 : midCols s 0 = vec3 (-(d / C)) (c / C) 0 := by simp [midCols, b0]
  have g1 : midCols s 1 = vec3 (-(D * c)) (-(D * d)) C := by simp [midCols, b1]
  have g2 : midCols s 2 = vec3 (C * c) (C * d) D := by simp [midCols, n]
  have G : Gblock s 0 = Acov s := by
    funext i k; rw [Gblock_sph hS, zero_div, add_zero]; ring
  have G' : Gblock (jet (fun q => (2 : ℝ) • globe 1 q) q) 0 = fun i k => 4 * Acov s i k := by
    funext i k
    rw [jet_smul, ← hs, Gblock_scale hS two_pos, zero_div, add_zero]; norm_num
  have B : ∀ a b, Bmat (fun i k => 4 * Acov s i k) (midCols s) a b
      = 4 * (vec3 (-d) c 0 a * vec3 (-d) c 0 b + vec3 (-(D * c)) (-(D * d)) C a
        * vec3 (-(D * c)) (-(D * d)) C b) := by
    intro a b
    simp only [Bmat, Fin.sum_univ_two, up_zero, up_one, A00, A01, A10, A11, g0, g1]
    have z : ∀ a, vec3 (-(d / C)) (c / C) 0 a = vec3 (-d) c 0 a / C := by
      intro a
      rcases fin3_cases a with rfl | rfl | rfl
      · simp only [vec3_zero]; ring
      · simp only [vec3_one]
      · simp only [vec3_two]; simp
    rw [z, z]
    field_simp
    ring
  rw [G, G']
  have ns : ¬ shortcut (Bmat (fun i k => 4 * Acov s i k) (midCols s)) := by
    simp only [shortcut, B, vec3_zero, vec3_one, eps, not_lt]
    have e : 4 * (-d * -d + -(D * c) * -(D * c)) - 1 + (4 * (c * c + -(D * d) * -(D * d)) - 1)
        = 2 + 4 * D ^ 2 := by linear_combination (4 + 4 * D ^ 2) * k1
    rw [e, abs_of_nonneg (by positivity)]
    have := sq_nonneg D
    norm_num
    linarith
  have ex : ∃ E : Eig, Spec.Spectral.IsEigenDecomposition
      (Bmat (fun i k => 4 * Acov s i k) (midCols s)) E.val E.vec := by
    set V : Fin 3 → Fin 3 → ℝ := fun a => if a = 0 then vec3 (C * c) (C * d) D
      else if a = 1 then vec3 (-d) c 0 else vec3 (-(D * c)) (-(D * d)) C with hV
    have o : ∀ a b, (∑ i, V a i * V b i) = if a = b then 1 else 0 := by
      intro a b
      rcases fin3_cases a with rfl | rfl | rfl <;> rcases fin3_cases b with rfl | rfl | rfl <;>
        simp [hV, Fin.sum_univ_three]
      · linear_combination C ^ 2 * k1 + k2
      · ring
      · linear_combination -C * D * k1
      · ring
      · linear_combination k1
      · ring
      · linear_combination -C * D * k1
      · ring
      · linear_combination D ^ 2 * k1 + k2
    refine ⟨⟨vec3 0 4 4, V⟩, by simp, o, ?_⟩
    intro a i
    have e : (∑ j, Bmat (fun i k => 4 * Acov s i k) (midCols s) i j * V a j)
        = 4 * (V 1 i * (∑ j, V 1 j * V a j) + V 2 i * ∑ j, V 2 j * V a j) := by
      simp only [B, Fin.sum_univ_three]
      simp [hV]
      ring
    show (∑ j, Bmat (fun i k => 4 * Acov s i k) (midCols s) i j * V a j) = vec3 0 4 4 a * V a i
    rw [e, o, o]
    rcases fin3_cases a with rfl | rfl | rfl <;> simp
  rw [eigOf, if_neg ns]
  refine ⟨by rw [dA]; positivity, by rw [A01, A10], ⟨by simp only [A01, A10], ?_⟩, ?_, ?_, ?_, ?_⟩
  · intro u v h
    simp only [A00, A01, A10, A11]
    rcases h with h | h
    · have : 0 < C ^ 2 * u ^ 2 := by positivity
      nlinarith [sq_nonneg v]
    · have : 0 < v ^ 2 := by positivity
      nlinarith [mul_nonneg (sq_nonneg C) (sq_nonneg u)]
  · intro i j
    have hi : ∀ i j, inv2 (Acov s) i j = Acon s i j := fun _ _ => rfl
    rw [hi]
    rcases fin2_cases i with rfl | rfl <;> rcases fin2_cases j with rfl | rfl <;>
      simp only [up_zero, up_one, cdot, Fin.sum_univ_three, g0, g1, vec3_zero, vec3_one, vec3_two, i00,
        i01, i10, i11]
    · field_simp; linear_combination k1
    · ring
    · ring
    · linear_combination D ^ 2 * k1 + k2
  · intro i
    rcases fin2_cases i with rfl | rfl <;>
      simp only [up_zero, up_one, cdot, Fin.sum_univ_three, g0, g1, g2, vec3_zero, vec3_one, vec3_two]
    · field_simp; ring
    · linear_combination -C * D * k1
  · simp only [cdot, Fin.sum_univ_three, g2, vec3_zero, vec3_one, vec3_two]
    have : C * c * (C * c) + C * d * (C * d) + D * D = 1 := by linear_combination C ^ 2 * k1 + k2
    rw [this]; norm_num
  · unfold exactSolver
    rw [dif_pos ex]
    exact ex.choose_spec

end Verif.Balloon
