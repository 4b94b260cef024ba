import Verif.Model.Spectral
import Verif.Spec.Spectral
import Verif.Lemmas.Hyper
import Mathlib.LinearAlgebra.Matrix.Determinant.Basic
import Mathlib.LinearAlgebra.Matrix.NonsingularInverse

/-! # Helper lemmas: the principal frame -/

set_option linter.unusedSimpArgs false

namespace Verif.Spectral

open Verif.Hyper Spec.Spectral Matrix

/-- Orthonormal rows are complete. -/
theorem complete {vec : Fin 3 → Fin 3 → ℝ}
    (h : ∀ a b, (∑ i, vec a i * vec b i) = if a = b then 1 else 0) (i j : Fin 3) :
    (∑ a, vec a i * vec a j) = if i = j then 1 else 0 := by
  have h1 : (Matrix.of vec) * (Matrix.of vec)ᵀ = 1 := by
    ext a b
    simp only [Matrix.mul_apply, Matrix.transpose_apply, Matrix.of_apply, h, Matrix.one_apply]
  have h2 := _root_.mul_eq_one_comm.1 h1
  have h3 := congrFun (congrFun h2 i) j
  simpa only [Matrix.mul_apply, Matrix.transpose_apply, Matrix.of_apply, Matrix.one_apply] using h3

/-- Dot products in an orthonormal basis. -/
theorem cdot_complete {vec : Fin 3 → Fin 3 → ℝ}
    (h : ∀ a b, (∑ i, vec a i * vec b i) = if a = b then 1 else 0) (u v : Fin 3 → ℝ) :
    cdot u v = ∑ a, cdot u (vec a) * cdot v (vec a) := by
  have c := complete h
  have c00 := c 0 0
  have c01 := c 0 1
  have c02 := c 0 2
  have c11 := c 1 1
  have c12 := c 1 2
  have c22 := c 2 2
  simp only [Fin.sum_univ_three, Fin.isValue, if_true,
    if_neg (show (0 : Fin 3) ≠ 1 by decide), if_neg (show (0 : Fin 3) ≠ 2 by decide),
    if_neg (show (1 : Fin 3) ≠ 2 by decide)] at c00 c01 c02 c11 c12 c22
  simp only [cdot, Fin.sum_univ_three]
  linear_combination (-(u 0 * v 0)) * c00 - (u 0 * v 1 + u 1 * v 0) * c01
    - (u 0 * v 2 + u 2 * v 0) * c02 - (u 1 * v 1) * c11 - (u 1 * v 2 + u 2 * v 1) * c12
    - (u 2 * v 2) * c22

/-- The principal frame: the matrix `P` of products of the basis with the principal directions
diagonalises the reference and the deformed metric. -/
structure Frame (A C P : T2) (e : Fin 2 → ℝ) : Prop where
  G : ∀ i j, inv2 A i j = P i 0 * P j 0 + P i 1 * P j 1
  d00 : P 0 0 * (C 0 0 * P 0 0 + C 0 1 * P 1 0) + P 1 0 * (C 1 0 * P 0 0 + C 1 1 * P 1 0) = e 0
  d11 : P 0 1 * (C 0 0 * P 0 1 + C 0 1 * P 1 1) + P 1 1 * (C 1 0 * P 0 1 + C 1 1 * P 1 1) = e 1
  d01 : P 0 0 * (C 0 0 * P 0 1 + C 0 1 * P 1 1) + P 1 0 * (C 1 0 * P 0 1 + C 1 1 * P 1 1) = 0
  d10 : P 0 1 * (C 0 0 * P 0 0 + C 0 1 * P 1 0) + P 1 1 * (C 1 0 * P 0 0 + C 1 1 * P 1 0) = 0

section
variable {A C P : T2} {e : Fin 2 → ℝ}

theorem det2_inv2 (A : T2) (hA : det2 A ≠ 0) : det2 (inv2 A) = 1 / det2 A := by
  have h : A 1 1 / det2 A * (A 0 0 / det2 A) - -A 0 1 / det2 A * (-A 1 0 / det2 A)
      = 1 / det2 A := by
    field_simp
    simp only [det2]
    ring
  simpa [det2, inv2] using h

theorem Frame.detP (f : Frame A C P e) (hA : det2 A ≠ 0) :
    (P 0 0 * P 1 1 - P 0 1 * P 1 0) ^ 2 = 1 / det2 A := by
  rw [← det2_inv2 A hA]
  simp only [det2, f.G]
  ring

theorem Frame.prod (f : Frame A C P e) (hA : det2 A ≠ 0) : e 0 * e 1 = det2 C / det2 A := by
  rw [div_eq_mul_one_div, ← f.detP hA, ← f.d00, ← f.d11]
  have h1 := f.d01
  have h2 := f.d10
  simp only [det2]
  linear_combination
    (P 0 1 * (C 0 0 * P 0 0 + C 0 1 * P 1 0) + P 1 1 * (C 1 0 * P 0 0 + C 1 1 * P 1 0)) * h1

theorem Frame.sum (f : Frame A C P e) (_hA : det2 A ≠ 0) (hs : A 0 1 = A 1 0) :
    traceCt (data A C) = e 0 + e 1 := by
  have s := inv2_symm A hs
  rw [← f.d00, ← f.d11]
  have g := f.G
  simp only [traceCt, data, embed_00, embed_01, embed_10, embed_11]
  rw [g 0 0, g 0 1, g 1 0, g 1 1]
  ring

/-- The inverse of the deformed metric in the principal frame. -/
theorem Frame.inv (f : Frame A C P e) (hA : det2 A ≠ 0) (he0 : e 0 ≠ 0) (he1 : e 1 ≠ 0)
    (i j : Fin 2) : inv2 C i j = P i 0 * P j 0 / e 0 + P i 1 * P j 1 / e 1 := by
  have hC : det2 C ≠ 0 := by
    intro h
    have := f.prod hA
    rw [h, zero_div] at this
    exact (mul_ne_zero he0 he1) this
  have hdP : P 0 0 * P 1 1 - P 0 1 * P 1 0 ≠ 0 := by
    intro h
    have := f.detP hA
    rw [h] at this
    exact (one_div_ne_zero hA) (by rw [← this]; ring)
  set Cm : Matrix (Fin 2) (Fin 2) ℝ := Matrix.of C
  set Pm : Matrix (Fin 2) (Fin 2) ℝ := Matrix.of P
  set E : Matrix (Fin 2) (Fin 2) ℝ := Matrix.diagonal fun a => 1 / e a
  set Im : Matrix (Fin 2) (Fin 2) ℝ := Matrix.of (inv2 C)
  have h1 : (E * Pmᵀ * Cm) * Pm = 1 := by
    have d00 := f.d00
    have d01 := f.d01
    have d10 := f.d10
    have d11 := f.d11
    ext a b
    rw [Matrix.mul_assoc, Matrix.mul_assoc, Matrix.diagonal_mul]
    rcases fin2_cases a with rfl | rfl <;> rcases fin2_cases b with rfl | rfl <;>
      simp only [Matrix.mul_apply, Matrix.transpose_apply, Fin.sum_univ_two, Matrix.of_apply, Pm,
        Cm, Matrix.one_apply_eq, Matrix.one_apply_ne (show (0 : Fin 2) ≠ 1 by decide),
        Matrix.one_apply_ne (show (1 : Fin 2) ≠ 0 by decide), d00, d01, d10, d11, mul_zero] <;>
      field_simp
  have h2 : Pm * (E * Pmᵀ * Cm) = 1 := _root_.mul_eq_one_comm.1 h1
  have h3 : (Pm * E * Pmᵀ) * Cm = 1 := by
    rw [← h2]; simp only [Matrix.mul_assoc]
  have h4 : Cm * Im = 1 := by
    ext a b
    simp only [Matrix.mul_apply, Fin.sum_univ_two, Matrix.of_apply, Cm, Im]
    rw [mul_inv2 C hC a b, Matrix.one_apply]
  have h5 : Im = Pm * E * Pmᵀ := by
    calc Im = ((Pm * E * Pmᵀ) * Cm) * Im := by rw [h3, Matrix.one_mul]
      _ = Pm * E * Pmᵀ := by rw [Matrix.mul_assoc, h4, Matrix.mul_one]
  have h6 := congrFun (congrFun h5 i) j
  simp only [Im, Matrix.of_apply] at h6
  rw [h6]
  simp only [Matrix.mul_apply, Fin.sum_univ_two, Matrix.transpose_apply, Pm, E, Matrix.of_apply,
    Matrix.diagonal_apply]
  simp
  ring

/-- The frame gives the eigenvalues. -/
theorem Frame.eigenvalues (f : Frame A C P e) (hA : det2 A ≠ 0) (hs : A 0 1 = A 1 0) :
    AreEigenvalues A C (e 0) (e 1) := by
  intro t
  have h1 := f.prod hA
  have h2 := f.sum hA hs
  have e1 : det2 C = e 0 * e 1 * det2 A := by rw [h1]; field_simp
  have e2 : C 0 0 * A 1 1 - C 0 1 * A 1 0 - C 1 0 * A 0 1 + C 1 1 * A 0 0
      = (e 0 + e 1) * det2 A := by
    rw [← h2]
    have s := inv2_symm A hs
    simp only [traceCt, data, embed_00, embed_01, embed_10, embed_11]
    simp only [inv2, Matrix.cons_val_zero, Matrix.cons_val_one]
    field_simp
    rw [hs]
    ring
  simp only [det2] at e1 e2
  linear_combination e1 - t * e2

end

/-- In-plane products of the basis vectors. -/
theorem quad_Bmat (C : T2) (g : Cols) (u v : Fin 3 → ℝ) :
    (∑ m, ∑ n, u m * Bmat C g m n * v n)
      = cdot (g (up 0)) u * (C 0 0 * cdot (g (up 0)) v + C 0 1 * cdot (g (up 1)) v)
        + cdot (g (up 1)) u * (C 1 0 * cdot (g (up 0)) v + C 1 1 * cdot (g (up 1)) v) := by
  simp only [Bmat, cdot, Fin.sum_univ_three, Fin.sum_univ_two]
  ring

/-- The eigenvector equation tested with a vector. -/
theorem quad_eigen {B : T3} {val : Fin 3 → ℝ} {vec : Fin 3 → Fin 3 → ℝ}
    (h : IsEigenDecomposition B val vec) (u : Fin 3 → ℝ) (a : Fin 3) :
    (∑ m, ∑ n, u m * B m n * vec a n) = val a * cdot u (vec a) := by
  have e0 := h.eigen a 0
  have e1 := h.eigen a 1
  have e2 := h.eigen a 2
  simp only [Fin.sum_univ_three] at e0 e1 e2
  simp only [cdot, Fin.sum_univ_three]
  linear_combination u 0 * e0 + u 1 * e1 + u 2 * e2

/-- A solver's decomposition yields the principal frame, with positive eigenvalues.  `n` is
the third basis vector, orthogonal to the in-plane ones. -/
theorem frame_of_solver {A C : T2} {g : Cols} {val : Fin 3 → ℝ} {vec : Fin 3 → Fin 3 → ℝ}
    (hA : 0 < det2 A) (hC : SPD C) (hG : ∀ i j, cdot (g (up i)) (g (up j)) = inv2 A i j)
    (hn : ∀ i, cdot (g (up i)) (g 2) = 0) (hn0 : cdot (g 2) (g 2) ≠ 0)
    (h : IsEigenDecomposition (Bmat C g) val vec) :
    Frame A C (fun i a => cdot (g (up i)) (vec (if a = 0 then 1 else 2)))
      (fun a => val (if a = 0 then 1 else 2)) ∧ 0 < val 1 ∧ 0 < val 2 := by
  have cs : ∀ u v, cdot u v = cdot v u := by
    intro u v; simp only [cdot, Fin.sum_univ_three]; ring
  have orth : ∀ a b, cdot (vec a) (vec b) = if a = b then 1 else 0 := h.orthonormal
  have quad : ∀ a b, cdot (g (up 0)) (vec a) * (C 0 0 * cdot (g (up 0)) (vec b)
        + C 0 1 * cdot (g (up 1)) (vec b))
      + cdot (g (up 1)) (vec a) * (C 1 0 * cdot (g (up 0)) (vec b)
        + C 1 1 * cdot (g (up 1)) (vec b)) = val b * (if a = b then 1 else 0) := by
    intro a b
    rw [← quad_Bmat, quad_eigen h, orth]
  have nonneg : ∀ a, 0 ≤ val a := by
    intro a
    have q := quad a a
    rw [if_pos rfl, mul_one] at q
    by_cases h0 : cdot (g (up 0)) (vec a) ≠ 0 ∨ cdot (g (up 1)) (vec a) ≠ 0
    · have := hC.pos _ _ h0
      nlinarith [hC.symm]
    · push Not at h0
      rw [h0.1, h0.2] at q
      linarith
  -- the eigenvalue of the normal is zero
  have val0 : val 0 = 0 := by
    have hz : ∀ a, val a * cdot (g 2) (vec a) = 0 := by
      intro a
      rw [← quad_eigen h, quad_Bmat, hn 0, hn 1]
      ring
    have hc := cdot_complete h.orthonormal (g 2) (g 2)
    have : ∃ a, cdot (g 2) (vec a) ≠ 0 := by
      by_contra hall
      push Not at hall
      simp only [hall, mul_zero, Finset.sum_const_zero] at hc
      exact hn0 hc
    obtain ⟨a, ha⟩ := this
    have hva : val a = 0 := (mul_eq_zero.1 (hz a)).resolve_right ha
    have hle : val 0 ≤ val a := by
      rcases fin3_cases a with rfl | rfl | rfl
      · exact le_refl _
      · exact h.ascending.1
      · exact h.ascending.1.trans h.ascending.2
    exact le_antisymm (hva ▸ hle) (nonneg 0)
  have p0 : cdot (g (up 0)) (vec 0) = 0 ∧ cdot (g (up 1)) (vec 0) = 0 := by
    by_contra hne
    have h0 : cdot (g (up 0)) (vec 0) ≠ 0 ∨ cdot (g (up 1)) (vec 0) ≠ 0 := by tauto
    have := hC.pos _ _ h0
    have q := quad 0 0
    rw [val0, zero_mul] at q
    nlinarith [hC.symm]
  have f : Frame A C (fun i a => cdot (g (up i)) (vec (if a = 0 then 1 else 2)))
      (fun a => val (if a = 0 then 1 else 2)) := by
    have q11 := quad 1 1
    have q22 := quad 2 2
    have q12 := quad 1 2
    have q21 := quad 2 1
    rw [if_pos rfl, mul_one] at q11 q22
    rw [if_neg (by decide), mul_zero] at q12 q21
    refine ⟨fun i j => ?_, q11, q22, q12, q21⟩
    rw [← hG, cdot_complete h.orthonormal, Fin.sum_univ_three]
    have : ∀ i : Fin 2, cdot (g (up i)) (vec 0) = 0 := by
      intro i
      rcases fin2_cases i with rfl | rfl
      · exact p0.1
      · exact p0.2
    rw [this i, zero_mul, zero_add]
    simp
  refine ⟨f, ?_⟩
  have hprod := f.prod hA.ne'
  have hdC : 0 < det2 C := by
    have h1 := hC.pos 1 0 (Or.inl one_ne_zero)
    have h2 := hC.pos (-(C 0 1)) (C 0 0) (Or.inr (by intro h; rw [h] at h1; norm_num at h1))
    have h3 : 0 < C 0 0 := by linarith
    have h4 := hC.symm
    simp only [det2]
    by_contra hle
    push Not at hle
    rw [← h4] at h2 hle
    nlinarith
  have hpos : 0 < val 1 * val 2 := by
    have : val 1 * val 2 = det2 C / det2 A := hprod
    rw [this]
    positivity
  constructor
  · rcases (nonneg 1).lt_or_eq with h1 | h1
    · exact h1
    · rw [← h1] at hpos; norm_num at hpos
  · rcases (nonneg 2).lt_or_eq with h1 | h1
    · exact h1
    · rw [← h1] at hpos; norm_num at hpos

end Verif.Spectral
