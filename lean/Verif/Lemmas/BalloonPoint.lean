import Verif.Lemmas.Geometry
import Verif.Lemmas.Variation
import Verif.Model.WeakForms

/-! # Lemmas: geometry and virtual work at a point of a sphere -/

namespace Verif.Balloon

open V3 Geometry Verif.Variation

/-- The surface scaled by `c`. -/
def scaleS (c : ℝ) (s : Surf) : Surf := ⟨fun i => c • s.a i, c • s.d11, c • s.d22, c • s.d12⟩

theorem measure_scale (c : ℝ) (s : Surf) :
    Variation.measure (scaleS c s) = c ^ 2 * Variation.measure s := by
  have e : cross ((scaleS c s).a 0) ((scaleS c s).a 1) = (c ^ 2) • cross (s.a 0) (s.a 1) := by
    ext <;> simp [scaleS, cross] <;> ring
  have d : dot ((c ^ 2) • cross (s.a 0) (s.a 1)) ((c ^ 2) • cross (s.a 0) (s.a 1))
      = (c ^ 2) ^ 2 * dot (cross (s.a 0) (s.a 1)) (cross (s.a 0) (s.a 1)) := by
    simp only [dot, smul_x, smul_y, smul_z]; ring
  rw [Variation.measure, Variation.measure, e, V3.norm, V3.norm, d,
    Real.sqrt_mul (by positivity), Real.sqrt_sq (by positivity)]

/-- Data of the sphere of radius `R` at the point `x`. -/
structure Sph (R : ℝ) (x : V3) (s : Surf) : Prop where
  R0 : 0 < R
  xx : dot x x = R ^ 2
  x1 : dot x (s.a 0) = 0
  x2 : dot x (s.a 1) = 0
  x11 : dot x s.d11 = -dot (s.a 0) (s.a 0)
  x12 : dot x s.d12 = -dot (s.a 0) (s.a 1)
  x22 : dot x s.d22 = -dot (s.a 1) (s.a 1)
  pos : 0 < dot (cross (s.a 0) (s.a 1)) x

/-- Triple product of the tangents and the position. -/
def vol (x : V3) (s : Surf) : ℝ := dot (cross (s.a 0) (s.a 1)) x

theorem cramer (y a b x : V3) : dot (cross a b) x • y
    = dot y (cross b x) • a + (dot y (cross x a) • b + dot y (cross a b) • x) := by
  ext <;> simp [dot, cross] <;> ring

section
variable {R : ℝ} {x : V3} {s : Surf} (h : Sph R x s)
include h

theorem cross_sph : cross (s.a 0) (s.a 1) = (vol x s / R ^ 2) • x := by
  have c := cramer (cross (s.a 0) (s.a 1)) (s.a 0) (s.a 1) x
  -- the products with the other two cross products vanish
  have e1 : dot (cross (s.a 0) (s.a 1)) (cross (s.a 1) x)
      = dot (s.a 0) (s.a 1) * dot x (s.a 1) - dot x (s.a 0) * dot (s.a 1) (s.a 1) := by
    simp [dot, cross]; ring
  have e2 : dot (cross (s.a 0) (s.a 1)) (cross x (s.a 0))
      = dot x (s.a 0) * dot (s.a 0) (s.a 1) - dot (s.a 0) (s.a 0) * dot x (s.a 1) := by
    simp [dot, cross]; ring
  have e3 : dot (cross (s.a 0) (s.a 1)) (cross (s.a 0) (s.a 1)) * dot x x
      = dot (cross (s.a 0) (s.a 1)) x ^ 2
        + dot (s.a 1) (s.a 1) * dot x (s.a 0) ^ 2
        - 2 * dot (s.a 0) (s.a 1) * dot x (s.a 0) * dot x (s.a 1)
        + dot (s.a 0) (s.a 0) * dot x (s.a 1) ^ 2 := by
    simp [dot, cross]; ring
  rw [h.x1, h.x2] at e1 e2 e3
  rw [h.xx] at e3
  have hp := h.pos
  have hR := h.R0
  have e4 : dot (cross (s.a 0) (s.a 1)) (cross (s.a 0) (s.a 1))
      = dot (cross (s.a 0) (s.a 1)) x * (vol x s / R ^ 2) := by
    unfold vol; field_simp; linarith
  rw [e1, e2, e4] at c
  generalize cross (s.a 0) (s.a 1) = w at *
  have hne : dot w x ≠ 0 := hp.ne'
  ext
  · have := congrArg V3.x c
    simp only [smul_x, add_x] at this ⊢
    apply mul_left_cancel₀ hne; linarith
  · have := congrArg V3.y c
    simp only [smul_y, add_y] at this ⊢
    apply mul_left_cancel₀ hne; linarith
  · have := congrArg V3.z c
    simp only [smul_z, add_z] at this ⊢
    apply mul_left_cancel₀ hne; linarith

theorem vol_pos : 0 < vol x s := h.pos

theorem norm_x (c : ℝ) (hc : 0 < c) : V3.norm (c • x) = c * R := by
  have : dot (c • x) (c • x) = (c * R) ^ 2 := by
    rw [dot_smul_left, dot_smul_right, h.xx]; ring
  rw [V3.norm, this, Real.sqrt_sq (mul_pos hc h.R0).le]

theorem normalized_x (c : ℝ) (hc : 0 < c) : normalized (c • x) = (1 / R) • x := by
  have hR := h.R0
  unfold normalized
  rw [norm_x h c hc]
  ext <;> simp <;> field_simp

theorem cross_scale {lam : ℝ} : cross ((scaleS lam s).a 0) ((scaleS lam s).a 1)
    = (lam ^ 2 * (vol x s / R ^ 2)) • x := by
  have e : cross ((scaleS lam s).a 0) ((scaleS lam s).a 1) = lam ^ 2 • cross (s.a 0) (s.a 1) := by
    ext <;> simp [scaleS, cross] <;> ring
  rw [e, cross_sph h]
  ext <;> simp <;> ring

theorem normal_scale {lam : ℝ} (hl : 0 < lam) : normal (scaleS lam s) = (1 / R) • x := by
  unfold normal
  rw [cross_scale h]
  have := vol_pos h
  have := h.R0
  exact normalized_x h _ (by positivity)

theorem measure_sph : Variation.measure s = vol x s / R := by
  have := vol_pos h
  have hR := h.R0
  unfold Variation.measure
  rw [cross_sph h, norm_x h _ (by positivity)]
  field_simp

theorem det_sph : det2 (Acov s) = (vol x s / R) ^ 2 := by
  have hR := h.R0
  rw [det_Acov, cross_sph h, dot_smul_left, dot_smul_right, h.xx]
  field_simp

theorem cross_ne_scale {lam : ℝ} (hl : 0 < lam) :
    cross ((scaleS lam s).a 0) ((scaleS lam s).a 1) ≠ 0 := by
  intro e
  rw [cross_scale h] at e
  have := vol_pos h
  have := h.R0
  have k : dot ((lam ^ 2 * (vol x s / R ^ 2)) • x) x = 0 := by rw [e]; simp [dot]
  rw [dot_smul_left, h.xx] at k
  have : 0 < lam ^ 2 * (vol x s / R ^ 2) * R ^ 2 := by positivity
  linarith

theorem Bcov_scale {lam : ℝ} (hl : 0 < lam) (i j : Fin 2) :
    Bcov (scaleS lam s) i j = -(lam / R) * Acov s i j := by
  have n := normal_scale h hl
  have e : ∀ y, dot (lam • y) ((1 / R) • x) = lam / R * dot x y := by
    intro y; rw [dot_smul_left, dot_smul_right, dot_comm y x]; ring
  rcases fin2_cases i with rfl | rfl <;> rcases fin2_cases j with rfl | rfl
  · show dot (lam • s.d11) (normal (scaleS lam s)) = _
    rw [n, e, h.x11]; simp only [Acov]; ring
  · show dot (lam • s.d12) (normal (scaleS lam s)) = _
    rw [n, e, h.x12]; simp only [Acov]; ring
  · show dot (lam • s.d12) (normal (scaleS lam s)) = _
    rw [n, e, h.x12]; simp only [Acov]; rw [dot_comm (s.a 1) (s.a 0)]; ring
  · show dot (lam • s.d22) (normal (scaleS lam s)) = _
    rw [n, e, h.x22]; simp only [Acov]; ring

omit h in
theorem Acov_scale (lam : ℝ) (s : Surf) (i j : Fin 2) :
    Acov (scaleS lam s) i j = lam ^ 2 * Acov s i j := by
  simp only [Acov, scaleS, dot_smul_left, dot_smul_right]; ring

theorem ncov_scale {lam : ℝ} (hl : 0 < lam) (i : Fin 2) : ncov (scaleS lam s) i = (1 / R) • s.a i := by
  have hR := h.R0
  have hd : det2 (Acov (scaleS lam s)) ≠ 0 := (det_Acov_pos _ (cross_ne_scale h hl)).ne'
  have b : ∀ i j, Bcov (scaleS lam s) i j = -(1 / (lam * R)) * Acov (scaleS lam s) i j := by
    intro i j
    rw [Bcov_scale h hl, Acov_scale]; field_simp
  have m : ∀ i j, mixedB (scaleS lam s) i j = -(1 / (lam * R)) * (if i = j then 1 else 0) := by
    intro i j
    have := inv2_mul (Acov (scaleS lam s)) hd i j
    unfold mixedB Acon
    rw [b, b, ← this]
    simp
    ring
  unfold ncov
  rw [m, m]
  rcases fin2_cases i with rfl | rfl <;> ext <;> simp [scaleS] <;> field_simp

theorem Gblock_scale {lam : ℝ} (hl : 0 < lam) (z : ℝ) (i j : Fin 2) :
    Gblock (scaleS lam s) z i j = (lam + z / R) ^ 2 * Acov s i j := by
  have hR := h.R0
  unfold Gblock
  rw [Acov_scale, Bcov_scale h hl, ncov_scale h hl, ncov_scale h hl, dot_smul_left, dot_smul_right]
  have : dot (s.a i) (s.a j) = Acov s i j := rfl
  rw [this]
  field_simp
  ring

theorem Gblock_sph (z : ℝ) (i j : Fin 2) : Gblock s z i j = (1 + z / R) ^ 2 * Acov s i j := by
  have e : scaleS 1 s = s := by
    obtain ⟨a, d1, d2, d3⟩ := s
    have : ∀ v : V3, (1 : ℝ) • v = v := by intro v; ext <;> simp
    simp [scaleS, this]
  have := Gblock_scale h one_pos z i j
  rwa [e] at this

end

/-! ## Virtual work -/

theorem var1_dot_a (s u : Surf) (hc : cross (s.a 0) (s.a 1) ≠ 0) (i : Fin 2) :
    dot (s.a i) (var1 s u) = -dot (normal s) (u.a i) := by
  have hm : 0 < Variation.measure s := V3.norm_pos hc
  have hn : normal s = (1 / Variation.measure s) • cross (s.a 0) (s.a 1) := rfl
  have h0 := dot_a_normal s i
  unfold var1
  rw [dot_sub_right, dot_smul_right, h0, mul_zero, sub_zero, hn, dot_smul_left]
  unfold mvec
  rw [dot_smul_right]
  rcases fin2_cases i with rfl | rfl <;> simp [dot, cross] <;> ring

theorem var1_dot_n (s u : Surf) (hc : cross (s.a 0) (s.a 1) ≠ 0) :
    dot (normal s) (var1 s u) = 0 := by
  have hn : dot (normal s) (normal s) = 1 := normalized_unit hc
  unfold var1
  rw [dot_sub_right, dot_smul_right, hn, dot_comm (normal s)]; ring

/-- Membrane part of the virtual work times the area element. -/
noncomputable def memb (R : ℝ) (x : V3) (s u : Surf) : ℝ :=
  1 / R * (dot (cross (s.a 1) x) (u.a 0) + dot (cross x (s.a 0)) (u.a 1))

/-- Isotropic resultant. -/
noncomputable def isoV (c : ℝ) (s : Surf) : Voigt := vec3 (c * Acon s 0 0) (c * Acon s 1 1) (c * Acon s 0 1)

theorem memb_eq {R : ℝ} {x : V3} {s : Surf} (h : Sph R x s) (u : Surf) :
    memb R x s u = R / vol x s * (dot (s.a 1) (s.a 1) * dot (s.a 0) (u.a 0)
      + dot (s.a 0) (s.a 0) * dot (s.a 1) (u.a 1)
      - dot (s.a 0) (s.a 1) * (dot (s.a 0) (u.a 1) + dot (s.a 1) (u.a 0))) := by
  have hR := h.R0
  have hv := vol_pos h
  have c := cross_sph h
  have e1 : dot (s.a 1) (s.a 1) * dot (s.a 0) (u.a 0) - dot (s.a 0) (s.a 1) * dot (s.a 1) (u.a 0)
      = dot (cross (s.a 1) (cross (s.a 0) (s.a 1))) (u.a 0) := by simp [dot, cross]; ring
  have e2 : dot (s.a 0) (s.a 0) * dot (s.a 1) (u.a 1) - dot (s.a 0) (s.a 1) * dot (s.a 0) (u.a 1)
      = dot (cross (cross (s.a 0) (s.a 1)) (s.a 0)) (u.a 1) := by simp [dot, cross]; ring
  have e : dot (s.a 1) (s.a 1) * dot (s.a 0) (u.a 0)
      + dot (s.a 0) (s.a 0) * dot (s.a 1) (u.a 1)
      - dot (s.a 0) (s.a 1) * (dot (s.a 0) (u.a 1) + dot (s.a 1) (u.a 0))
      = vol x s / R ^ 2 * (dot (cross (s.a 1) x) (u.a 0) + dot (cross x (s.a 0)) (u.a 1)) := by
    rw [c] at e1 e2
    have f1 : dot (cross (s.a 1) ((vol x s / R ^ 2) • x)) (u.a 0)
        = vol x s / R ^ 2 * dot (cross (s.a 1) x) (u.a 0) := by simp [dot, cross]; ring
    have f2 : dot (cross ((vol x s / R ^ 2) • x) (s.a 0)) (u.a 1)
        = vol x s / R ^ 2 * dot (cross x (s.a 0)) (u.a 1) := by simp [dot, cross]; ring
    rw [f1] at e1
    rw [f2] at e2
    linarith
  rw [e]
  unfold memb
  field_simp

theorem membrane_work {R : ℝ} {x : V3} {s : Surf} (h : Sph R x s) (lam c : ℝ) (u : Surf) :
    dotV (isoV c s) (EmDer (scaleS lam s) u) * Variation.measure s = c * lam * memb R x s u := by
  have hR := h.R0
  have hv := vol_pos h
  have a00 : Acon s 0 0 = dot (s.a 1) (s.a 1) / det2 (Acov s) := rfl
  have a11 : Acon s 1 1 = dot (s.a 0) (s.a 0) / det2 (Acov s) := rfl
  have a01 : Acon s 0 1 = -dot (s.a 0) (s.a 1) / det2 (Acov s) := rfl
  rw [memb_eq h, measure_sph h]
  simp only [dotV, Fin.sum_univ_three, isoV, EmDer, vec3_zero, vec3_one, vec3_two, a00, a11, a01,
    det_sph h, scaleS, dot_smul_left]
  field_simp
  ring

/-- Coefficients of a vector in the basis of the tangents and the position. -/
noncomputable def chr (x : V3) (s : Surf) (y : V3) (i : Fin 2) : ℝ :=
  if i = 0 then dot y (cross (s.a 1) x) / vol x s else dot y (cross x (s.a 0)) / vol x s

theorem decomp {R : ℝ} {x : V3} {s : Surf} (h : Sph R x s) (y : V3) :
    y = chr x s y 0 • s.a 0 + (chr x s y 1 • s.a 1 + (dot y x / R ^ 2) • x) := by
  have hR := h.R0
  have hv := vol_pos h
  have c := cramer y (s.a 0) (s.a 1) x
  rw [cross_sph h, dot_smul_right, dot_smul_left, h.xx] at c
  have e0 : chr x s y 0 = dot y (cross (s.a 1) x) / vol x s := rfl
  have e1 : chr x s y 1 = dot y (cross x (s.a 0)) / vol x s := rfl
  have k : vol x s / R ^ 2 * R ^ 2 = vol x s := by field_simp
  rw [k] at c
  rw [e0, e1]
  generalize dot y (cross (s.a 1) x) = p at *
  generalize dot y (cross x (s.a 0)) = q at *
  ext
  · have := congrArg V3.x c; simp at this ⊢; field_simp at this ⊢; linarith
  · have := congrArg V3.y c; simp at this ⊢; field_simp at this ⊢; linarith
  · have := congrArg V3.z c; simp at this ⊢; field_simp at this ⊢; linarith

/-- Part of the divergence which is proportional to the second derivatives of the virtual
displacement, with its first-order correction. -/
noncomputable def lap (x : V3) (s u : Surf) : ℝ :=
  1 / vol x s * (dot (s.a 1) (s.a 1) * (dot x u.d11 - (chr x s s.d11 0 * dot x (u.a 0) + chr x s s.d11 1 * dot x (u.a 1)))
    + dot (s.a 0) (s.a 0) * (dot x u.d22 - (chr x s s.d22 0 * dot x (u.a 0) + chr x s s.d22 1 * dot x (u.a 1)))
    - 2 * dot (s.a 0) (s.a 1) * (dot x u.d12 - (chr x s s.d12 0 * dot x (u.a 0) + chr x s s.d12 1 * dot x (u.a 1))))

theorem bending_work {R : ℝ} {x : V3} {s : Surf} (h : Sph R x s) {lam : ℝ} (hl : 0 < lam) (c : ℝ)
    (u : Surf) :
    dotV (isoV c s) (EfDer (scaleS lam s) u) * Variation.measure s = -(c * lap x s u) := by
  have hR := h.R0
  have hv := vol_pos h
  have hc := cross_ne_scale h hl
  have n := normal_scale h hl
  have v : ∀ i, dot (s.a i) (var1 (scaleS lam s) u) = -(1 / (lam * R) * dot x (u.a i)) := by
    intro i
    have := var1_dot_a (scaleS lam s) u hc i
    rw [n, dot_smul_left] at this
    have e : dot ((scaleS lam s).a i) (var1 (scaleS lam s) u)
        = lam * dot (s.a i) (var1 (scaleS lam s) u) := dot_smul_left _ _ _
    rw [e] at this
    apply mul_left_cancel₀ hl.ne'
    rw [this]; field_simp
  have vx : dot x (var1 (scaleS lam s) u) = 0 := by
    have := var1_dot_n (scaleS lam s) u hc
    rw [n, dot_smul_left] at this
    rcases mul_eq_zero.1 this with e | e
    · exact absurd e (by positivity)
    · exact e
  have d : ∀ y, dot (lam • y) (var1 (scaleS lam s) u)
      = -(1 / R * (chr x s y 0 * dot x (u.a 0) + chr x s y 1 * dot x (u.a 1))) := by
    intro y
    have e := decomp h y
    have e2 : dot y (var1 (scaleS lam s) u) = dot (chr x s y 0 • s.a 0 + (chr x s y 1 • s.a 1
        + (dot y x / R ^ 2) • x)) (var1 (scaleS lam s) u) := congrArg (fun t => dot t _) e
    rw [dot_smul_left, e2, dot_add_left, dot_add_left, dot_smul_left, dot_smul_left, dot_smul_left, v,
      v, vx]
    field_simp
    ring
  have m : ∀ y, dot y (normal (scaleS lam s)) = 1 / R * dot x y := by
    intro y; rw [n, dot_smul_right, dot_comm y x]
  have a00 : Acon s 0 0 = dot (s.a 1) (s.a 1) / det2 (Acov s) := rfl
  have a11 : Acon s 1 1 = dot (s.a 0) (s.a 0) / det2 (Acov s) := rfl
  have a01 : Acon s 0 1 = -dot (s.a 0) (s.a 1) / det2 (Acov s) := rfl
  have d11 : dot (scaleS lam s).d11 (var1 (scaleS lam s) u) = _ := d s.d11
  have d22 : dot (scaleS lam s).d22 (var1 (scaleS lam s) u) = _ := d s.d22
  have d12 : dot (scaleS lam s).d12 (var1 (scaleS lam s) u) = _ := d s.d12
  rw [measure_sph h]
  simp only [dotV, Fin.sum_univ_three, isoV, EfDer, dbl3, deriv2dot, vec3_zero, vec3_one, vec3_two,
    a00, a11, a01, det_sph h, m, d11, d22, d12, lap]
  field_simp
  ring

/-- The divergence whose integral vanishes, at a point: `div1` and `div2` are the derivatives of the two
components, written out. -/
theorem divergence {R : ℝ} {x : V3} {s : Surf} (h : Sph R x s) (u : Surf) :
    ((2 * dot (s.a 1) s.d12 * dot x (u.a 0)
          + dot (s.a 1) (s.a 1) * (dot (s.a 0) (u.a 0) + dot x u.d11)
        - ((dot s.d11 (s.a 1) + dot (s.a 0) s.d12) * dot x (u.a 1)
          + dot (s.a 0) (s.a 1) * (dot (s.a 0) (u.a 1) + dot x u.d12))) * vol x s
      - (dot (s.a 1) (s.a 1) * dot x (u.a 0) - dot (s.a 0) (s.a 1) * dot x (u.a 1))
        * dot (cross s.d11 (s.a 1) + cross (s.a 0) s.d12) x) / vol x s ^ 2
    + ((2 * dot (s.a 0) s.d12 * dot x (u.a 1)
          + dot (s.a 0) (s.a 0) * (dot (s.a 1) (u.a 1) + dot x u.d22)
        - ((dot s.d12 (s.a 1) + dot (s.a 0) s.d22) * dot x (u.a 0)
          + dot (s.a 0) (s.a 1) * (dot (s.a 1) (u.a 0) + dot x u.d12))) * vol x s
      - (dot (s.a 0) (s.a 0) * dot x (u.a 1) - dot (s.a 0) (s.a 1) * dot x (u.a 0))
        * dot (cross s.d12 (s.a 1) + cross (s.a 0) s.d22) x) / vol x s ^ 2
      = lap x s u + 1 / R * memb R x s u := by
  have hR := h.R0
  have hv := vol_pos h
  have t0 : ∀ y, dot y (s.a 0) = chr x s y 0 * dot (s.a 0) (s.a 0) + chr x s y 1 * dot (s.a 0) (s.a 1) := by
    intro y
    have e2 : dot y (s.a 0) = _ := congrArg (fun t => dot t (s.a 0)) (decomp h y)
    rw [e2, dot_add_left, dot_add_left, dot_smul_left, dot_smul_left, dot_smul_left, h.x1,
      dot_comm (s.a 1) (s.a 0)]
    ring
  have t1 : ∀ y, dot y (s.a 1) = chr x s y 0 * dot (s.a 0) (s.a 1) + chr x s y 1 * dot (s.a 1) (s.a 1) := by
    intro y
    have e2 : dot y (s.a 1) = _ := congrArg (fun t => dot t (s.a 1)) (decomp h y)
    rw [e2, dot_add_left, dot_add_left, dot_smul_left, dot_smul_left, dot_smul_left, h.x2]
    ring
  have v0 : ∀ y, dot (cross y (s.a 1)) x = chr x s y 0 * vol x s := by
    intro y
    have : chr x s y 0 = dot y (cross (s.a 1) x) / vol x s := rfl
    rw [this, div_mul_cancel₀ _ hv.ne']; simp [dot, cross]; ring
  have v1 : ∀ y, dot (cross (s.a 0) y) x = chr x s y 1 * vol x s := by
    intro y
    have : chr x s y 1 = dot y (cross x (s.a 0)) / vol x s := rfl
    rw [this, div_mul_cancel₀ _ hv.ne']; simp [dot, cross]; ring
  rw [memb_eq h, dot_add_left, dot_add_left, v0, v1, v0, v1, dot_comm (s.a 1) s.d12,
    dot_comm (s.a 0) s.d12, dot_comm (s.a 0) s.d22, t1 s.d12, t0 s.d12, t1 s.d11, t0 s.d22]
  unfold lap
  field_simp
  ring

end Verif.Balloon
