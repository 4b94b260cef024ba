import Verif.Spec.Uniaxial
import Verif.Model.Solution
import Verif.Lemmas.PatchTestMore

/-! # Lemmas: uniaxial tension of a square -/

namespace Verif.Uniaxial

open V3 Geometry Fields MeasureTheory Verif.Variation Verif.Balance Verif.Hyper Verif.PatchTest Verif.ShellTangent
open Spec.Balloon Spec.Plate Spec.PatchTest Spec.Uniaxial Verif.Plate Verif.Reparam
open Verif.Integrate (Rule)

/-- A function that is constant on the unit interval has no derivative there. -/
theorem flat_side {f : ℝ → ℝ} {d c s : ℝ} (hs : s ∈ Set.Icc (0 : ℝ) 1) (hf : ∀ u ∈ Set.Icc (0 : ℝ) 1, f u = c)
    (h : HasDerivAt f d s) : d = 0 := by
  have h0 : HasDerivWithinAt f 0 (Set.Icc 0 1) s :=
    (hasDerivWithinAt_const s (Set.Icc (0 : ℝ) 1) c).congr hf (hf s hs)
  exact (uniqueDiffOn_Icc zero_lt_one s hs).eq_deriv _ h.hasDerivWithinAt h0

section
variable {X v : ℝ × ℝ → V3}

theorem dx (h : SmoothOn 2 X Set.univ) : Differentiable ℝ fun q => (X q).x := (cx h).differentiable (by norm_num)

theorem dy (h : SmoothOn 2 X Set.univ) : Differentiable ℝ fun q => (X q).y := (cy h).differentiable (by norm_num)

theorem side_east (h : Square X) {s : ℝ} (hs : s ∈ Set.Icc (0 : ℝ) 1) : (vpd 1 X (1, s)).x = 0 :=
  flat_side hs h.east (line_y (dx h.sheet.smooth) 1 s)

theorem side_west (h : Square X) {s : ℝ} (hs : s ∈ Set.Icc (0 : ℝ) 1) : (vpd 1 X (0, s)).x = 0 :=
  flat_side hs h.west (line_y (dx h.sheet.smooth) 0 s)

theorem side_north (h : Square X) {s : ℝ} (hs : s ∈ Set.Icc (0 : ℝ) 1) : (vpd 0 X (s, 1)).y = 0 :=
  flat_side hs h.north (line_x (dy h.sheet.smooth) s 1)

theorem side_south (h : Square X) {s : ℝ} (hs : s ∈ Set.Icc (0 : ℝ) 1) : (vpd 0 X (s, 0)).y = 0 :=
  flat_side hs h.south (line_x (dy h.sheet.smooth) s 0)

theorem vc (h : SmoothOn 2 X Set.univ) (i : Fin 2) :
    Continuous (fun q => (vpd i X q).x) ∧ Continuous fun q => (vpd i X q).y :=
  ⟨(contDiffOn_univ.1 (Cylinder.smooth0 h i).1).continuous, (contDiffOn_univ.1 (Cylinder.smooth0 h i).2.1).continuous⟩

/-- Height of the right side. -/
theorem height (h : Square X) : ∫ s in (0 : ℝ)..1, (vpd 1 X (1, s)).y = 1 := by
  have c := (vc h.sheet.smooth 1).2
  have := intervalIntegral.integral_eq_sub_of_hasDerivAt (a := 0) (b := 1) (f := fun s => (X (1, s)).y)
    (f' := fun s => (vpd 1 X (1, s)).y)
    (fun s _ => line_y (dy h.sheet.smooth) 1 s) (Continuous.intervalIntegrable (by fun_prop) _ _)
  rw [this, h.north 1 ⟨zero_le_one, le_rfl⟩, h.south 1 ⟨zero_le_one, le_rfl⟩]; norm_num

/-- Width of the upper side. -/
theorem width (h : Square X) : ∫ s in (0 : ℝ)..1, (vpd 0 X (s, 1)).x = 1 := by
  have c := (vc h.sheet.smooth 0).1
  have := intervalIntegral.integral_eq_sub_of_hasDerivAt (a := 0) (b := 1) (f := fun s => (X (s, 1)).x)
    (f' := fun s => (vpd 0 X (s, 1)).x)
    (fun s _ => line_x (dx h.sheet.smooth) s 1) (Continuous.intervalIntegrable (by fun_prop) _ _)
  rw [this, h.east 1 ⟨zero_le_one, le_rfl⟩, h.west 1 ⟨zero_le_one, le_rfl⟩]; norm_num

/-- Area of the square. -/
theorem area (h : Square X) : ∫ q in rect 1 1, det2 (par X q) = 1 := by
  let T : Fin 2 → V3 := fun i => if i = 0 then ⟨1, 0, 0⟩ else 0
  have s1 := flux_smooth h.sheet.smooth T h.sheet.smooth 1
  have s0 := flux_smooth h.sheet.smooth T h.sheet.smooth 0
  have d1 : Continuous (pd 0 (flux X T X 1)) := (pd_cont (n := 0) s1 0).continuous
  have d0 : Continuous (pd 1 (flux X T X 0)) := (pd_cont (n := 0) s0 1).continuous
  have e : ∀ q, det2 (par X q) = pd 0 (flux X T X 1) q - pd 1 (flux X T X 0) q := by
    intro q
    rw [flux_div h.sheet.smooth T h.sheet.smooth]
    simp [T, dot, det2, par]
    ring
  simp only [e]
  rw [Cylinder.int_sub d1 d0, Cylinder.ends_x zero_le_one zero_le_one s1, ends_y zero_le_one zero_le_one s0]
  have a1 : ∫ y in (0 : ℝ)..1, (flux X T X 1 (1, y) - flux X T X 1 (0, y)) = ∫ s in (0 : ℝ)..1, (vpd 1 X (1, s)).y := by
    refine intervalIntegral.integral_congr fun s hs => ?_
    rw [Set.uIcc_of_le zero_le_one] at hs
    simp [flux, T, dot, h.east s hs, h.west s hs]
  have a0 : ∫ x in (0 : ℝ)..1, (flux X T X 0 (x, 1) - flux X T X 0 (x, 0)) = ∫ _s in (0 : ℝ)..1, (0 : ℝ) := by
    refine intervalIntegral.integral_congr fun s hs => ?_
    rw [Set.uIcc_of_le zero_le_one] at hs
    simp [flux, T, dot, side_north h hs, side_south h hs]
  rw [a1, a0, height h]
  simp

/-- The parametrisation keeps the orientation. -/
theorem oriented (h : Square X) : ∀ q ∈ rect 1 1, |det2 (par X q)| = 1 * det2 (par X q) := by
  obtain ⟨σ, hs, hσ⟩ := orient zero_le_one zero_le_one h.sheet
  rcases hs with rfl | rfl
  · exact hσ
  · exfalso
    have : ∫ q in rect 1 1, |det2 (par X q)| = ∫ q in rect 1 1, -1 * det2 (par X q) :=
      setIntegral_congr_fun (measurableSet_Icc.prod measurableSet_Icc) hσ
    rw [integral_const_mul, area h] at this
    have h0 : 0 ≤ ∫ q in rect 1 1, |det2 (par X q)| := integral_nonneg fun _ => abs_nonneg _
    rw [this] at h0
    norm_num at h0

/-- Residual of a uniform state without shear. -/
theorem residual_square (h : Square X) {S : Surf → Surf → Section} {N : T2} {x y : ℝ} (h01 : N 0 1 = 0) (h10 : N 1 0 = 0)
    (hS : Uniform S (stretch x y) N) (c : V3) (hv : SmoothOn 2 v Set.univ) :
    residualForm X (affine (stretch x y) c X) S 0 (rect 1 1) v
      = -(x * N 0 0) * (∫ s in (0 : ℝ)..1, ((vpd 1 X (1, s)).y * (v (1, s)).x - (vpd 1 X (0, s)).y * (v (0, s)).x))
        - y * N 1 1 * ∫ s in (0 : ℝ)..1, ((vpd 0 X (s, 1)).x * (v (s, 1)).y - (vpd 0 X (s, 0)).x * (v (s, 0)).y) := by
  rw [residual_flux zero_le_one zero_le_one h.sheet (h01.trans h10.symm) hS c hv (oriented h)]
  have t0 : tr N (stretch x y) 0 = ⟨N 0 0 * x, 0, 0⟩ := by ext <;> simp [tr, stretch, h10]
  have t1 : tr N (stretch x y) 1 = ⟨0, N 1 1 * y, 0⟩ := by ext <;> simp [tr, stretch, h01]
  have a1 : ∫ s in (0 : ℝ)..1, (flux X (tr N (stretch x y)) v 1 (1, s) - flux X (tr N (stretch x y)) v 1 (0, s))
      = ∫ s in (0 : ℝ)..1, x * N 0 0 * ((vpd 1 X (1, s)).y * (v (1, s)).x - (vpd 1 X (0, s)).y * (v (0, s)).x) := by
    refine intervalIntegral.integral_congr fun s hs => ?_
    rw [Set.uIcc_of_le zero_le_one] at hs
    simp only [flux, t0, t1, dot, side_east h hs, side_west h hs]
    ring
  have a0 : ∫ s in (0 : ℝ)..1, (flux X (tr N (stretch x y)) v 0 (s, 1) - flux X (tr N (stretch x y)) v 0 (s, 0))
      = ∫ s in (0 : ℝ)..1, -(y * N 1 1) * ((vpd 0 X (s, 1)).x * (v (s, 1)).y - (vpd 0 X (s, 0)).x * (v (s, 0)).y) := by
    refine intervalIntegral.integral_congr fun s hs => ?_
    rw [Set.uIcc_of_le zero_le_one] at hs
    simp only [flux, t0, t1, dot, side_north h hs, side_south h hs]
    ring
  rw [a1, a0, intervalIntegral.integral_const_mul, intervalIntegral.integral_const_mul]
  ring

/-- Equilibrium of the uniform state: no lateral stress. -/
theorem equilibrium (h : Square X) {S : Surf → Surf → Section} {N : T2} {x y : ℝ} (h01 : N 0 1 = 0) (h10 : N 1 0 = 0)
    (hS : Uniform S (stretch x y) N) (hy : y ≠ 0) (c : V3) :
    (∀ v, Test v → residualForm X (affine (stretch x y) c X) S 0 (rect 1 1) v = 0) ↔ N 1 1 = 0 := by
  constructor
  · intro hv
    let w : ℝ × ℝ → V3 := fun q => ⟨0, (X q).y, 0⟩
    have hw : SmoothOn 2 w Set.univ := ⟨contDiffOn_const, h.sheet.smooth.2.1, contDiffOn_const⟩
    have := hv w ⟨hw, fun _ => rfl, fun _ _ => rfl, fun _ _ => rfl, fun s hs => h.south s hs⟩
    rw [residual_square h h01 h10 hS c hw] at this
    have e : ∫ s in (0 : ℝ)..1, ((vpd 0 X (s, 1)).x * (w (s, 1)).y - (vpd 0 X (s, 0)).x * (w (s, 0)).y)
        = ∫ s in (0 : ℝ)..1, (vpd 0 X (s, 1)).x := by
      refine intervalIntegral.integral_congr fun s hs => ?_
      rw [Set.uIcc_of_le zero_le_one] at hs
      simp [w, h.north s hs, h.south s hs]
    have e' : ∫ s in (0 : ℝ)..1, ((vpd 1 X (1, s)).y * (w (1, s)).x - (vpd 1 X (0, s)).y * (w (0, s)).x)
        = ∫ _s in (0 : ℝ)..1, (0 : ℝ) := intervalIntegral.integral_congr fun s _ => by simp [w]
    rw [e, e', width h] at this
    simp at this
    rcases this with h' | h'
    · exact absurd h' hy
    · exact h'
  · intro h11 v hv
    rw [residual_square h h01 h10 hS c hv.smooth, h11]
    have e : ∫ s in (0 : ℝ)..1, ((vpd 1 X (1, s)).y * (v (1, s)).x - (vpd 1 X (0, s)).y * (v (0, s)).x)
        = ∫ _s in (0 : ℝ)..1, (0 : ℝ) := by
      refine intervalIntegral.integral_congr fun s hs => ?_
      rw [Set.uIcc_of_le zero_le_one] at hs
      simp [hv.east s hs, hv.west s hs]
    rw [e]
    simp

theorem field_smooth {φ : ℝ × ℝ → ℝ} (h : ContDiff ℝ 2 φ) (c : ℕ) : SmoothOn 2 (field φ c) Set.univ := by
  unfold field
  by_cases hc : c = 0
  · simp only [if_pos hc]; exact ⟨h.contDiffOn, contDiffOn_const, contDiffOn_const⟩
  · simp only [if_neg hc]; exact ⟨contDiffOn_const, h.contDiffOn, contDiffOn_const⟩

theorem field_plane (φ : ℝ × ℝ → ℝ) (c : ℕ) (q : ℝ × ℝ) : (field φ c q).z = 0 := by
  unfold field; split <;> rfl

/-- Sum of the residual over the functions of the right side. -/
theorem force_sum (h : Square X) {S : Surf → Surf → Section} {N : T2} {x y : ℝ} (h01 : N 0 1 = 0) (h10 : N 1 0 = 0)
    (h11 : N 1 1 = 0) (hS : Uniform S (stretch x y) N) (c : V3) {φ : ℕ → ℝ × ℝ → ℝ} {l : List ℕ} (hφ : East φ l) (k : ℕ) :
    ∑ i ∈ l.toFinset, residualForm X (affine (stretch x y) c X) S 0 (rect 1 1) (field (φ i) k)
      = if k = 0 then -(x * N 0 0) else 0 := by
  have e : ∀ i ∈ l.toFinset, residualForm X (affine (stretch x y) c X) S 0 (rect 1 1) (field (φ i) k)
      = if k = 0 then -(x * N 0 0) * ∫ s in (0 : ℝ)..1, (vpd 1 X (1, s)).y * φ i (1, s) else 0 := by
    intro i hi
    rw [residual_square h h01 h10 hS c (field_smooth (hφ.smooth i) k), h11]
    by_cases hk : k = 0
    · simp only [if_pos hk, field]
      have : ∫ s in (0 : ℝ)..1, ((vpd 1 X (1, s)).y * φ i (1, s) - (vpd 1 X (0, s)).y * φ i (0, s))
          = ∫ s in (0 : ℝ)..1, (vpd 1 X (1, s)).y * φ i (1, s) := by
        refine intervalIntegral.integral_congr fun s hs => ?_
        rw [Set.uIcc_of_le zero_le_one] at hs
        simp [hφ.far i (List.mem_toFinset.1 hi) s hs]
      rw [this]; ring
    · simp [if_neg hk, field]
  rw [Finset.sum_congr rfl e]
  by_cases hk : k = 0
  · simp only [if_pos hk]
    rw [← Finset.mul_sum]
    have c1 := (vc h.sheet.smooth 1).2
    have c2 := fun i => (hφ.smooth i).continuous
    rw [← intervalIntegral.integral_finsetSum fun i _ => Continuous.intervalIntegrable (by fun_prop) _ _]
    have : ∫ s in (0 : ℝ)..1, ∑ i ∈ l.toFinset, (vpd 1 X (1, s)).y * φ i (1, s) = ∫ s in (0 : ℝ)..1, (vpd 1 X (1, s)).y := by
      refine intervalIntegral.integral_congr fun s hs => ?_
      rw [Set.uIcc_of_le zero_le_one] at hs
      rw [← Finset.mul_sum, hφ.one s hs, mul_one]
    rw [this, height h, mul_one]
  · simp [if_neg hk]

/-- The boundary force of the right side. -/
theorem force_side (h : Square X) {S : Surf → Surf → Section} {N : T2} {x y : ℝ} (h01 : N 0 1 = 0) (h10 : N 1 0 = 0)
    (h11 : N 1 1 = 0) (hS : Uniform S (stretch x y) N) (c : V3) {φ : ℕ → ℝ × ℝ → ℝ} {l : List ℕ} (hφ : East φ l)
    {glob : ℕ → ℕ → ℕ → ℕ} (hg : ∀ k, Function.Injective (glob 0 k)) {rhs : ℕ → ℝ}
    (hr : ∀ k i, k < 2 → rhs (glob 0 k i) = residualForm X (affine (stretch x y) c X) S 0 (rect 1 1) (field (φ i) k))
    {k : ℕ} (hk : k < 2) : Solution.boundaryForce glob rhs [⟨0, l⟩] k = if k = 0 then -(x * N 0 0) else 0 := by
  rw [← force_sum h h01 h10 h11 hS c hφ k]
  have : (l.map (glob 0 k)).toFinset = l.toFinset.image (glob 0 k) := by
    ext; simp
  simp only [Solution.boundaryForce, Solution.indices, Finset.union_empty, this]
  rw [Finset.sum_image fun _ _ _ _ e => hg k e]
  exact Finset.sum_congr rfl fun i _ => hr k i hk

end

end Verif.Uniaxial
