import Verif.Lemmas.Uniaxial
import Verif.Props.Benchmark

/-! # Lemmas: stresses of the stretched square, the shortcut in the test -/

namespace Verif.Uniaxial

open V3 Geometry Fields MeasureTheory Verif.Variation Verif.Balance Verif.Hyper Verif.PatchTest Verif.ShellTangent
open Spec.Balloon Spec.Plate Spec.PatchTest Spec.Uniaxial Verif.Plate Verif.Reparam
open Verif.Integrate (Rule)
open Spec.Benchmark (unit cauchy lateralI lateralC Tension uatNH uatMR uatNHc uatMRc bulk)

theorem stretch_dot (x y : ℝ) : (fun i j => dot (stretch x y i) (stretch x y j)) = Spec.Benchmark.rect x y := by
  funext i j
  rcases fin2_cases i with rfl | rfl <;> rcases fin2_cases j with rfl | rfl <;>
    simp [stretch, dot, Spec.Benchmark.rect] <;> ring

theorem sheet_stress (M : Planar.Material) (x y : ℝ) (i j : Fin 2) :
    sheetS M (stretch x y) i j = M.stress (data unit (Spec.Benchmark.rect x y)) (up i) (up j) := by
  unfold sheetS; rw [stretch_dot]; rfl

theorem stretch_plane (x y : ℝ) (i : Fin 2) : (stretch x y i).z = 0 := by
  rcases fin2_cases i with rfl | rfl <;> simp [stretch]

theorem stretch_det {x y : ℝ} (hx : 0 < x) (hy : 0 < y) :
    (stretch x y 0).x * (stretch x y 1).y - (stretch x y 0).y * (stretch x y 1).x ≠ 0 := by
  simp [stretch, hx.ne', hy.ne']

/-- The planar residual is the one of the shell. -/
theorem planar_shell {X : ℝ × ℝ → V3} (h : Sheet 1 1 X) {x y : ℝ} (hx : 0 < x) (hy : 0 < y) (M : Planar.Material)
    (r : Rule) (t : ℝ) {v : ℝ × ℝ → V3} (hv : ∀ q, (v q).z = 0) :
    planarResidual X (affine (stretch x y) 0 X) (Planar.resultant M r t 0) (rect 1 1) v
      = residualForm X (affine (stretch x y) 0 X) (lawSection M.law r t) 0 (rect 1 1) v :=
  planar_eq h (stretch_plane x y) (stretch_det hx hy) rfl hv M r t

/-- Sections and stresses of an incompressible law. -/
theorem law_uniform {M : Planar.Material} (hM : Tensorial M) {r : Rule} (hr : Centred r) (t x y : ℝ)
    (h01 : M.stress (data unit (Spec.Benchmark.rect x y)) 0 1 = 0) :
    Uniform (lawSection M.law r t) (stretch x y)
      (fun i j => t * M.stress (data unit (Spec.Benchmark.rect x y)) (up i) (up j)) ∧
    t * M.stress (data unit (Spec.Benchmark.rect x y)) 1 0 = 0 := by
  constructor
  · have := hyper_uniform hM hr t (stretch x y)
    simpa only [sheet_stress] using this
  · have := hM.symm unit (Spec.Benchmark.rect x y) (by simp [unit]) (by simp [Spec.Benchmark.rect])
    rw [← this, h01, mul_zero]

/-- Stresses of the incompressible laws. -/
theorem incompressible {p : Par} (hp : 0 < p.mu) {M : Planar.Material} {σ : ℝ → ℝ}
    (hM : (M = neo p ∧ σ = uatNH p.mu) ∨ (0 < p.r ∧ M = mooney p ∧ σ = uatMR p.mu p.r)) {x y : ℝ} (hx : 0 < x)
    (hy : 0 < y) : Tensorial M ∧ (M.stress (data unit (Spec.Benchmark.rect x y)) 1 1 = 0 ↔ y = lateralI x) ∧
      M.stress (data unit (Spec.Benchmark.rect x y)) 0 1 = 0 ∧
      (y = lateralI x → x ^ 2 * M.stress (data unit (Spec.Benchmark.rect x y)) 0 0 = σ x) := by
  rcases hM with ⟨rfl, rfl⟩ | ⟨hr, rfl, rfl⟩
  · have := Benchmark.C130_NH p hp hx hy
    exact ⟨neo_tensorial p, this.1, this.2.1, fun h => by rw [← this.2.2 h, cauchy, div_one]; rfl⟩
  · have := Benchmark.C130_MR p hp hr hx hy
    exact ⟨mooney_tensorial p, this.1, this.2.1, fun h => by rw [← this.2.2 h, cauchy, div_one]; rfl⟩

/-- Stresses of the compressible laws. -/
theorem compressible_laws {p : Par} (hp : 0 < p.mu) (hK : 0 < p.K) (hν : 1 + p.ν ≠ 0)
    {s : CData → Fin 3 → Fin 3 → ℝ} {k : CData → Fin 3 → Fin 3 → Fin 3 → Fin 3 → ℝ} {σ : ℝ → ℝ → ℝ}
    (hs : (s = sNHc p ∧ k = cNHc p ∧ σ = uatNHc p.mu (bulk p.mu p.ν)) ∨
      (0 < p.r ∧ s = sMRc p ∧ k = cMRc p ∧ σ = uatMRc p.mu p.r (bulk p.mu p.ν))) {x : ℝ} (hx : 0 < x) :
    Compressible p s k ∧ (∀ y c, s (cdata (data unit (Spec.Benchmark.rect x y)) c) 0 1 = 0) ∧
      Tension (fun y c => s (cdata (data unit (Spec.Benchmark.rect x y)) c)) x (σ x) := by
  have g1 : ∀ y c, (cdata (data unit (Spec.Benchmark.rect x y)) c).D.Gori 0 1 = 0 := by
    intro y c
    show embed (inv2 unit) 0 1 = 0
    simp [embed, inv2, unit]
  have g2 : ∀ y c, (cdata (data unit (Spec.Benchmark.rect x y)) c).cinv 0 1 = 0 := by
    intro y c
    show embed (inv2 (Spec.Benchmark.rect x y)) 0 1 = 0
    simp [embed, inv2, Spec.Benchmark.rect]
  rcases hs with ⟨rfl, rfl, rfl⟩ | ⟨hr, rfl, rfl, rfl⟩
  · exact ⟨Or.inl ⟨rfl, rfl⟩, fun y c => by simp [sNHc, g1, g2], Benchmark.C130_NHc p hp hK hν hx⟩
  · exact ⟨Or.inr (Or.inl ⟨rfl, rfl⟩), fun y c => by simp [sMRc, dI2, dI1, g1, g2, delta],
      Benchmark.C130_MRc p hp hK hr hν hx⟩

/-! ## The shortcut -/

theorem plate_square : Square plate where
  sheet := ⟨⟨contDiff_fst.contDiffOn, contDiff_snd.contDiffOn, contDiffOn_const⟩, fun _ => rfl, fun q _ => by
    rw [vpd_plate0, vpd_plate1]; norm_num⟩
  west _ _ := rfl
  east _ _ := rfl
  south _ _ := rfl
  north _ _ := rfl

theorem diag_inv {a b : ℝ} (ha : a ≠ 0) (hb : b ≠ 0) : inv2 ![![a, 0], ![0, b]] = ![![1 / a, 0], ![0, 1 / b]] := by
  funext i j
  rcases fin2_cases i with rfl | rfl <;> rcases fin2_cases j with rfl | rfl <;> simp [inv2, det2] <;> field_simp

theorem not_close {x y : ℝ} (hx : 1 + 1 / 10 ^ 11 ≤ x) (hy : 0 < y) :
    ¬ Shortcut.allClose (data unit (Spec.Benchmark.rect x y)).Gori (data unit (Spec.Benchmark.rect x y)).gcon
      (1 / 10 ^ 12) := by
  have hx0 : 0 < x := by linarith [show (0 : ℝ) < 1 + 1 / 10 ^ 11 by positivity]
  have e1 : (data unit (Spec.Benchmark.rect x y)).Gori = embed ![![1, 0], ![0, 1]] := by
    show embed (inv2 unit) = _
    rw [unit, diag_inv one_ne_zero one_ne_zero]; norm_num
  have e2 : (data unit (Spec.Benchmark.rect x y)).gcon = embed ![![1 / x ^ 2, 0], ![0, 1 / y ^ 2]] := by
    show embed (inv2 (Spec.Benchmark.rect x y)) = _
    rw [Spec.Benchmark.rect, diag_inv (by positivity) (by positivity)]
  rw [e1, e2]
  intro h
  have hx2 : 1 / x ^ 2 ≤ 1 - 1 / 10 ^ 11 := by
    rw [div_le_iff₀ (by positivity)]
    nlinarith
  have hxp : 0 < 1 / x ^ 2 := by positivity
  have hyp : 0 < 1 / y ^ 2 := by positivity
  set u := 1 / x ^ 2
  set w := 1 / y ^ 2
  have hm : max (Shortcut.maxAbs (embed ![![1, 0], ![0, 1]])) (Shortcut.maxAbs (embed ![![u, 0], ![0, w]])) ≤ 1 + w := by
    refine max_le (Shortcut.maxAbs_le _ _ fun i j => ?_) (Shortcut.maxAbs_le _ _ fun i j => ?_)
    · rcases fin3_cases i with rfl | rfl | rfl <;> rcases fin3_cases j with rfl | rfl | rfl <;> simp [embed, mk3] <;> linarith
    · rcases fin3_cases i with rfl | rfl | rfl <;> rcases fin3_cases j with rfl | rfl | rfl <;>
        simp [embed, mk3, abs_of_pos hxp, abs_of_pos hyp] <;> linarith
  have d0 := Shortcut.le_maxAbs (fun i j => embed ![![1, 0], ![0, 1]] i j - embed ![![u, 0], ![0, w]] i j) 0 0
  have d1 := Shortcut.le_maxAbs (fun i j => embed ![![1, 0], ![0, 1]] i j - embed ![![u, 0], ![0, w]] i j) 1 1
  have hb := le_trans h (mul_le_mul_of_nonneg_left hm (by norm_num : (0 : ℝ) ≤ 1 / 10 ^ 12))
  have b0 := le_trans (le_abs_self _) (le_trans d0 hb)
  have b1 := le_trans (neg_le_abs _) (le_trans d1 hb)
  simp [embed, mk3] at b0 b1
  norm_num at b0 b1 hx2
  linarith

theorem shortcut_shell {x y : ℝ} (hx : 1 + 1 / 10 ^ 11 ≤ x) (hy : 0 < y) (M : Planar.Material) (r : Rule) (t : ℝ)
    (v : ℝ × ℝ → V3) :
    residualForm plate (affine (stretch x y) 0 plate) (lawSection (shortcut M).law r t) 0 (rect 1 1) v
      = residualForm plate (affine (stretch x y) 0 plate) (lawSection M.law r t) 0 (rect 1 1) v := by
  refine shortcut_eq plate_square.sheet M r t (stretch x y) 0 v fun q _ => ?_
  have e0 : Acov (jet plate q) = unit := by rw [jet_plate, flat_Acov]; rfl
  have e1 : Acov (jet (affine (stretch x y) 0 plate) q) = Spec.Benchmark.rect x y := by
    rw [← stretch_dot]
    have hp : par plate q = ![![1, 0], ![0, 1]] := by
      funext i j
      rcases fin2_cases i with rfl | rfl <;> rcases fin2_cases j with rfl | rfl <;> simp [par, vpd_plate0, vpd_plate1]
    funext i j
    rw [jet_affine plate_square.sheet.smooth, hp]
    rcases fin2_cases i with rfl | rfl <;> rcases fin2_cases j with rfl | rfl <;> simp [Acov, Linear.reparam, fS, stretch, dot]
  rw [e0, e1]
  exact not_close hx hy

end Verif.Uniaxial
