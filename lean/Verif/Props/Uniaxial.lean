import Verif.Lemmas.UniaxialLaw
import Verif.Props.PatchTest

/-!
# Claim C145: the boundary value problem of the uniaxial tension test

`UAT_numerical` and `UAT_analytical` of `unittests/gsThinShellAssembler_test.cpp` (l.468-742).
-/

namespace Verif.Uniaxial

open V3 Geometry Fields Verif.Hyper Verif.PatchTest Verif.ShellTangent
open Spec.Balloon Spec.Plate Spec.PatchTest Spec.Uniaxial Verif.Plate Verif.Reparam
open Verif.Integrate (Rule)
open Spec.Benchmark (unit cauchy lateralI lateralC Tension uatNH uatMR uatNHc uatMRc bulk)

/-- The test as it is in the code, with the zero-stress shortcut: unit square, axial stretch prescribed (at least
`1 + 1e-11`).  A state with the lateral stretch `y` solves the planar problem if and only if `y` is the
closed-form lateral stretch.  In this state the stress computed from the boundary force of the right side is the
closed-form stress, for every basis. -/
theorem C145_test {p : Par} (hp : 0 < p.mu) {M : Planar.Material} {σ : ℝ → ℝ}
    (hM : (M = neo p ∧ σ = uatNH p.mu) ∨ (0 < p.r ∧ M = mooney p ∧ σ = uatMR p.mu p.r)) {r : Rule}
    (hr : ∑ j, r.w j = 1) (hc : ∑ j, r.w j * r.ξ j = 0) {t x y : ℝ} (ht : t ≠ 0) (hx : 1 + 1 / 10 ^ 11 ≤ x)
    (hy : 0 < y) :
    ((∀ v, Test v → planarResidual plate (affine (stretch x y) 0 plate) (Planar.resultant (shortcut M) r t 0)
      (rect 1 1) v = 0) ↔ y = lateralI x) ∧
    (y = lateralI x → ∀ φ l, East φ l → ∀ (glob : ℕ → ℕ → ℕ → ℕ) (rhs : ℕ → ℝ),
      (∀ k, Function.Injective (glob 0 k)) →
      (∀ k i, k < 2 → rhs (glob 0 k i) = planarResidual plate (affine (stretch x y) 0 plate)
        (Planar.resultant (shortcut M) r t 0) (rect 1 1) (field (φ i) k)) →
      stress t y (1 / (x * y)) (Solution.boundaryForce glob rhs [⟨0, l⟩]) = σ x) := by
  have hx0 : 0 < x := by linarith [show (0 : ℝ) < 1 + 1 / 10 ^ 11 by positivity]
  obtain ⟨hT, h11, h01, h00⟩ := incompressible hp hM hx0 hy
  obtain ⟨hu, h10⟩ := law_uniform hT ⟨hr, hc⟩ t x y h01
  have e : ∀ v : ℝ × ℝ → V3, (∀ q, (v q).z = 0) → planarResidual plate (affine (stretch x y) 0 plate)
      (Planar.resultant (shortcut M) r t 0) (rect 1 1) v
        = residualForm plate (affine (stretch x y) 0 plate) (lawSection M.law r t) 0 (rect 1 1) v := fun v hv => by
    rw [planar_shell plate_square.sheet hx0 hy _ r t hv, shortcut_shell hx hy]
  have he := equilibrium plate_square (by rw [up_zero, up_one, h01, mul_zero]) (by rw [up_zero, up_one, h10]) hu hy.ne' 0
  refine ⟨?_, fun hl φ l hφ glob rhs hg hrhs => ?_⟩
  · rw [← h11]
    constructor
    · intro h
      have := he.1 fun v hv => by rw [← e v hv.plane]; exact h v hv
      exact (mul_eq_zero.1 this).resolve_left ht
    · intro h v hv
      rw [e v hv.plane]
      exact he.2 (by rw [up_one, h, mul_zero]) v hv
  · have hF := fun {k : ℕ} (hk : k < 2) => force_side plate_square (by rw [up_zero, up_one, h01, mul_zero])
      (by rw [up_zero, up_one, h10]) (by rw [up_one, h11.2 hl, mul_zero]) hu 0 hφ hg (rhs := rhs)
      (fun k i hk => by rw [hrhs k i hk, e _ (field_plane _ _)]) hk
    rw [stress, hF (by norm_num : 0 < 2), hF (by norm_num : 1 < 2), ← h00 hl]
    simp only [up_zero]
    simp
    field_simp

/-- The same for every regular parametrisation of the unit square and every stretch, where the shortcut is not
taken.  Missing: the shortcut. -/
theorem C145_square_partial {p : Par} (hp : 0 < p.mu) {M : Planar.Material} {σ : ℝ → ℝ}
    (hM : (M = neo p ∧ σ = uatNH p.mu) ∨ (0 < p.r ∧ M = mooney p ∧ σ = uatMR p.mu p.r)) {r : Rule}
    (hr : ∑ j, r.w j = 1) (hc : ∑ j, r.w j * r.ξ j = 0) {t x y : ℝ} (ht : t ≠ 0) (hx : 0 < x) (hy : 0 < y)
    {X : ℝ × ℝ → V3} (hX : Square X) :
    ((∀ v, Test v → planarResidual X (affine (stretch x y) 0 X) (Planar.resultant M r t 0) (rect 1 1) v = 0)
      ↔ y = lateralI x) ∧
    (y = lateralI x → ∀ φ l, East φ l → ∀ (glob : ℕ → ℕ → ℕ → ℕ) (rhs : ℕ → ℝ),
      (∀ k, Function.Injective (glob 0 k)) →
      (∀ k i, k < 2 → rhs (glob 0 k i) = planarResidual X (affine (stretch x y) 0 X)
        (Planar.resultant M r t 0) (rect 1 1) (field (φ i) k)) →
      stress t y (1 / (x * y)) (Solution.boundaryForce glob rhs [⟨0, l⟩]) = σ x) := by
  obtain ⟨hT, h11, h01, h00⟩ := incompressible hp hM hx hy
  obtain ⟨hu, h10⟩ := law_uniform hT ⟨hr, hc⟩ t x y h01
  have e := fun (v : ℝ × ℝ → V3) (hv : ∀ q, (v q).z = 0) => planar_shell hX.sheet hx hy M r t hv
  have he := equilibrium hX (by rw [up_zero, up_one, h01, mul_zero]) (by rw [up_zero, up_one, h10]) hu hy.ne' 0
  refine ⟨?_, fun hl φ l hφ glob rhs hg hrhs => ?_⟩
  · rw [← h11]
    constructor
    · intro h
      have := he.1 fun v hv => by rw [← e v hv.plane]; exact h v hv
      exact (mul_eq_zero.1 this).resolve_left ht
    · intro h v hv
      rw [e v hv.plane]
      exact he.2 (by rw [up_one, h, mul_zero]) v hv
  · have hF := fun {k : ℕ} (hk : k < 2) => force_side hX (by rw [up_zero, up_one, h01, mul_zero])
      (by rw [up_zero, up_one, h10]) (by rw [up_one, h11.2 hl, mul_zero]) hu 0 hφ hg (rhs := rhs)
      (fun k i hk => by rw [hrhs k i hk, e _ (field_plane _ _)]) hk
    rw [stress, hF (by norm_num : 0 < 2), hF (by norm_num : 1 < 2), ← h00 hl]
    simp only [up_zero]
    simp
    field_simp

/-- The compressible neo-Hookean and Mooney–Rivlin laws, for every regular parametrisation of the unit square,
where the iteration finds the thickness stretch: a state solves the planar problem if and only if its lateral
stress vanishes; if the thickness stress vanishes exactly, then if and only if both stretches are those of the
closed form.  In this state the stress computed from the boundary force is the closed-form stress.  Missing: the
shortcut, an iteration that stops with a thickness stress left. -/
theorem C145_compressible_partial {p : Par} (hp : 0 < p.mu) (hK : 0 < p.K) (hν : 1 + p.ν ≠ 0)
    {s : CData → Fin 3 → Fin 3 → ℝ} {k : CData → Fin 3 → Fin 3 → Fin 3 → Fin 3 → ℝ} {σ : ℝ → ℝ → ℝ}
    (hs : (s = sNHc p ∧ k = cNHc p ∧ σ = uatNHc p.mu (bulk p.mu p.ν)) ∨
      (0 < p.r ∧ s = sMRc p ∧ k = cMRc p ∧ σ = uatMRc p.mu p.r (bulk p.mu p.ν))) {r : Rule}
    (hr : ∑ j, r.w j = 1) (hc : ∑ j, r.w j * r.ξ j = 0) {t x : ℝ} (ht : t ≠ 0) (hx : 0 < x) :
    ∃ y0, 0 < y0 ∧ y0 = lateralC x (x * y0 ^ 2) ∧ ∀ (y c : ℝ) (X : ℝ × ℝ → V3), 0 < y → 0 < c → Square X →
      Newton.c33Of s k (data unit (Spec.Benchmark.rect x y)) = .ok c →
      ((∀ v, Test v → planarResidual X (affine (stretch x y) 0 X) (Planar.resultant (compressible s k) r t 0)
        (rect 1 1) v = 0) ↔ s (cdata (data unit (Spec.Benchmark.rect x y)) c) 1 1 = 0) ∧
      (s (cdata (data unit (Spec.Benchmark.rect x y)) c) 2 2 = 0 →
        ((∀ v, Test v → planarResidual X (affine (stretch x y) 0 X) (Planar.resultant (compressible s k) r t 0)
          (rect 1 1) v = 0) ↔ y = y0 ∧ c = y0 ^ 2)) ∧
      (y = y0 ∧ c = y0 ^ 2 → ∀ φ l, East φ l → ∀ (glob : ℕ → ℕ → ℕ → ℕ) (rhs : ℕ → ℝ),
        (∀ k, Function.Injective (glob 0 k)) →
        (∀ m i, m < 2 → rhs (glob 0 m i) = planarResidual X (affine (stretch x y) 0 X)
          (Planar.resultant (compressible s k) r t 0) (rect 1 1) (field (φ i) m)) →
        stress t y √c (Solution.boundaryForce glob rhs [⟨0, l⟩]) = σ x (x * y0 ^ 2)) := by
  obtain ⟨hC, hd, y0, hy0, hz, -, hl, hσ, -⟩ := compressible_laws hp hK hν hs hx
  refine ⟨y0, hy0, hl, fun y c X hy hc0 hX hN => ?_⟩
  have hm : (compressible s k).stress (data unit (Spec.Benchmark.rect x y))
      = s (cdata (data unit (Spec.Benchmark.rect x y)) c) := by simp only [compressible, hN]
  obtain ⟨hu, h10⟩ := law_uniform (compressible_tensorial hC) ⟨hr, hc⟩ t x y (by rw [hm]; exact hd y c)
  rw [hm] at hu h10
  have e := fun (v : ℝ × ℝ → V3) (hv : ∀ q, (v q).z = 0) => planar_shell hX.sheet hx hy (compressible s k) r t hv
  have he := equilibrium hX (by rw [up_zero, up_one, hd, mul_zero]) (by rw [up_zero, up_one, h10]) hu hy.ne' 0
  have hE : (∀ v, Test v → planarResidual X (affine (stretch x y) 0 X) (Planar.resultant (compressible s k) r t 0)
      (rect 1 1) v = 0) ↔ s (cdata (data unit (Spec.Benchmark.rect x y)) c) 1 1 = 0 := by
    constructor
    · intro h
      have := he.1 fun v hv => by rw [← e v hv.plane]; exact h v hv
      exact (mul_eq_zero.1 this).resolve_left ht
    · intro h v hv
      rw [e v hv.plane]
      exact he.2 (by rw [up_one, h, mul_zero]) v hv
  refine ⟨hE, fun h22 => ?_, fun hyc φ l hφ glob rhs hg hrhs => ?_⟩
  · rw [hE]
    exact ⟨fun h => (hz y c hy hc0).1 ⟨h, h22⟩, fun h => ((hz y c hy hc0).2 h).1⟩
  · have h11 : s (cdata (data unit (Spec.Benchmark.rect x y)) c) 1 1 = 0 := ((hz y c hy hc0).2 hyc).1
    have hF := fun {k : ℕ} (hk : k < 2) => force_side hX (by rw [up_zero, up_one, hd, mul_zero])
      (by rw [up_zero, up_one, h10]) (by rw [up_one, h11, mul_zero]) hu 0 hφ hg (rhs := rhs)
      (fun k i hk => by rw [hrhs k i hk, e _ (field_plane _ _)]) hk
    rw [stress, hF (by norm_num : 0 < 2), hF (by norm_num : 1 < 2), ← hσ, cauchy]
    obtain ⟨rfl, rfl⟩ := hyc
    rw [Real.sqrt_sq hy.le]
    simp only [up_zero]
    simp
    field_simp

/-! ## Examples -/

/-- Hat functions on the unit square. -/
def hat (i : ℕ) (q : ℝ × ℝ) : ℝ :=
  if i = 0 then (1 - q.1) * (1 - q.2) else if i = 1 then q.1 * (1 - q.2) else if i = 2 then (1 - q.1) * q.2
    else q.1 * q.2

theorem hat_east : East hat [1, 3] where
  smooth i := by
    unfold hat
    split
    · fun_prop
    · split
      · fun_prop
      · split <;> fun_prop
  one s _ := by
    simp [hat]
  far i hi s _ := by
    simp at hi
    rcases hi with rfl | rfl <;> simp [hat]

/-- A curved parametrisation of the unit square. -/
noncomputable def wavy (q : ℝ × ℝ) : V3 := ⟨q.1 + q.1 * (1 - q.1) * q.2 / 2, q.2, 0⟩

theorem wavy_square : Square wavy where
  sheet := by
    have hx : Differentiable ℝ fun q : ℝ × ℝ => q.1 + q.1 * (1 - q.1) * q.2 / 2 := by fun_prop
    have hy : Differentiable ℝ fun q : ℝ × ℝ => q.2 := by fun_prop
    refine ⟨⟨?_, ?_, contDiffOn_const⟩, fun _ => rfl, fun q hq => ?_⟩
    · unfold wavy; exact ContDiff.contDiffOn (by fun_prop)
    · unfold wavy; exact ContDiff.contDiffOn (by fun_prop)
    · have e0 : (vpd 0 wavy q).x = 1 + (1 - 2 * q.1) * q.2 / 2 := by
        refine pd0 hx q ?_
        have h1 := (hasDerivAt_id' q.1).fun_mul ((hasDerivAt_id' q.1).const_sub 1)
        have := (hasDerivAt_id' q.1).fun_add ((h1.mul_const q.2).div_const 2)
        refine this.congr_deriv ?_
        ring
      have e1 : (vpd 1 wavy q).y = 1 := pd1 hy q (hasDerivAt_id' q.2)
      have e2 : (vpd 0 wavy q).y = 0 := pd0 hy q (hasDerivAt_const q.1 q.2)
      rw [e0, e1, e2]
      obtain ⟨⟨a1, a2⟩, b1, b2⟩ := hq
      nlinarith
  west s _ := by simp [wavy]
  east s _ := by simp [wavy]
  south s _ := by simp [wavy]
  north s _ := by simp [wavy]

/-- The unit test: stretch 2, ratio 7, four functions. -/
example : stress 0.001 (lateralI 2) (1 / (2 * lateralI 2)) (Solution.boundaryForce (fun _ c i => 2 * i + c)
    (fun g => planarResidual plate (affine (stretch 2 (lateralI 2)) 0 plate)
      (Planar.resultant (shortcut (mooney ⟨4.5, 0.5, 7⟩)) midpoint 0.001 0) (rect 1 1) (field (hat (g / 2)) (g % 2)))
    [⟨0, [1, 3]⟩]) = uatMR (Par.mu ⟨4.5, 0.5, 7⟩) 7 2 := by
  have hy : 0 < lateralI 2 := Real.rpow_pos_of_pos (by norm_num) _
  refine (C145_test (p := ⟨4.5, 0.5, 7⟩) (by simp only [Par.mu]; norm_num)
    (Or.inr ⟨by norm_num, rfl, rfl⟩) midpoint_centred.1 midpoint_centred.2 (t := 0.001) (x := 2)
    (by norm_num) (by norm_num) hy).2 rfl _ _ hat_east _ _ (fun k a b h => by simpa using h) fun k i hk => ?_
  have h1 : (2 * i + k) / 2 = i := by omega
  have h2 : (2 * i + k) % 2 = k := by omega
  simp only [h1, h2]

example (t : ℝ) (ht : t ≠ 0) : ¬ ∀ v, Test v → planarResidual wavy (affine (stretch 4 1) 0 wavy)
    (Planar.resultant (neo ⟨4.5, 0.5, 7⟩) midpoint t 0) (rect 1 1) v = 0 := by
  rw [(C145_square_partial (p := ⟨4.5, 0.5, 7⟩) (by simp only [Par.mu]; norm_num) (Or.inl ⟨rfl, rfl⟩)
    midpoint_centred.1 midpoint_centred.2 ht (by norm_num) one_pos wavy_square).1, lateralI]
  intro h
  have : ((1 : ℝ) / 4) ^ (0.5 : ℝ) < 1 := Real.rpow_lt_one (by norm_num) (by norm_num) (by norm_num)
  exact this.ne h.symm

/-- A rectangle whose thickness stress vanishes at the start of the iteration: its lateral stress does not. -/
example (t : ℝ) (ht : t ≠ 0) : ¬ ∀ v, Test v → planarResidual wavy (affine (stretch √2 √(√2 - 1)) 0 wavy)
    (Planar.resultant (compressible (sNHc ⟨1, 0, 1⟩) (cNHc ⟨1, 0, 1⟩)) midpoint t 0) (rect 1 1) v = 0 := by
  have hmu : Par.mu ⟨1, 0, 1⟩ = 1 / 2 := by simp only [Par.mu]; norm_num
  have hK : Par.K ⟨1, 0, 1⟩ = 1 / 3 := by simp only [Par.K]; norm_num
  have q2 : √(2 : ℝ) ^ 2 = 2 := Real.sq_sqrt (by norm_num)
  have h1 : 1 < √(2 : ℝ) := by
    rw [Real.lt_sqrt (by norm_num)]; norm_num
  set w : ℝ := √2 with hw
  have qy : √(w - 1) ^ 2 = w - 1 := Real.sq_sqrt (by linarith)
  obtain ⟨y0, -, -, h⟩ := C145_compressible_partial (p := ⟨1, 0, 1⟩) (by rw [hmu]; norm_num) (by rw [hK]; norm_num)
    (by norm_num) (Or.inl ⟨rfl, rfl, rfl⟩) midpoint_centred.1 midpoint_centred.2 ht (by linarith : 0 < w)
  set D := data unit (Spec.Benchmark.rect w √(w - 1)) with hD
  set c : ℝ := (w + 1) / 2 with hc
  have hcp : 0 < c := by rw [hc]; linarith
  have hJ : D.J0 = 1 / c := by
    show det2 (Spec.Benchmark.rect w √(w - 1)) / det2 unit = 1 / c
    have : det2 (Spec.Benchmark.rect w √(w - 1)) = 2 * (w - 1) := by
      simp only [det2, Spec.Benchmark.rect]; simp [q2, qy]
    rw [this, eq_div_iff hcp.ne', hc]
    simp [det2, unit]
    linear_combination q2
  have hJc : (cdata D c).J = 1 := by
    show D.J0 * c = 1
    rw [hJ]; field_simp
  have hI : I1 (cdata D c) = 3 * c := by
    have : traceCt D = w ^ 2 + √(w - 1) ^ 2 := by
      simp only [traceCt, hD, data]
      simp [embed, mk3, inv2, det2, unit, Spec.Benchmark.rect]
    show traceCt D + c = 3 * c
    rw [this, q2, qy, hc]; ring
  have hG : (cdata D c).D.Gori 2 2 = 1 := by
    show embed (inv2 unit) 2 2 = 1
    simp
  have hi : (cdata D c).cinv 2 2 = 1 / c := by
    simp [cdata, withThickness]
  have h22 : sNHc ⟨1, 0, 1⟩ (cdata D c) 2 2 = 0 := by
    simp only [sNHc, hJc, hI, hG, hi]
    field_simp
    norm_num
  have hT : cNHc ⟨1, 0, 1⟩ (cdata D c) 2 2 2 2 ≠ 0 := by
    have : cNHc ⟨1, 0, 1⟩ (cdata D c) 2 2 2 2 = 2 / 3 / c + 1 / 3 / c ^ 2 := by
      simp only [cNHc, dCinv, hJc, hI, hG, hi, hmu, hK]
      field_simp
      norm_num
      ring
    rw [this]; positivity
  have hN : Newton.c33Of (sNHc ⟨1, 0, 1⟩) (cNHc ⟨1, 0, 1⟩) D = .ok c := by
    have e : 1 / D.J0 = c := by rw [hJ]; field_simp
    have hs : Newton.step (fun c => sNHc ⟨1, 0, 1⟩ (cdata D c) 2 2) (fun c => cNHc ⟨1, 0, 1⟩ (cdata D c) 2 2 2 2) c = 0 := by
      simp [Newton.step, h22]
    unfold Newton.c33Of Newton.c33
    rw [e, hs, if_neg (by rw [hJ]; push Not; exact ⟨by positivity, hT⟩), show Newton.itmax = 99 + 1 from rfl, Newton.loop]
    simp only [add_zero, hs]
    rw [if_neg (by push Not; exact ⟨hcp.ne', hT⟩), if_pos (by simp [Newton.tol])]
  intro hv
  obtain ⟨e1, e2⟩ := ((h √(w - 1) c wavy (Real.sqrt_pos.2 (by linarith)) hcp wavy_square hN).2.1 h22).1 hv
  rw [← e1, qy] at e2
  rw [hc] at e2
  nlinarith

end Verif.Uniaxial
