import Verif.Lemmas.PlaneStress

/-!
# C127: the thickness stretch with zero thickness stress exists and is unique

Property theorems.  `A` and `C` are the undeformed and deformed metrics at a point, `x` is the
squared thickness stretch.
-/

namespace Verif.PlaneStress

open Verif.Geometry Verif.Hyper Verif.Newton Spec.PosDef Verif.PosDef Verif.Reparam

/-- **C127** Compressible neo-Hookean material: exactly one positive thickness stretch has zero
thickness stress; it lies between half the trace of the deformation tensor and the value that
preserves the volume, and the stress is negative below and positive above it. -/
theorem C127_neoHooke (p : Par) (hmu : 0 < p.mu) (hK : 0 < p.K) {A C : T2} (hA : Metric A)
    (hC : Metric C) : ∃ x, (0 < x ∧ sNHc p (cdata (data A C) x) 2 2 = 0) ∧
      min ((∑ i, ∑ j, inv2 A i j * C i j) / 2) (det2 A / det2 C) ≤ x ∧
      x ≤ max ((∑ i, ∑ j, inv2 A i j * C i j) / 2) (det2 A / det2 C) ∧
      (∀ y, 0 < y → y < x → sNHc p (cdata (data A C) y) 2 2 < 0) ∧
      (∀ y, x < y → 0 < sNHc p (cdata (data A C) y) 2 2) := by
  have hj := J0_pos hA hC
  have ht := trace_pos hA hC
  have e1 : ∑ i, ∑ j, inv2 A i j * C i j = traceCt (data A C) := by
    simp only [traceCt, data, embed_00, embed_01, embed_10, embed_11, Fin.sum_univ_two]; ring
  have e2 : det2 A / det2 C = 1 / (data A C).J0 := by simp only [data]; rw [one_div_div]
  rw [e1, e2]
  have hlo : 0 < min (traceCt (data A C) / 2) (1 / (data A C).J0) := by
    rw [lt_min_iff]; constructor <;> positivity
  obtain ⟨x, ⟨hx1, hx2⟩, hx⟩ := F_root hmu.le le_rfl hK ht hj hlo min_le_max (min_le_left _ _)
    (min_le_right _ _) (fun h => absurd rfl h) (le_max_left _ _) (le_max_right _ _)
    (fun h => absurd rfl h)
  have hx0 : 0 < x := lt_of_lt_of_le hlo hx1
  refine ⟨x, ⟨hx0, ?_⟩, hx1, hx2, ?_, ?_⟩
  · have := sNHc_F p A C x hj hx0
    rw [hx] at this
    exact (mul_eq_zero.1 this).resolve_left hx0.ne'
  · intro y hy hyx
    have h := F_mono hmu.le le_rfl hK ht hj (mul_pos hj hy) (mul_lt_mul_of_pos_left hyx hj)
    rw [hx, ← sNHc_F p A C y hj hy] at h
    exact neg_of_mul_neg_right h hy.le
  · intro y hyx
    have hy : 0 < y := hx0.trans hyx
    have h := F_mono hmu.le le_rfl hK ht hj (mul_pos hj hx0) (mul_lt_mul_of_pos_left hyx hj)
    rw [hx, ← sNHc_F p A C y hj hy] at h
    exact (mul_pos_iff_of_pos_left hy).1 h

/-- **C127** Compressible Mooney–Rivlin material, likewise with a third value among the bounds. -/
theorem C127_mooneyRivlin (p : Par) (h1 : 0 < p.c1) (h2 : 0 < p.c2) (hK : 0 < p.K) {A C : T2}
    (hA : Metric A) (hC : Metric C) : ∃ x, (0 < x ∧ sMRc p (cdata (data A C) x) 2 2 = 0) ∧
      min (min ((∑ i, ∑ j, inv2 A i j * C i j) / 2) (det2 A / det2 C))
        (2 * (det2 C / det2 A) / ∑ i, ∑ j, inv2 A i j * C i j) ≤ x ∧
      x ≤ max (max ((∑ i, ∑ j, inv2 A i j * C i j) / 2) (det2 A / det2 C))
        (2 * (det2 C / det2 A) / ∑ i, ∑ j, inv2 A i j * C i j) ∧
      (∀ y, 0 < y → y < x → sMRc p (cdata (data A C) y) 2 2 < 0) ∧
      (∀ y, x < y → 0 < sMRc p (cdata (data A C) y) 2 2) := by
  have hj := J0_pos hA hC
  have ht := trace_pos hA hC
  have e1 : ∑ i, ∑ j, inv2 A i j * C i j = traceCt (data A C) := by
    simp only [traceCt, data, embed_00, embed_01, embed_10, embed_11, Fin.sum_univ_two]; ring
  have e2 : det2 A / det2 C = 1 / (data A C).J0 := by simp only [data]; rw [one_div_div]
  have e3 : det2 C / det2 A = (data A C).J0 := rfl
  rw [e1, e2, e3]
  set lo := min (min (traceCt (data A C) / 2) (1 / (data A C).J0))
    (2 * (data A C).J0 / traceCt (data A C)) with hlo'
  set hi := max (max (traceCt (data A C) / 2) (1 / (data A C).J0))
    (2 * (data A C).J0 / traceCt (data A C)) with hhi'
  have hlo : 0 < lo := by
    rw [hlo', lt_min_iff, lt_min_iff]; refine ⟨⟨?_, ?_⟩, ?_⟩ <;> positivity
  have l1 : lo ≤ traceCt (data A C) / 2 := (min_le_left _ _).trans (min_le_left _ _)
  have g1 : traceCt (data A C) / 2 ≤ hi := (le_max_left _ _).trans (le_max_left _ _)
  obtain ⟨x, ⟨hx1, hx2⟩, hx⟩ := F_root h1.le h2.le hK ht hj hlo (l1.trans g1) l1
    ((min_le_left _ _).trans (min_le_right _ _)) (fun _ => min_le_right _ _) g1
    ((le_max_right _ _).trans (le_max_left _ _)) (fun _ => le_max_right _ _)
  have hx0 : 0 < x := lt_of_lt_of_le hlo hx1
  refine ⟨x, ⟨hx0, ?_⟩, hx1, hx2, ?_, ?_⟩
  · have := sMRc_F p A C x hj hx0
    rw [hx] at this
    exact (mul_eq_zero.1 this).resolve_left hx0.ne'
  · intro y hy hyx
    have h := F_mono h1.le h2.le hK ht hj (mul_pos hj hy) (mul_lt_mul_of_pos_left hyx hj)
    rw [hx, ← sMRc_F p A C y hj hy] at h
    exact neg_of_mul_neg_right h hy.le
  · intro y hyx
    have hy : 0 < y := hx0.trans hyx
    have h := F_mono h1.le h2.le hK ht hj (mul_pos hj hx0) (mul_lt_mul_of_pos_left hyx hj)
    rw [hx, ← sMRc_F p A C y hj hy] at h
    exact (mul_pos_iff_of_pos_left hy).1 h

/-- **C127** Extended neo-Hookean material: the stretch in closed form. -/
theorem C127_extended (p : Par) (hmu : 0 < p.mu) (hl : 0 ≤ p.lam) {A C : T2} (hA : Metric A)
    (hC : Metric C) (x : ℝ) (hx : 0 < x) : sNHe p (cdata (data A C) x) 2 2 = 0 ↔
      x = (2 * p.mu + p.lam) / (2 * p.mu + p.lam * (det2 C / det2 A)) := by
  have hj := J0_pos hA hC
  rw [NHe_S p A C hx.ne']
  have e3 : det2 C / det2 A = (data A C).J0 := rfl
  rw [e3, eq_div_iff (by positivity)]
  constructor
  · intro h; field_simp at h; linarith
  · intro h; field_simp; linarith

/-- **C127** For each of the three laws there is exactly one. -/
theorem C127_unique (p : Par) (hmu : 0 < p.mu) (hK : 0 < p.K) (hl : 0 ≤ p.lam) (h1 : 0 < p.c1)
    (h2 : 0 < p.c2) {A C : T2} (hA : Metric A) (hC : Metric C) :
    (∃! x, 0 < x ∧ sNHc p (cdata (data A C) x) 2 2 = 0) ∧
    (∃! x, 0 < x ∧ sMRc p (cdata (data A C) x) 2 2 = 0) ∧
    ∃! x, 0 < x ∧ sNHe p (cdata (data A C) x) 2 2 = 0 := by
  refine ⟨?_, ?_, ?_⟩
  · obtain ⟨x, hx, -, -, hlt, hgt⟩ := C127_neoHooke p hmu hK hA hC
    refine ⟨x, hx, fun y hy => ?_⟩
    rcases lt_trichotomy y x with h | h | h
    · exact absurd hy.2 (hlt y hy.1 h).ne
    · exact h
    · exact absurd hy.2 (hgt y h).ne'
  · obtain ⟨x, hx, -, -, hlt, hgt⟩ := C127_mooneyRivlin p h1 h2 hK hA hC
    refine ⟨x, hx, fun y hy => ?_⟩
    rcases lt_trichotomy y x with h | h | h
    · exact absurd hy.2 (hlt y hy.1 h).ne
    · exact h
    · exact absurd hy.2 (hgt y h).ne'
  · have hj : 0 < det2 C / det2 A := J0_pos hA hC
    have hpos : 0 < (2 * p.mu + p.lam) / (2 * p.mu + p.lam * (det2 C / det2 A)) := by positivity
    refine ⟨_, ⟨hpos, (C127_extended p hmu hl hA hC _ hpos).2 rfl⟩, fun y hy => ?_⟩
    exact (C127_extended p hmu hl hA hC y hy.1).1 hy.2

/-- **C127** Violation: although the stretch exists, the iteration for the extended material does not
find it in any state with `J² (4μ + λ) ≤ 2μ` (`J²` the squared area ratio): it never returns a
positive value there. -/
theorem C127_compressed_violated (p : Par) (hmu : 0 < p.mu) (hl : 0 ≤ p.lam) {A C : T2}
    (hA : Metric A) (hC : Metric C) (hJ : det2 C / det2 A * (4 * p.mu + p.lam) ≤ 2 * p.mu) (x : ℝ)
    (h : c33Of (sNHe p) (cNHe p) (data A C) = .ok x) : x < 0 := by
  have hj : 0 < (data A C).J0 := J0_pos hA hC
  have ha : 0 < p.mu + p.lam * (data A C).J0 / 2 := by positivity
  have hb : 0 < p.mu + p.lam / 2 := by positivity
  unfold c33Of c33 at h
  have e3 : det2 C / det2 A = (data A C).J0 := rfl
  rw [e3] at hJ
  by_cases h0 : (data A C).J0 = 0 ∨ cNHe p (cdata (data A C) (1 / (data A C).J0)) 2 2 2 2 = 0
  · rw [if_pos h0] at h; exact absurd h (by simp)
  rw [if_neg h0] at h
  refine loop_neg ha hb (fun c hc => NHe_S p A C hc) (fun c hc => NHe_T p A C hc) _ _ x
    (by positivity) ?_ h
  rw [le_abs]
  right
  rw [show -(1 - (p.mu + p.lam * (data A C).J0 / 2) / (p.mu + p.lam / 2) * (1 / (data A C).J0))
    = (p.mu + p.lam * (data A C).J0 / 2) / ((p.mu + p.lam / 2) * (data A C).J0) - 1 by
      field_simp; ring]
  have : 2 ≤ (p.mu + p.lam * (data A C).J0 / 2) / ((p.mu + p.lam / 2) * (data A C).J0) := by
    rw [le_div_iff₀ (by positivity)]
    nlinarith
  linarith

/-- **C127** Partial: it is found if the start value, which preserves the volume, has a relative error
of at most one half, for materials that are not nearly incompressible (`λ ≤ 10⁶ μ`). -/
theorem C127_found_partial (p : Par) (hmu : 0 < p.mu) (hl : 0 ≤ p.lam) {A C : T2} (hA : Metric A)
    (hC : Metric C) (hinc : p.lam ≤ 10 ^ 6 * p.mu) (he : 2 * p.mu * |det2 C / det2 A - 1|
      ≤ det2 C / det2 A * (p.mu + p.lam / 2)) :
    ∃ x y, c33Of (sNHe p) (cNHe p) (data A C) = .ok x ∧ 0 < x ∧ 0 < y ∧
      sNHe p (cdata (data A C) y) 2 2 = 0 ∧ |x - y| ≤ 2 / 10 ^ 10 := by
  have hj : 0 < (data A C).J0 := J0_pos hA hC
  have ha : 0 < p.mu + p.lam * (data A C).J0 / 2 := by positivity
  have hb : 0 < p.mu + p.lam / 2 := by positivity
  have e3 : det2 C / det2 A = (data A C).J0 := rfl
  rw [e3] at he
  have hab := abs_le.1 (show |(data A C).J0 - 1| ≤ (data A C).J0 * (p.mu + p.lam / 2) / (2 * p.mu) by
    rw [le_div_iff₀ (by positivity)]; linarith)
  have hq : (p.mu + p.lam / 2) / (p.mu + p.lam * (data A C).J0 / 2) ≤ 10 ^ 6 := by
    rw [div_le_iff₀ ha]
    have h2 : -(2 * p.mu * ((data A C).J0 - 1)) ≤ (data A C).J0 * (p.mu + p.lam / 2) := by
      have := neg_abs_le ((data A C).J0 - 1)
      nlinarith
    have h3 : 2 * p.mu ≤ (data A C).J0 * (3 * p.mu + p.lam / 2) := by linarith
    have h4 := mul_le_mul_of_nonneg_left h3 hl
    have h5 : 6 * p.mu * (p.mu + p.lam / 2)
        ≤ (6 * p.mu + p.lam) * (p.mu + p.lam * (data A C).J0 / 2) := by linarith
    have h6 : (6 * p.mu + p.lam) * (p.mu + p.lam * (data A C).J0 / 2)
        ≤ 6 * p.mu * (10 ^ 6 * (p.mu + p.lam * (data A C).J0 / 2)) := by
      have : 6 * p.mu + p.lam ≤ 6 * p.mu * 10 ^ 6 := by linarith
      have := mul_le_mul_of_nonneg_right this ha.le
      linarith
    exact le_of_mul_le_mul_left (h5.trans h6) (by positivity)
  obtain ⟨x, h1, h2, h3⟩ := c33_converges ha hb hj.ne' (fun c hc => NHe_S p A C hc)
    (fun c hc => NHe_T p A C hc) (by
      rw [show 1 - (p.mu + p.lam * (data A C).J0 / 2) / (p.mu + p.lam / 2) * (1 / (data A C).J0)
        = p.mu * ((data A C).J0 - 1) / ((data A C).J0 * (p.mu + p.lam / 2)) by field_simp; ring,
        abs_div, abs_mul, abs_of_pos hmu, abs_of_pos (mul_pos hj hb),
        div_le_iff₀ (by positivity)]
      linarith) hq
  refine ⟨x, _, h1, h2, div_pos hb ha, ?_, by
    rw [show (2 : ℝ) / 10 ^ 10 = 2 * tol by simp only [tol]; ring]; exact h3⟩
  rw [NHe_S p A C (div_pos hb ha).ne', div_div_cancel₀ hb.ne', sub_self]

/-- Non-vacuity: a sheared state, admissible constants of all three laws, and a state with halved
area in the failing range. -/
example : Metric ![![1, 0], ![0, 1]] ∧ Metric ![![2, 1], ![1, 2]] ∧ Metric ![![1 / 4, 0], ![0, 1]] ∧
    0 < (⟨1, 1 / 4, 7⟩ : Par).mu ∧ 0 < (⟨1, 1 / 4, 7⟩ : Par).K ∧ 0 ≤ (⟨1, 1 / 4, 7⟩ : Par).lam ∧
    0 < (⟨1, 1 / 4, 7⟩ : Par).c1 ∧ 0 < (⟨1, 1 / 4, 7⟩ : Par).c2 ∧
    det2 (![![1 / 4, 0], ![0, 1]] : T2) / det2 (![![1, 0], ![0, 1]] : T2)
      * (4 * (⟨1, 1 / 4, 7⟩ : Par).mu + (⟨1, 1 / 4, 7⟩ : Par).lam) ≤ 2 * (⟨1, 1 / 4, 7⟩ : Par).mu := by
  refine ⟨⟨by simp, by simp, by simp⟩, ⟨by simp, by simp, by simp; norm_num⟩,
    ⟨by simp, by simp, by simp⟩, ?_, ?_, ?_, ?_, ?_, ?_⟩ <;>
    norm_num [Par.mu, Par.K, Par.lam, Par.c1, Par.c2, det2]

end Verif.PlaneStress
