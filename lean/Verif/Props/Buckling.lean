import Verif.Lemmas.Buckling
import Verif.Props.SectionForces

/-! # Property C135: buckling of rectangular plates -/

namespace Verif.Plate

open V3 Geometry Fields MeasureTheory Verif.Variation Verif.Balance Spec.Balloon Spec.Plate Verif.Balloon
open Verif.Integrate (Rule)
open Verif.Hyper Verif.ShellTangent

section
variable {a b lx ly : ℝ} {S : Surf → Surf → Section} {k : V3}

/-- **C135** Tangent of a stretched plate on a foundation: every Navier mode is an eigenmode of it, with the
bending stiffness, the in-plane forces and the foundation added, for every displacement field that vanishes at
the edges out of plane. -/
theorem C135_modes (h1 : 0 < lx) (h2 : 0 < ly) (hB : (S flatS (flatL lx ly)).B = fun _ _ => 0)
    (hM : (S flatS (flatL lx ly)).M = fun _ => 0) (hD : Uncoupled (S flatS (flatL lx ly)).D)
    (hN : (S flatS (flatL lx ly)).N 2 = 0) (ha : 0 < a) (hb : 0 < b) (m n : ℕ) {v : ℝ × ℝ → V3}
    (hv : Supported a b v) :
    tangentForm plate (stretched lx ly) S k (rect a b) (mode a b m n) v
      = modeStiffness (S flatS (flatL lx ly)).D ((S flatS (flatL lx ly)).N 0) ((S flatS (flatL lx ly)).N 1) k.z
          a b m n * massForm plate 1 (rect a b) (mode a b m n) v := by
  rw [tangent_left _ h1 h2 hB hM (fun _ => rfl) (fun _ => rfl), mode_mass, one_mul]
  exact parts_left hD hN k.z ha.le hb.le (sin_wave ha m) (sin_wave hb n) (contDiffOn_univ.1 hv.1.2.2) hv.2

/-- **C135** The stretched plate buckles exactly if its stiffness in some Navier mode vanishes. -/
theorem C135_buckles (h1 : 0 < lx) (h2 : 0 < ly) (hB : (S flatS (flatL lx ly)).B = fun _ _ => 0)
    (hC : (S flatS (flatL lx ly)).C = fun _ _ => 0) (hM : (S flatS (flatL lx ly)).M = fun _ => 0)
    (hD : Uncoupled (S flatS (flatL lx ly)).D) (hN : (S flatS (flatL lx ly)).N 2 = 0) (ha : 0 < a) (hb : 0 < b) :
    Buckles a b (tangentForm plate (stretched lx ly) S k (rect a b)) ↔
    ∃ m n : ℕ, 1 ≤ m ∧ 1 ≤ n ∧ modeStiffness (S flatS (flatL lx ly)).D ((S flatS (flatL lx ly)).N 0)
      ((S flatS (flatL lx ly)).N 1) k.z a b m n = 0 := by
  constructor
  · rintro ⟨u, hu, ⟨q, hq, hz⟩, h⟩
    by_contra hno
    push Not at hno
    refine hz (modes_complete ha hb (contDiffOn_univ.1 hu.1.2.2).continuous hu.2 (fun m n => ?_) q hq)
    rcases Nat.eq_zero_or_pos m with rfl | hm1
    · simp [ss]
    rcases Nat.eq_zero_or_pos n with rfl | hn1
    · simp [ss]
    have e := h _ (mode_pinned ha hb m n)
    rw [tangent_right _ h1 h2 hC hM (fun _ => rfl) (fun _ => rfl)] at e
    have := parts_right hD hN k.z ha.le hb.le (sin_wave ha m) (sin_wave hb n) (contDiffOn_univ.1 hu.1.2.2) hu.2
    exact (mul_eq_zero.1 (this.symm.trans e)).resolve_left (hno m n hm1 hn1)
  · rintro ⟨m, n, hm1, hn1, h0⟩
    refine ⟨mode a b m n, (mode_pinned ha hb m n).supported, mode_nonzero ha hb hm1 hn1, fun v hv => ?_⟩
    rw [C135_modes h1 h2 hB hM hD hN ha hb m n hv.supported, h0, zero_mul]

end

/-! ## Linear material -/

section
variable {a b lx ly E ν t : ℝ}

/-- **C135** The linear material: the plate buckles exactly at the classical loads, with the forces of the
Saint Venant–Kirchhoff law. -/
theorem C135_linear (r : Rule) (hE : 0 < E) (hn1 : -1 < ν) (hn2 : ν < 1 / 2) (h1 : 0 < lx) (h2 : 0 < ly)
    (ha : 0 < a) (hb : 0 < b) (k : V3) :
    Buckles a b (tangentForm plate (stretched lx ly) (linearSection r t E ν) k (rect a b)) ↔
    ∃ m n : ℕ, 1 ≤ m ∧ 1 ≤ n ∧
      E * t ^ 3 / (12 * (1 - ν ^ 2)) * ((m * Real.pi / a) ^ 2 + (n * Real.pi / b) ^ 2) ^ 2
      + E * t / (1 - ν ^ 2) * ((lx ^ 2 - 1) / 2 + ν * ((ly ^ 2 - 1) / 2)) * (m * Real.pi / a) ^ 2
      + E * t / (1 - ν ^ 2) * ((ly ^ 2 - 1) / 2 + ν * ((lx ^ 2 - 1) / 2)) * (n * Real.pi / b) ^ 2 + k.z = 0 := by
  obtain ⟨eB, eC, eM, eN, eD⟩ := linear_section r hE.ne' (by linarith : 1 + ν ≠ 0) (by linarith : 1 - 2 * ν ≠ 0)
    (by linarith : 1 - ν ≠ 0) t lx ly
  rw [C135_buckles h1 h2 eB eC eM (by rw [eD]; simp [Uncoupled, iso]) (by rw [eN]; simp) ha hb]
  have s : (1 - ν ^ 2) ≠ 0 := by nlinarith
  refine exists_congr fun m => exists_congr fun n => and_congr_right fun _ => and_congr_right fun _ => ?_
  rw [eD, eN]
  simp only [modeStiffness, navier, iso, mk3_zero, mk3_one, mk3_two, vec3_zero, vec3_one, vec3_two]
  rw [← sub_eq_zero, sub_zero]
  refine iff_of_eq (congrArg (· = 0) ?_)
  field_simp
  ring

/-- **C135** Equal compression in both directions: the plate of linear material buckles exactly at these
stretches, whatever Young's modulus is, and not above the one of the first mode. -/
theorem C135_linear_equal (r : Rule) (hE : 0 < E) (hn1 : -1 < ν) (hn2 : ν < 1 / 2) {lam : ℝ} (h : 0 < lam)
    (ht : 0 < t) (ha : 0 < a) (hb : 0 < b) :
    (Buckles a b (tangentForm plate (stretched lam lam) (linearSection r t E ν) 0 (rect a b)) ↔
      ∃ m n : ℕ, 1 ≤ m ∧ 1 ≤ n ∧
        1 - lam ^ 2 = t ^ 2 / (6 * (1 + ν)) * ((m * Real.pi / a) ^ 2 + (n * Real.pi / b) ^ 2)) ∧
    (1 - t ^ 2 / (6 * (1 + ν)) * ((Real.pi / a) ^ 2 + (Real.pi / b) ^ 2) < lam ^ 2 →
      ¬ Buckles a b (tangentForm plate (stretched lam lam) (linearSection r t E ν) 0 (rect a b))) := by
  have main : Buckles a b (tangentForm plate (stretched lam lam) (linearSection r t E ν) 0 (rect a b)) ↔
      ∃ m n : ℕ, 1 ≤ m ∧ 1 ≤ n ∧
        1 - lam ^ 2 = t ^ 2 / (6 * (1 + ν)) * ((m * Real.pi / a) ^ 2 + (n * Real.pi / b) ^ 2) := by
    rw [C135_linear r hE hn1 hn2 h h ha hb]
    refine exists_congr fun m => exists_congr fun n => and_congr_right fun hm => and_congr_right fun hn => ?_
    have hp := Real.pi_pos
    have hw : 0 < (m * Real.pi / a) ^ 2 + (n * Real.pi / b) ^ 2 := by positivity
    have e1 : (1 : ℝ) + ν ≠ 0 := by linarith
    have e2 : (1 : ℝ) - ν ≠ 0 := by linarith
    have s : (1 - ν ^ 2) = (1 + ν) * (1 - ν) := by ring
    rw [s]
    have z : (0 : V3).z = 0 := rfl
    rw [z]
    generalize (m * Real.pi / a) ^ 2 = A at *
    generalize (n * Real.pi / b) ^ 2 = B at *
    have : E * t ^ 3 / (12 * ((1 + ν) * (1 - ν))) * (A + B) ^ 2
        + E * t / ((1 + ν) * (1 - ν)) * ((lam ^ 2 - 1) / 2 + ν * ((lam ^ 2 - 1) / 2)) * A
        + E * t / ((1 + ν) * (1 - ν)) * ((lam ^ 2 - 1) / 2 + ν * ((lam ^ 2 - 1) / 2)) * B + 0
        = E * t / (2 * (1 - ν)) * (A + B) * (t ^ 2 / (6 * (1 + ν)) * (A + B) - (1 - lam ^ 2)) := by
      field_simp
      ring
    rw [this]
    constructor
    · intro h0
      have q : E * t / (2 * (1 - ν)) * (A + B) ≠ 0 := by positivity
      linarith [(mul_eq_zero.1 h0).resolve_left q]
    · intro h0
      rw [h0]; ring
  refine ⟨main, fun hl hbu => ?_⟩
  obtain ⟨m, n, hm, hn, e⟩ := main.1 hbu
  have hp := Real.pi_pos
  have m1 : (1 : ℝ) ≤ m := by exact_mod_cast hm
  have n1 : (1 : ℝ) ≤ n := by exact_mod_cast hn
  have i1 : (Real.pi / a) ^ 2 ≤ (m * Real.pi / a) ^ 2 := by
    gcongr
    nlinarith
  have i2 : (Real.pi / b) ^ 2 ≤ (n * Real.pi / b) ^ 2 := by
    gcongr
    nlinarith
  have c : 0 < t ^ 2 / (6 * (1 + ν)) := by
    have : 0 < 1 + ν := by linarith
    positivity
  nlinarith

end

/-! ## Hyperelastic materials -/

section
variable {a b lx ly t : ℝ}

/-- **C135** (partial: thickness rules that are not exact for squares are missing) The incompressible
Mooney–Rivlin material: exact buckling condition of the stretched plate. -/
theorem C135_MR_partial {r : Rule} (hr : r.Exact 2) (p : Par) (h1 : 0 < lx) (h2 : 0 < ly) (ha : 0 < a) (hb : 0 < b)
    (k : V3) :
    Buckles a b (tangentForm plate (stretched lx ly) (lawSection (mr p) r t) k (rect a b)) ↔
    ∃ m n : ℕ, 1 ≤ m ∧ 1 ≤ n ∧
      t ^ 3 / (3 * (lx ^ 2 * ly ^ 2)) * ((m * Real.pi / a) ^ 2 / lx ^ 2 + (n * Real.pi / b) ^ 2 / ly ^ 2)
        * ((p.c1 + p.c2 * ly ^ 2) * ((m * Real.pi / a) ^ 2 / lx ^ 2)
          + (p.c1 + p.c2 * lx ^ 2) * ((n * Real.pi / b) ^ 2 / ly ^ 2))
      + t * (p.c1 + p.c2 * ly ^ 2) * (1 - 1 / (lx ^ 4 * ly ^ 2)) * (m * Real.pi / a) ^ 2
      + t * (p.c1 + p.c2 * lx ^ 2) * (1 - 1 / (lx ^ 2 * ly ^ 4)) * (n * Real.pi / b) ^ 2 + k.z = 0 := by
  obtain ⟨eB, eC, eM, eN, eD⟩ := mr_section (lx := lx) (ly := ly) hr p t
  obtain ⟨g1, g2, g3, g4⟩ := dataL_entries h1 h2
  rw [C135_buckles h1 h2 eB eC eM (by
    rw [eD]; simp [Uncoupled, fillMatrix, cMR, g1, g3]) (by rw [eN]; simp [stressV, sMR, g1, g3]) ha hb]
  refine exists_congr fun m => exists_congr fun n => and_congr_right fun _ => and_congr_right fun _ => ?_
  rw [eD, eN]
  simp only [modeStiffness, navier, fillMatrix, stressV, cMR, sMR, traceCt, g1, g2, g3, g4, mk3_zero, mk3_one,
    mk3_two, vec3_zero, vec3_one, vec3_two]
  refine iff_of_eq (congrArg (· = 0) ?_)
  generalize m * Real.pi / a = A
  generalize n * Real.pi / b = B
  generalize p.c1 = c1
  generalize p.c2 = c2
  have e1 := h1.ne'
  have e2 := h2.ne'
  field_simp
  ring

/-- **C135** (partial: as before) The incompressible neo-Hookean material. -/
theorem C135_NH_partial {r : Rule} (hr : r.Exact 2) (p : Par) (h1 : 0 < lx) (h2 : 0 < ly) (ha : 0 < a) (hb : 0 < b)
    (k : V3) :
    Buckles a b (tangentForm plate (stretched lx ly) (lawSection (nh p) r t) k (rect a b)) ↔
    ∃ m n : ℕ, 1 ≤ m ∧ 1 ≤ n ∧
      p.mu * t ^ 3 / (3 * (lx ^ 2 * ly ^ 2))
        * ((m * Real.pi / a) ^ 2 / lx ^ 2 + (n * Real.pi / b) ^ 2 / ly ^ 2) ^ 2
      + p.mu * t * (1 - 1 / (lx ^ 4 * ly ^ 2)) * (m * Real.pi / a) ^ 2
      + p.mu * t * (1 - 1 / (lx ^ 2 * ly ^ 4)) * (n * Real.pi / b) ^ 2 + k.z = 0 := by
  obtain ⟨eB, eC, eM, eN, eD⟩ := nh_section (lx := lx) (ly := ly) hr p t
  obtain ⟨g1, g2, g3, g4⟩ := dataL_entries h1 h2
  rw [C135_buckles h1 h2 eB eC eM (by
    rw [eD]; simp [Uncoupled, fillMatrix, cNH, g3]) (by rw [eN]; simp [stressV, sNH, g1, g3]) ha hb]
  refine exists_congr fun m => exists_congr fun n => and_congr_right fun _ => and_congr_right fun _ => ?_
  rw [eD, eN]
  simp only [modeStiffness, navier, fillMatrix, stressV, cNH, sNH, g1, g3, g4, mk3_zero, mk3_one,
    mk3_two, vec3_zero, vec3_one, vec3_two]
  refine iff_of_eq (congrArg (· = 0) ?_)
  generalize m * Real.pi / a = A
  generalize n * Real.pi / b = B
  generalize p.mu = c1
  have e1 := h1.ne'
  have e2 := h2.ne'
  field_simp
  ring

/-- **C135** (partial: as before) Equal stretch in both directions: all incompressible Mooney–Rivlin
materials buckle at the same stretches. -/
theorem C135_equal_partial {r : Rule} (hr : r.Exact 2) (p : Par) {lam : ℝ} (h : 0 < lam) (hc1 : 0 < p.c1)
    (hc2 : 0 < p.c2) (ht : 0 < t) (ha : 0 < a) (hb : 0 < b) :
    Buckles a b (tangentForm plate (stretched lam lam) (lawSection (mr p) r t) 0 (rect a b)) ↔
    ∃ m n : ℕ, 1 ≤ m ∧ 1 ≤ n ∧
      t ^ 2 * ((m * Real.pi / a) ^ 2 + (n * Real.pi / b) ^ 2) = 3 * (lam ^ 2 - lam ^ 8) := by
  rw [C135_MR_partial hr p h h ha hb]
  refine exists_congr fun m => exists_congr fun n => and_congr_right fun hm => and_congr_right fun hn => ?_
  have hp := Real.pi_pos
  have hw : 0 < (m * Real.pi / a) ^ 2 + (n * Real.pi / b) ^ 2 := by positivity
  have z : (0 : V3).z = 0 := rfl
  rw [z]
  generalize (m * Real.pi / a) ^ 2 = A at *
  generalize (n * Real.pi / b) ^ 2 = B at *
  have e := h.ne'
  have : t ^ 3 / (3 * (lam ^ 2 * lam ^ 2)) * (A / lam ^ 2 + B / lam ^ 2)
        * ((p.c1 + p.c2 * lam ^ 2) * (A / lam ^ 2) + (p.c1 + p.c2 * lam ^ 2) * (B / lam ^ 2))
      + t * (p.c1 + p.c2 * lam ^ 2) * (1 - 1 / (lam ^ 4 * lam ^ 2)) * A
      + t * (p.c1 + p.c2 * lam ^ 2) * (1 - 1 / (lam ^ 2 * lam ^ 4)) * B + 0
      = t * (p.c1 + p.c2 * lam ^ 2) * (A + B) / (3 * lam ^ 8) * (t ^ 2 * (A + B) - 3 * (lam ^ 2 - lam ^ 8)) := by
    field_simp
    ring
  rw [this]
  have q : t * (p.c1 + p.c2 * lam ^ 2) * (A + B) / (3 * lam ^ 8) ≠ 0 := by positivity
  constructor
  · intro h0
    linarith [(mul_eq_zero.1 h0).resolve_left q]
  · intro h0
    rw [h0]; ring

end

/-- A square steel plate buckles at a stretch a little below 1, and not undeformed. -/
example (r : Rule) :
    Buckles 1 1 (tangentForm plate (stretched √(1 - (1 / 100) ^ 2 / (6 * (1 + 3 / 10)) * (2 * Real.pi ^ 2))
      √(1 - (1 / 100) ^ 2 / (6 * (1 + 3 / 10)) * (2 * Real.pi ^ 2)))
      (linearSection r (1 / 100) 210000 (3 / 10)) 0 (rect 1 1)) ∧
    ¬ Buckles 1 1 (tangentForm plate (stretched 1 1) (linearSection r (1 / 100) 210000 (3 / 10)) 0 (rect 1 1)) := by
  have hp := Real.pi_pos
  have h4 := Real.pi_le_four
  have pos : 0 < 1 - (1 / 100) ^ 2 / (6 * (1 + 3 / 10)) * (2 * Real.pi ^ 2) := by nlinarith
  constructor
  · refine (C135_linear_equal r (by norm_num) (by norm_num) (by norm_num) (Real.sqrt_pos.2 pos) (by norm_num)
      one_pos one_pos).1.2 ⟨1, 1, le_rfl, le_rfl, ?_⟩
    rw [Real.sq_sqrt pos.le]
    push_cast
    ring
  · refine (C135_linear_equal r (by norm_num) (by norm_num) (by norm_num) one_pos (by norm_num)
      one_pos one_pos).2 ?_
    have : 0 < Real.pi ^ 2 := by positivity
    norm_num
    exact this

/-- A rubber plate compressed to `√(1/2)` buckles with two thickness points if it is as thick as this. -/
example : Buckles 1 1 (tangentForm plate (stretched √(1 / 2) √(1 / 2))
    (lawSection (mr ⟨3, 1 / 2, 7⟩) SectionForces.twoPoint (√(21 / 32) / Real.pi)) 0 (rect 1 1)) := by
  have hp := Real.pi_pos
  refine (C135_equal_partial SectionForces.twoPoint_exact _ (Real.sqrt_pos.2 (by norm_num))
    (by norm_num [Par.c1, Par.c2, Par.mu]) (by norm_num [Par.c2, Par.mu]) (by positivity) one_pos one_pos).2
    ⟨1, 1, le_rfl, le_rfl, ?_⟩
  have e : √(1 / 2 : ℝ) ^ 2 = 1 / 2 := Real.sq_sqrt (by norm_num)
  rw [div_pow, Real.sq_sqrt (by norm_num), show √(1 / 2 : ℝ) ^ 8 = (√(1 / 2) ^ 2) ^ 4 by ring, e]
  field_simp
  norm_num

/-- **C135** With one point through the thickness the tangent of a hyperelastic plate has no bending
stiffness: already the undeformed plate buckles, though its exact condition is met by no mode. -/
theorem C135_onePoint_violated (p : Par) (t : ℝ) :
    Buckles 1 1 (tangentForm plate (stretched 1 1) (lawSection (nh p) ⟨1, ![0], ![1]⟩ t) 0 (rect 1 1)) ∧
    (0 < p.mu → 0 < t → ∀ m n : ℕ, 1 ≤ m → 1 ≤ n →
      p.mu * t ^ 3 / (3 * (1 ^ 2 * 1 ^ 2)) * ((m * Real.pi / 1) ^ 2 / 1 ^ 2 + (n * Real.pi / 1) ^ 2 / 1 ^ 2) ^ 2
      + p.mu * t * (1 - 1 / (1 ^ 4 * 1 ^ 2)) * (m * Real.pi / 1) ^ 2
      + p.mu * t * (1 - 1 / (1 ^ 2 * 1 ^ 4)) * (n * Real.pi / 1) ^ 2 + (0 : V3).z ≠ 0) := by
  constructor
  · have s : ∀ (m : ℕ) (f : ℝ → ℝ), Integrate.integrateZ ⟨1, ![0], ![1]⟩ t (m + 1) f = 0 := by
      intro m f
      have q : ∀ g : Fin 1 → ℝ, ∑ j, g j = g 0 := Fin.sum_univ_one
      have := q fun j => (![1] : Fin 1 → ℝ) j * ((![0] : Fin 1 → ℝ) j * t) ^ (m + 1) * f ((![0] : Fin 1 → ℝ) j) * t
      refine this.trans ?_
      simp
    have z : (lawSection (nh p) ⟨1, ![0], ![1]⟩ t flatS (flatL 1 1)).N = fun _ => 0 := by
      funext i
      simp only [lawSection, resultant, nh, flatS_Gblock, flatL_Gblock]
      have : sNH p (data ![![1, 0], ![0, 1]] ![![1 ^ 2, 0], ![0, 1 ^ 2]]) = fun i j => 0 := by
        have g := dataL_entries one_pos one_pos
        obtain ⟨g1, -, g3, g4⟩ := g
        unfold dataL at g1 g3 g4
        funext i j
        rw [sNH, g1, g3, g4]
        norm_num
      rw [this]
      rcases fin3_cases i with rfl | rfl | rfl <;> simp [Integrate.integrateZ, stressV]
    have d : (lawSection (nh p) ⟨1, ![0], ![1]⟩ t flatS (flatL 1 1)).D = fun _ _ => 0 := by
      funext i j; simp only [lawSection, modulus]; exact s 1 _
    rw [C135_buckles one_pos one_pos (by funext i j; simp only [lawSection, modulus]; exact s 0 _)
      (by funext i j; simp only [lawSection, modulus]; exact s 0 _) (by funext i; simp only [lawSection, resultant]; exact s 0 _)
      (by rw [d]; simp [Uncoupled]) (by rw [z]) one_pos one_pos]
    refine ⟨1, 1, le_rfl, le_rfl, ?_⟩
    rw [z, d]
    simp [modeStiffness, navier]
  · intro hm ht m n hm1 hn1
    have hp := Real.pi_pos
    have k : (0 : V3).z = 0 := rfl
    rw [k]
    norm_num
    refine ⟨⟨hm.ne', ht.ne'⟩, ?_⟩
    positivity

end Verif.Plate
