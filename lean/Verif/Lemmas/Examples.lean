import Verif.Model.Examples
import Verif.Spec.Examples
import Verif.Lemmas.Buckling
import Verif.Props.Buckling
import Verif.Props.Rayleigh
import Mathlib.Analysis.Real.Pi.Bounds

/-! # Lemmas on the references of the example programs -/

namespace Verif.Examples

open V3 Geometry Fields MeasureTheory Verif.Variation Verif.Balance Verif.Balloon Spec.Balloon Spec.Examples Verif.Plate
open Spec.Plate (rect Supported Pinned Edge mode flexural freq2 stretched Buckles lap)
open Verif.Integrate (Rule)

theorem plate_eq : plate = Spec.Plate.plate := rfl
theorem square_eq : square = rect 1 1 := rfl

/-! ## Order of the modes -/

theorem mem_waves (p : ℕ × ℕ) : p ∈ waves ↔ (1 ≤ p.1 ∧ p.1 ≤ 9) ∧ (1 ≤ p.2 ∧ p.2 ≤ 9) := by
  obtain ⟨m, n⟩ := p
  simp only [waves, List.mem_flatMap, List.mem_map, List.mem_range'_1, Prod.mk.injEq]
  constructor
  · rintro ⟨a, ha, b, hb, rfl, rfl⟩; omega
  · rintro ⟨h1, h2⟩; exact ⟨m, by omega, n, by omega, rfl, rfl⟩

/-- Squares, sorted. -/
def sq : List ℕ := (waves.map fun p => p.1 ^ 2 + p.2 ^ 2).insertionSort (· ≤ ·)

theorem sq_length : sq.length = 81 := by
  rw [sq, List.length_insertionSort, List.length_map]; rfl

theorem table_sq {f : ℕ → ℕ → ℝ} {c : ℝ} (hc : 0 < c) (hf : ∀ m n, f m n = c * ((m ^ 2 + n ^ 2 : ℕ) : ℝ)) :
    table f = sq.map fun s : ℕ => c * s := by
  rw [sq, List.map_insertionSort (r := (· ≤ ·)) (s := (· ≤ ·)) (fun s : ℕ => c * (s : ℝ))]
  · rw [table, List.map_map]
    congr 1
    refine List.map_congr_left fun p _ => ?_
    rw [hf]; rfl
  · intro a _ b _
    rw [mul_le_mul_iff_right₀ hc, Nat.cast_le]

theorem entry_ub {l : List ℝ} {i : ℤ} (h : i < 0 ∨ (l.length : ℤ) ≤ i) : entry l i = .ub := by
  unfold entry
  split_ifs with hi
  · rfl
  · have : l.length ≤ i.toNat := by omega
    rw [List.getElem?_eq_none this]

theorem entry_ok {l : List ℝ} {i : ℕ} {x : ℝ} (h : l[i]? = some x) : entry l i = .ok x := by
  unfold entry
  rw [if_neg (by omega), Int.toNat_natCast, h]

/-- All pairs up to `N`. -/
def boxN (N : ℕ) : Finset (ℕ × ℕ) := Finset.Icc 1 N ×ˢ Finset.Icc 1 N

theorem below_box {s N : ℕ} (h : s ≤ (N + 1) ^ 2 + 1) :
    (below s).ncard = ((boxN N).filter fun p => p.1 ^ 2 + p.2 ^ 2 < s).card := by
  rw [← Set.ncard_coe_finset]
  congr 1
  ext ⟨m, n⟩
  simp only [below, boxN, Set.mem_ofPred_eq, Finset.coe_filter, Finset.mem_product, Finset.mem_Icc]
  constructor
  · rintro ⟨h1, h2, h3⟩
    refine ⟨⟨⟨h1, ?_⟩, ⟨h2, ?_⟩⟩, h3⟩
    · by_contra hm
      have : (N + 1) ^ 2 ≤ m ^ 2 := Nat.pow_le_pow_left (by omega) 2
      have : 1 ≤ n ^ 2 := Nat.one_le_pow _ _ h2
      omega
    · by_contra hm
      have : (N + 1) ^ 2 ≤ n ^ 2 := Nat.pow_le_pow_left (by omega) 2
      have : 1 ≤ m ^ 2 := Nat.one_le_pow _ _ h1
      omega
  · rintro ⟨⟨⟨h1, -⟩, h2, -⟩, h3⟩; exact ⟨h1, h2, h3⟩

theorem sq_low : ∀ i : Fin 69, sq.getD i 0 ≤ 100
    ∧ ((boxN 9).filter fun p => p.1 ^ 2 + p.2 ^ 2 < sq.getD i 0).card ≤ i
    ∧ i < ((boxN 9).filter fun p => p.1 ^ 2 + p.2 ^ 2 < sq.getD i 0 + 1).card := by
  decide +kernel

theorem sq_high : ∀ i : Fin 12, ∃ s : Fin 150, s < sq.getD (69 + i) 0
    ∧ ((boxN 12).filter fun p => p.1 ^ 2 + p.2 ^ 2 < s.val).card ≤ 69 + i
    ∧ 69 + i < ((boxN 12).filter fun p => p.1 ^ 2 + p.2 ^ 2 < s.val + 1).card := by
  decide +kernel

theorem sq_get {i : ℕ} (hi : i < 81) : sq[i]? = some (sq.getD i 0) := by
  have : i < sq.length := by rw [sq_length]; exact hi
  rw [List.getElem?_eq_getElem this, List.getD_eq_getElem?_getD, List.getElem?_eq_getElem this]; rfl

theorem sq_pair {i : ℕ} (hi : i < 81) : ∃ m n : ℕ, 1 ≤ m ∧ 1 ≤ n ∧ m ≤ 9 ∧ n ≤ 9 ∧ sq.getD i 0 = m ^ 2 + n ^ 2 := by
  have h := List.mem_of_getElem? (sq_get hi)
  rw [sq, List.mem_insertionSort, List.mem_map] at h
  obtain ⟨⟨m, n⟩, hp, he⟩ := h
  have := (mem_waves _).1 hp
  exact ⟨m, n, this.1.1, this.2.1, this.1.2, this.2.2, he.symm⟩

theorem sq_kth {i : ℕ} (hi : i < 69) : Kth i (sq.getD i 0) := by
  obtain ⟨h1, h2, h3⟩ := sq_low ⟨i, hi⟩
  exact ⟨by rw [below_box (N := 9) (by simp only at h1; omega)]; exact h2,
    by rw [below_box (N := 9) (by simp only at h1; omega)]; exact h3⟩

theorem sq_not_kth {i : ℕ} (h1 : 69 ≤ i) (h2 : i < 81) : ∃ s, Kth i s ∧ s < sq.getD i 0 := by
  obtain ⟨j, rfl⟩ := Nat.exists_eq_add_of_le h1
  obtain ⟨s, hs, h3, h4⟩ := sq_high ⟨j, by omega⟩
  have := s.2
  exact ⟨s, ⟨by rw [below_box (N := 12) (by omega)]; exact h3, by rw [below_box (N := 12) (by omega)]; exact h4⟩, hs⟩

/-! ## Static problem -/

section
variable {f : ℝ × ℝ → ℝ} {g g' g'' h h' h'' : ℝ → ℝ}

theorem clamp_x (hf : ContDiff ℝ 2 f) (f0 : ∀ q, Edge 1 1 q → f q = 0 ∧ pd 0 f q = 0)
    (hg : ∀ x, HasDerivAt g (g' x) x) (hg' : ∀ x, HasDerivAt g' (g'' x) x) (cg : Continuous g'')
    (ch : Continuous h) :
    ∫ q in rect 1 1, g q.1 * h q.2 * pd 0 (pd 0 f) q = ∫ q in rect 1 1, g'' q.1 * h q.2 * f q := by
  have c' : Continuous g' := continuous_iff_continuousAt.2 fun x => (hg' x).continuousAt
  rw [parts_x zero_le_one zero_le_one (pd_cont (n := 1) hf 0) hg c' ch
      (fun y => by rw [(f0 _ (Or.inl rfl)).2, mul_zero]) (fun y => by rw [(f0 _ (Or.inr (Or.inl rfl))).2, mul_zero]),
    parts_x zero_le_one zero_le_one (hf.of_le (by norm_num)) hg' cg ch
      (fun y => by rw [(f0 _ (Or.inl rfl)).1, mul_zero]) (fun y => by rw [(f0 _ (Or.inr (Or.inl rfl))).1, mul_zero]),
    neg_neg]

theorem clamp_y (hf : ContDiff ℝ 2 f) (f0 : ∀ q, Edge 1 1 q → f q = 0 ∧ pd 1 f q = 0)
    (hh : ∀ x, HasDerivAt h (h' x) x) (hh' : ∀ x, HasDerivAt h' (h'' x) x) (ch : Continuous h'')
    (cg : Continuous g) :
    ∫ q in rect 1 1, g q.1 * h q.2 * pd 1 (pd 1 f) q = ∫ q in rect 1 1, g q.1 * h'' q.2 * f q := by
  have c' : Continuous h' := continuous_iff_continuousAt.2 fun x => (hh' x).continuousAt
  rw [parts_y zero_le_one zero_le_one (pd_cont (n := 1) hf 1) hh c' cg
      (fun y => by rw [(f0 _ (Or.inr (Or.inr (Or.inl rfl)))).2, mul_zero])
      (fun y => by rw [(f0 _ (Or.inr (Or.inr (Or.inr rfl)))).2, mul_zero]),
    parts_y zero_le_one zero_le_one (hf.of_le (by norm_num)) hh' ch cg
      (fun y => by rw [(f0 _ (Or.inr (Or.inr (Or.inl rfl)))).1, mul_zero])
      (fun y => by rw [(f0 _ (Or.inr (Or.inr (Or.inr rfl)))).1, mul_zero]),
    neg_neg]

end

theorem lap_pd {f : ℝ × ℝ → ℝ} (hf : ContDiff ℝ 2 f) (q : ℝ × ℝ) :
    lap f q = pd 0 (pd 0 f) q + pd 1 (pd 1 f) q := by
  have d := hf.differentiable (by norm_num)
  have d0 := (pd_cont (n := 1) hf 0).differentiable (by norm_num)
  have d1 := (pd_cont (n := 1) hf 1).differentiable (by norm_num)
  have e0 : (deriv fun x => f (x, q.2)) = fun x => pd 0 f (x, q.2) := funext fun x => (line_x d x q.2).deriv
  have e1 : (deriv fun y => f (q.1, y)) = fun y => pd 1 f (q.1, y) := funext fun y => (line_y d q.1 y).deriv
  rw [lap, e0, e1, (line_x d0 q.1 q.2).deriv, (line_y d1 q.1 q.2).deriv]

/-- `x² (x - 1)²` and its derivatives. -/
def hump (x : ℝ) : ℝ := x ^ 4 - 2 * x ^ 3 + x ^ 2
def hump1 (x : ℝ) : ℝ := 4 * x ^ 3 - 6 * x ^ 2 + 2 * x
def hump2 (x : ℝ) : ℝ := 12 * x ^ 2 - 12 * x + 2
def hump3 (x : ℝ) : ℝ := 24 * x - 12

theorem hump_d (x : ℝ) : HasDerivAt hump (hump1 x) x := by
  have := ((hasDerivAt_pow 4 x).fun_sub ((hasDerivAt_pow 3 x).const_mul 2)).fun_add (hasDerivAt_pow 2 x)
  exact this.congr_deriv (by unfold hump1; norm_num; ring)

theorem hump1_d (x : ℝ) : HasDerivAt hump1 (hump2 x) x := by
  have := (((hasDerivAt_pow 3 x).const_mul 4).fun_sub ((hasDerivAt_pow 2 x).const_mul 6)).fun_add
    ((hasDerivAt_id' x).const_mul 2)
  exact this.congr_deriv (by unfold hump2; norm_num; ring)

theorem hump2_d (x : ℝ) : HasDerivAt hump2 (hump3 x) x := by
  have := (((hasDerivAt_pow 2 x).const_mul 12).fun_sub ((hasDerivAt_id' x).const_mul 12)).add_const 2
  exact this.congr_deriv (by unfold hump3; norm_num; ring)

theorem hump3_d (x : ℝ) : HasDerivAt hump3 24 x := by
  have := ((hasDerivAt_id' x).const_mul 24).sub_const 12
  exact this.congr_deriv (by norm_num)

theorem exact_z (ampl : ℝ) (q : ℝ × ℝ) : (staticExact ampl q).z = ampl * (hump q.1 * hump q.2) := by
  simp only [staticExact, hump]; ring

theorem exact_line_x (ampl : ℝ) (x y : ℝ) :
    HasDerivAt (fun x => (staticExact ampl (x, y)).z) (ampl * (hump1 x * hump y)) x := by
  simp only [exact_z]
  exact ((hump_d x).mul_const (hump y)).const_mul ampl

theorem exact_line_y (ampl : ℝ) (x y : ℝ) :
    HasDerivAt (fun y => (staticExact ampl (x, y)).z) (ampl * (hump x * hump1 y)) y := by
  simp only [exact_z]
  exact ((hump_d y).const_mul (hump x)).const_mul ampl

theorem exact_clamped (ampl : ℝ) : Clamped (staticExact ampl) := by
  refine ⟨⟨contDiffOn_const, contDiffOn_const, ?_⟩, fun q hq => ⟨?_, ?_, ?_⟩⟩
  · refine ContDiff.contDiffOn ?_
    show ContDiff ℝ (2 : ℕ) fun q : ℝ × ℝ => ampl * q.1 ^ 2 * (q.1 - 1) ^ 2 * q.2 ^ 2 * (q.2 - 1) ^ 2
    fun_prop
  · have : (staticExact ampl q).z = 0 := by
      rw [exact_z]; unfold hump
      rcases hq with h | h | h | h <;> rw [h] <;> ring
    ext
    · rfl
    · rfl
    · exact this
  · rw [(exact_line_x ampl q.1 q.2).deriv]
    unfold hump hump1
    rcases hq with h | h | h | h <;> rw [h] <;> ring
  · rw [(exact_line_y ampl q.1 q.2).deriv]
    unfold hump hump1
    rcases hq with h | h | h | h <;> rw [h] <;> ring

theorem exact_lap (ampl : ℝ) (q : ℝ × ℝ) :
    lap (fun q => (staticExact ampl q).z) q = ampl * (hump2 q.1 * hump q.2 + hump q.1 * hump2 q.2) := by
  have e0 : (deriv fun x => (staticExact ampl (x, q.2)).z) = fun x => ampl * (hump1 x * hump q.2) :=
    funext fun x => (exact_line_x ampl x q.2).deriv
  have e1 : (deriv fun y => (staticExact ampl (q.1, y)).z) = fun y => ampl * (hump q.1 * hump1 y) :=
    funext fun y => (exact_line_y ampl q.1 y).deriv
  have d0 := (((hump1_d q.1).mul_const (hump q.2)).const_mul ampl).deriv
  have d1 := (((hump1_d q.2).const_mul (hump q.1)).const_mul ampl).deriv
  rw [lap, e0, e1, d0, d1]; ring

theorem _root_.Verif.Spec.Examples.Clamped.pinned {v : ℝ × ℝ → V3} (h : Clamped v) : Pinned 1 1 v :=
  ⟨h.1, fun q hq => (h.2 q hq).1⟩

theorem _root_.Verif.Spec.Examples.Clamped.slope {v : ℝ × ℝ → V3} (h : Clamped v) (q : ℝ × ℝ) (hq : Edge 1 1 q) :
    (v q).z = 0 ∧ pd 0 (fun q => (v q).z) q = 0 ∧ pd 1 (fun q => (v q).z) q = 0 := by
  obtain ⟨h0, h1, h2⟩ := h.2 q hq
  have d : Differentiable ℝ fun q => (v q).z := (contDiffOn_univ.1 h.1.2.2).differentiable (by norm_num)
  refine ⟨by rw [h0]; rfl, ?_, ?_⟩
  · rw [← (line_x d q.1 q.2).deriv, h1]
  · rw [← (line_y d q.1 q.2).deriv, h2]

theorem static_weak (r : Rule) {E ν t : ℝ} (hE : 0 < E) (h1 : -1 < ν) (h2 : ν < 1 / 2) (ampl : ℝ)
    {v : ℝ × ℝ → V3} (hv : Clamped v) :
    stiffForm plate (System.linearModuli r t E ν) square (staticExact ampl) v
      = loadForm plate (staticLoad ampl t E ν) square v := by
  rw [plate_eq, square_eq, C136_laplace r hE h1 h2 zero_le_one zero_le_one (exact_clamped ampl).pinned.supported
    hv.pinned.supported (fun _ => rfl) (fun _ => rfl), load_eq]
  have fv : ContDiff ℝ 2 fun q => (v q).z := contDiffOn_univ.1 hv.1.2.2
  have sl := hv.slope
  have hd : ∀ q, dot (v q) (staticLoad ampl t E ν q) = (v q).z * (staticLoad ampl t E ν q).z := by
    intro q; simp [dot, staticLoad]
  simp only [exact_lap, lap_pd fv, hd]
  have z : ∀ q, Edge 1 1 q → (fun q => (v q).z) q = 0 := fun q hq => (sl q hq).1
  generalize hf : (fun q => (v q).z) = f at *
  have zl : ∀ q, (v q).z = f q := fun q => by rw [← hf]
  simp only [zl]
  have c0 : Continuous hump := continuous_iff_continuousAt.2 fun x => (hump_d x).continuousAt
  have c2 : Continuous hump2 := continuous_iff_continuousAt.2 fun x => (hump2_d x).continuousAt
  have cf := fv.continuous
  have f00 : Continuous (pd 0 (pd 0 f)) := (pd_cont (n := 0) (pd_cont (n := 1) fv 0) 0).continuous
  have f11 : Continuous (pd 1 (pd 1 f)) := (pd_cont (n := 0) (pd_cont (n := 1) fv 1) 1).continuous
  have z0 : ∀ q, Edge 1 1 q → f q = 0 ∧ pd 0 f q = 0 := fun q hq => ⟨z q hq, (sl q hq).2.1⟩
  have z1 : ∀ q, Edge 1 1 q → f q = 0 ∧ pd 1 f q = 0 := fun q hq => ⟨z q hq, (sl q hq).2.2⟩
  have i1 : IntegrableOn (fun q => hump2 q.1 * hump q.2 * pd 0 (pd 0 f) q) (rect 1 1) := rect_integrable (by fun_prop) 1 1
  have i2 : IntegrableOn (fun q => hump2 q.1 * hump q.2 * pd 1 (pd 1 f) q) (rect 1 1) := rect_integrable (by fun_prop) 1 1
  have i3 : IntegrableOn (fun q => hump q.1 * hump2 q.2 * pd 0 (pd 0 f) q) (rect 1 1) := rect_integrable (by fun_prop) 1 1
  have i4 : IntegrableOn (fun q => hump q.1 * hump2 q.2 * pd 1 (pd 1 f) q) (rect 1 1) := rect_integrable (by fun_prop) 1 1
  have j1 : IntegrableOn (fun q => (24 : ℝ) * hump q.2 * f q) (rect 1 1) := rect_integrable (by fun_prop) 1 1
  have j2 : IntegrableOn (fun q => hump2 q.1 * hump2 q.2 * f q) (rect 1 1) := rect_integrable (by fun_prop) 1 1
  have j4 : IntegrableOn (fun q => hump q.1 * (24 : ℝ) * f q) (rect 1 1) := rect_integrable (by fun_prop) 1 1
  have e1 := clamp_x fv z0 hump2_d hump3_d continuous_const c0
  have e2 := clamp_y fv z1 hump_d hump1_d c2 c2
  have e3 := clamp_x fv z0 hump_d hump1_d c2 c2
  have e4 := clamp_y fv z1 hump2_d hump3_d continuous_const c0
  have lhs : ∀ q, ampl * (hump2 q.1 * hump q.2 + hump q.1 * hump2 q.2) * (pd 0 (pd 0 f) q + pd 1 (pd 1 f) q)
      = ampl * ((hump2 q.1 * hump q.2 * pd 0 (pd 0 f) q + hump2 q.1 * hump q.2 * pd 1 (pd 1 f) q)
        + (hump q.1 * hump2 q.2 * pd 0 (pd 0 f) q + hump q.1 * hump2 q.2 * pd 1 (pd 1 f) q)) := fun q => by ring
  have s1 : ∫ q in rect 1 1, (hump2 q.1 * hump q.2 * pd 0 (pd 0 f) q + hump2 q.1 * hump q.2 * pd 1 (pd 1 f) q)
        + (hump q.1 * hump2 q.2 * pd 0 (pd 0 f) q + hump q.1 * hump2 q.2 * pd 1 (pd 1 f) q)
      = ∫ q in rect 1 1, ((24 : ℝ) * hump q.2 * f q + hump2 q.1 * hump2 q.2 * f q)
        + (hump2 q.1 * hump2 q.2 * f q + hump q.1 * (24 : ℝ) * f q) := by
    have t1 := integral_add (i1.add i2) (i3.add i4)
    have t2 := integral_add (j1.add j2) (j2.add j4)
    simp only [Pi.add_apply] at t1 t2
    rw [t1, integral_add i1 i2, integral_add i3 i4, e1, e2, e3, e4, t2, integral_add j1 j2, integral_add j2 j4]
  simp only [lhs]
  rw [integral_const_mul, s1, ← integral_const_mul, ← integral_const_mul]
  congr 1
  funext q
  have n1 : 1 - ν ^ 2 ≠ 0 := by nlinarith
  have n2 : 3 * ν ^ 2 - 3 ≠ 0 := by nlinarith
  simp only [staticLoad, flexural, hump, hump2]
  rw [show 3 * ν ^ 2 - 3 = -3 * (1 - ν ^ 2) by ring]
  generalize 1 - ν ^ 2 = k at *
  field_simp
  ring

theorem _root_.Verif.Spec.Plate.Pinned.sub {u w : ℝ × ℝ → V3} {a b : ℝ} (hu : Pinned a b u) (hw : Pinned a b w) :
    Pinned a b fun q => u q - w q := by
  rw [sub_comb]
  refine comb_pinned (fun i => ?_) _
  rcases fin2_cases i with rfl | rfl
  · exact hu
  · exact hw

theorem static_unique (r : Rule) {E ν t : ℝ} (hE : 0 < E) (h1 : -1 < ν) (h2 : ν < 1 / 2) (ht : 0 < t) (ampl : ℝ)
    {u : ℝ × ℝ → V3} (hu : Clamped u)
    (h : ∀ v, Clamped v → stiffForm plate (System.linearModuli r t E ν) square u v
      = loadForm plate (staticLoad ampl t E ν) square v) : ∀ q ∈ square, u q = staticExact ampl q := by
  obtain ⟨hB, hC, -, -⟩ := linear_flat (t := t) r hE h1 h2
  set w := staticExact ampl with hw
  have cw : Clamped w := exact_clamped ampl
  set d : ℝ × ℝ → V3 := fun q => u q - w q with hd
  have pd' : Pinned 1 1 d := hu.pinned.sub cw.pinned
  have cd : Clamped d := by
    refine ⟨pd'.1, fun q hq => ⟨pd'.2 q hq, ?_, ?_⟩⟩
    · have a1 := line_x ((contDiffOn_univ.1 hu.1.2.2).differentiable (by norm_num)) q.1 q.2
      have a2 := line_x ((contDiffOn_univ.1 cw.1.2.2).differentiable (by norm_num)) q.1 q.2
      have := (a1.fun_sub a2).deriv
      rw [← a1.deriv, ← a2.deriv, (hu.2 q hq).2.1, (cw.2 q hq).2.1, sub_zero] at this
      exact this
    · have a1 := line_y ((contDiffOn_univ.1 hu.1.2.2).differentiable (by norm_num)) q.1 q.2
      have a2 := line_y ((contDiffOn_univ.1 cw.1.2.2).differentiable (by norm_num)) q.1 q.2
      have := (a1.fun_sub a2).deriv
      rw [← a1.deriv, ← a2.deriv, (hu.2 q hq).2.2, (cw.2 q hq).2.2, sub_zero] at this
      exact this
  have k : stiffForm Spec.Plate.plate (System.linearModuli r t E ν) (rect 1 1) d d = 0 := by
    have p : ∀ i : Fin 2, SmoothOn 2 ((![u, w] : Fin 2 → ℝ × ℝ → V3) i) Set.univ := by
      intro i; rcases fin2_cases i with rfl | rfl
      · exact hu.1
      · exact cw.1
    have e := form_comb (a := 1) (b := 1) hB hC p ![1, -1] pd'.1
    rw [← sub_comb] at e
    rw [e, Fin.sum_univ_two]
    have a1 := h d cd
    have a2 := static_weak r (t := t) hE h1 h2 ampl cd
    rw [plate_eq, square_eq] at a1 a2
    simp only [Matrix.cons_val_zero, Matrix.cons_val_one]
    rw [a1, a2]; ring
  intro q hq
  have := energy_zero r hE h1 h2 ht one_pos one_pos pd' k.le q hq
  have e : u q - w q = 0 := this
  ext
  · have := congrArg V3.x e; simp at this; linarith
  · have := congrArg V3.y e; simp at this; linarith
  · have := congrArg V3.z e; simp at this; linarith

/-! ## Linear solution of the buckling problem -/

theorem int_pd0 {f : ℝ × ℝ → ℝ} (hf : ContDiff ℝ 2 f) :
    ∫ q in rect 1 1, pd 0 f q = (∫ y in (0 : ℝ)..1, f (1, y)) - ∫ y in (0 : ℝ)..1, f (0, y) := by
  have c : Continuous (pd 0 f) := (pd_cont (n := 1) hf 0).continuous
  have cf := hf.continuous
  have d := hf.differentiable (by norm_num)
  rw [rect_yx c zero_le_one zero_le_one, ← intervalIntegral.integral_sub
    (Continuous.intervalIntegrable (by fun_prop) _ _) (Continuous.intervalIntegrable (by fun_prop) _ _)]
  congr 1
  funext y
  exact intervalIntegral.integral_eq_sub_of_hasDerivAt (f := fun x => f (x, y)) (fun x _ => line_x d x y)
    (Continuous.intervalIntegrable (by fun_prop) _ _)

theorem int_pd1 {f : ℝ × ℝ → ℝ} (hf : ContDiff ℝ 2 f) :
    ∫ q in rect 1 1, pd 1 f q = (∫ x in (0 : ℝ)..1, f (x, 1)) - ∫ x in (0 : ℝ)..1, f (x, 0) := by
  have c : Continuous (pd 1 f) := (pd_cont (n := 1) hf 1).continuous
  have cf := hf.continuous
  have d := hf.differentiable (by norm_num)
  rw [rect_xy c zero_le_one zero_le_one, ← intervalIntegral.integral_sub
    (Continuous.intervalIntegrable (by fun_prop) _ _) (Continuous.intervalIntegrable (by fun_prop) _ _)]
  congr 1
  funext x
  exact intervalIntegral.integral_eq_sub_of_hasDerivAt (f := fun y => f (x, y)) (fun y _ => line_y d x y)
    (Continuous.intervalIntegrable (by fun_prop) _ _)

theorem uniform_eps (α β : ℝ) (q : ℝ × ℝ) : eps (uniform α β) q = vec3 α β 0 := by
  have dx : Differentiable ℝ fun q : ℝ × ℝ => α * q.1 := by fun_prop
  have dy : Differentiable ℝ fun q : ℝ × ℝ => β * q.2 := by fun_prop
  have a0 : pd 0 (fun q : ℝ × ℝ => α * q.1) q = α := by
    rw [← (line_x dx q.1 q.2).deriv]; simp
  have a1 : pd 1 (fun q : ℝ × ℝ => α * q.1) q = 0 := by
    rw [← (line_y dx q.1 q.2).deriv]; simp
  have b0 : pd 0 (fun q : ℝ × ℝ => β * q.2) q = 0 := by
    rw [← (line_x dy q.1 q.2).deriv]; simp
  have b1 : pd 1 (fun q : ℝ × ℝ => β * q.2) q = β := by
    rw [← (line_y dy q.1 q.2).deriv]; simp
  simp only [eps, uniform, a0, a1, b0, b1, add_zero]

theorem uniform_weak (r : Rule) {E ν t : ℝ} (hE : 0 < E) (h1 : -1 < ν) (h2 : ν < 1 / 2) (α β : ℝ)
    {v : ℝ × ℝ → V3} (hv : SmoothOn 2 v Set.univ) :
    stiffForm plate (System.linearModuli r t E ν) square (uniform α β) v
      = t * (E / (1 - ν ^ 2)) * (α + ν * β)
          * ((∫ y in (0 : ℝ)..1, (v (1, y)).x) - ∫ y in (0 : ℝ)..1, (v (0, y)).x)
        + t * (E / (1 - ν ^ 2)) * (β + ν * α)
          * ((∫ x in (0 : ℝ)..1, (v (x, 1)).y) - ∫ x in (0 : ℝ)..1, (v (x, 0)).y) := by
  obtain ⟨hB, hC, hA, -⟩ := linear_flat (t := t) r hE h1 h2
  have vx : ContDiff ℝ 2 fun q => (v q).x := contDiffOn_univ.1 hv.1
  have vy : ContDiff ℝ 2 fun q => (v q).y := contDiffOn_univ.1 hv.2.1
  have c0 : Continuous (pd 0 fun q => (v q).x) := (pd_cont (n := 1) vx 0).continuous
  have c1 : Continuous (pd 1 fun q => (v q).y) := (pd_cont (n := 1) vy 1).continuous
  rw [plate_eq, square_eq, form_full _ hB hC, ← int_pd0 vx, ← int_pd1 vy, ← integral_const_mul,
    ← integral_const_mul, ← integral_add (rect_integrable (by fun_prop) 1 1) (rect_integrable (by fun_prop) 1 1)]
  congr 1
  funext q
  have kz : kap (fun q => (uniform α β q).z) q = fun _ => 0 := by
    have z : ∀ i : Fin 2, pd i (fun _ : ℝ × ℝ => (0 : ℝ)) = fun _ => 0 := by
      intro i; funext q; simp [pd_eq]
    funext k
    rcases fin3_cases k with rfl | rfl | rfl <;> simp [kap, uniform, z]
  rw [memb, uniform_eps, bend, kz]
  simp only [dotV, rowMul, eps, hA, iso, Fin.sum_univ_three, vec3_zero, vec3_one, vec3_two, mk3_zero, mk3_one, mk3_two]
  ring

theorem uniform_stretched (α β : ℝ) : (fun q => plate q + uniform α β q) = stretched (1 + α) (1 + β) := by
  funext q
  ext <;> simp [plate, uniform, stretched] <;> ring

/-! ## Eigenvalues of the buckling problem -/

theorem kL_mode (r : Rule) {E ν t : ℝ} (hE : 0 < E) (h1 : -1 < ν) (h2 : ν < 1 / 2) (m n : ℕ)
    {v : ℝ × ℝ → V3} (hv : Supported 1 1 v) :
    stiffForm plate (System.linearModuli r t E ν) square (mode 1 1 m n) v
      = flexural E ν t * ((m * Real.pi) ^ 2 + (n * Real.pi) ^ 2) ^ 2
        * massForm plate 1 square (mode 1 1 m n) v := by
  obtain ⟨hB, -, -, hD⟩ := linear_flat (t := t) r hE h1 h2
  have k := C134_modes hB (iso_uncoupled hD) one_pos one_pos (one_ne_zero (α := ℝ)) m n hv
  rw [navier_flex (a := 1) (b := 1) h1 (by linarith) hD, div_one] at k
  simp only [div_one] at k
  exact k

theorem kDiff_mode (r : Rule) {E ν t : ℝ} (hE : 0 < E) (h1 : -1 < ν) (h2 : ν < 1 / 2) {α β : ℝ} (hα : -1 < α)
    (hβ : -1 < β) (m n : ℕ) {v : ℝ × ℝ → V3} (hv : Supported 1 1 v) :
    kDiff r t E ν (uniform α β) (mode 1 1 m n) v
      = (t * (E / (1 - ν ^ 2)) * (((1 + α) ^ 2 - 1) / 2 + ν * (((1 + β) ^ 2 - 1) / 2)) * (m * Real.pi) ^ 2
          + t * (E / (1 - ν ^ 2)) * (((1 + β) ^ 2 - 1) / 2 + ν * (((1 + α) ^ 2 - 1) / 2)) * (n * Real.pi) ^ 2)
        * massForm plate 1 square (mode 1 1 m n) v := by
  obtain ⟨eB, eC, eM, eN, eD⟩ := linear_section r hE.ne' (by linarith : 1 + ν ≠ 0) (by linarith : 1 - 2 * ν ≠ 0)
    (by linarith : 1 - ν ≠ 0) t (1 + α) (1 + β)
  have k := C135_modes (k := 0) (by linarith) (by linarith) eB eM (by rw [eD]; simp [Uncoupled, iso])
    (by rw [eN]; simp) one_pos one_pos m n hv
  rw [kDiff, uniform_stretched, kL_mode r hE h1 h2 m n hv, plate_eq, square_eq, k, Spec.Plate.modeStiffness,
    navier_flex (E := E) (ν := ν) (t := t) h1 (by linarith) (fun i j => by rw [eD]), eN]
  have z : (0 : V3).z = 0 := rfl
  simp only [vec3_zero, vec3_one, div_one, z]
  ring

theorem kL_right (r : Rule) {E ν t : ℝ} (hE : 0 < E) (h1 : -1 < ν) (h2 : ν < 1 / 2) {m n : ℕ}
    {u : ℝ × ℝ → V3} (hu : Supported 1 1 u) :
    stiffForm plate (System.linearModuli r t E ν) square u (mode 1 1 m n)
      = flexural E ν t * ((m * Real.pi) ^ 2 + (n * Real.pi) ^ 2) ^ 2
        * ∫ q in rect 1 1, ss (m * Real.pi / 1) (n * Real.pi / 1) q * (u q).z := by
  obtain ⟨-, hC, -, hD⟩ := linear_flat (t := t) r hE h1 h2
  have k := stiff_mode hC (iso_uncoupled hD) one_pos one_pos hu m n
  rw [navier_flex (a := 1) (b := 1) h1 (by linarith) hD] at k
  simp only [div_one] at k ⊢
  exact k

theorem kDiff_right (r : Rule) {E ν t : ℝ} (hE : 0 < E) (h1 : -1 < ν) (h2 : ν < 1 / 2) {α β : ℝ} (hα : -1 < α)
    (hβ : -1 < β) {m n : ℕ} {u : ℝ × ℝ → V3} (hu : Supported 1 1 u) :
    kDiff r t E ν (uniform α β) u (mode 1 1 m n)
      = (t * (E / (1 - ν ^ 2)) * (((1 + α) ^ 2 - 1) / 2 + ν * (((1 + β) ^ 2 - 1) / 2)) * (m * Real.pi) ^ 2
          + t * (E / (1 - ν ^ 2)) * (((1 + β) ^ 2 - 1) / 2 + ν * (((1 + α) ^ 2 - 1) / 2)) * (n * Real.pi) ^ 2)
        * ∫ q in rect 1 1, ss (m * Real.pi / 1) (n * Real.pi / 1) q * (u q).z := by
  obtain ⟨eB, eC, eM, eN, eD⟩ := linear_section r hE.ne' (by linarith : 1 + ν ≠ 0) (by linarith : 1 - 2 * ν ≠ 0)
    (by linarith : 1 - ν ≠ 0) t (1 + α) (1 + β)
  have k := tangent_right (k := 0) (u := u) (v := mode 1 1 m n) (rect 1 1) (by linarith) (by linarith) eC eM
    (fun _ => rfl) (fun _ => rfl)
  have p := parts_right (D := (linearSection r t E ν flatS (flatL (1 + α) (1 + β))).D) (by rw [eD]; simp [Uncoupled, iso])
    (N := (linearSection r t E ν flatS (flatL (1 + α) (1 + β))).N) (by rw [eN]; simp) (0 : V3).z zero_le_one zero_le_one
    (sin_wave one_pos m) (sin_wave one_pos n) (contDiffOn_univ.1 hu.1.2.2) hu.2
  have nf := navier_flex (a := 1) (b := 1) (E := E) (ν := ν) (t := t)
    (D := (linearSection r t E ν flatS (flatL (1 + α) (1 + β))).D) h1 (by linarith) (fun i j => by rw [eD]) m n
  have e : tangentForm Spec.Plate.plate (stretched (1 + α) (1 + β)) (linearSection r t E ν) 0 (rect 1 1) u (mode 1 1 m n)
      = _ := k.trans p
  simp only [Spec.Plate.navier] at nf
  rw [kDiff, uniform_stretched, kL_right r hE h1 h2 hu, plate_eq, square_eq, e, nf, eN]
  have z : (0 : V3).z = 0 := rfl
  simp only [vec3_zero, vec3_one, div_one, z]
  ring

theorem mode_moves {m n : ℕ} (hm : 1 ≤ m) (hn : 1 ≤ n) : ∃ q ∈ square, (mode 1 1 m n q).z ≠ 0 := by
  have hm' : (1 : ℝ) ≤ m := by exact_mod_cast hm
  have hn' : (1 : ℝ) ≤ n := by exact_mod_cast hn
  have e : ∀ k : ℝ, 1 ≤ k → k * Real.pi / 1 * (1 / (2 * k)) = Real.pi / 2 := by
    intro k hk; field_simp
  have l : ∀ k : ℝ, 1 ≤ k → 1 / (2 * k) ∈ Set.Icc (0 : ℝ) 1 := fun k hk =>
    ⟨by positivity, by rw [div_le_one (by positivity)]; linarith⟩
  refine ⟨(1 / (2 * m), 1 / (2 * n)), ⟨l m hm', l n hn'⟩, ?_⟩
  simp only [mode]
  rw [e m hm', e n hn']; simp

theorem uniform_smooth (α β : ℝ) : SmoothOn 2 (uniform α β) Set.univ := by
  refine ⟨?_, ?_, contDiffOn_const⟩
  · exact ContDiff.contDiffOn (show ContDiff ℝ (2 : ℕ) fun q : ℝ × ℝ => α * q.1 by fun_prop)
  · exact ContDiff.contDiffOn (show ContDiff ℝ (2 : ℕ) fun q : ℝ × ℝ => β * q.2 by fun_prop)

theorem uniform_held (ε : ℝ) : Held (uniform ε ε) :=
  ⟨⟨uniform_smooth ε ε, fun _ _ => rfl⟩, fun y => by simp [uniform], fun x => by simp [uniform]⟩

theorem edge_eq (e w n : ℝ) (v : ℝ × ℝ → V3) : edgeForm ⟨e, 0, 0⟩ ⟨w, 0, 0⟩ ⟨0, n, 0⟩ v
    = e * (∫ y in (0 : ℝ)..1, (v (1, y)).x) + w * (∫ y in (0 : ℝ)..1, (v (0, y)).x)
      + n * ∫ x in (0 : ℝ)..1, (v (x, 1)).y := by
  simp only [edgeForm, dot, mul_zero, add_zero, zero_add, intervalIntegral.integral_mul_const]
  ring

/-! ## Entries of the tables -/

theorem table_length (f : ℕ → ℕ → ℝ) : (table f).length = 81 := by
  rw [table, List.length_insertionSort, List.length_map]; rfl

theorem entry_sq {f : ℕ → ℕ → ℝ} {c : ℝ} (hc : 0 < c) (hf : ∀ m n, f m n = c * ((m ^ 2 + n ^ 2 : ℕ) : ℝ)) {i : ℕ}
    (hi : i < 81) : entry (table f) i = .ok (c * ((sq.getD i 0 : ℕ) : ℝ)) := by
  refine entry_ok ?_
  rw [table_sq hc hf, List.getElem?_map, sq_get hi]; rfl

theorem modal_entry {E ν ρ t : ℝ} (hE : 0 < E) (he : 0 < 1 - ν ^ 2) (hρ : 0 < ρ) (ht : 0 < t) {i : ℕ} (hi : i < 81) :
    ∃ x, modalReference E ν ρ t i = .ok x ∧
      x = plateD E ν t / (ρ * t) * ((sq.getD i 0 : ℕ) : ℝ) ^ 2 * 3.1415926535 ^ 4 := by
  have hD : 0 < plateD E ν t / (ρ * t) := by unfold plateD; positivity
  have h := entry_sq (f := modalOmega E ν ρ t) (c := 3.1415926535 ^ 2 * √(plateD E ν t / (ρ * t))) (by positivity)
    (fun m n => by unfold modalOmega; push_cast; norm_num; ring) hi
  refine ⟨_, by rw [modalReference, h]; rfl, ?_⟩
  rw [mul_pow, mul_pow, Real.sq_sqrt hD.le]; ring

theorem biaxial_entry {E ν t : ℝ} (hE : 0 < E) (he : 0 < 1 - ν ^ 2) (ht : 0 < t) (load : ℝ) {i : ℕ} (hi : i < 81) :
    ∃ x, biaxialReference E ν t load i = .ok x ∧
      x = plateD E ν t * piConst ^ 2 * ((sq.getD i 0 : ℕ) : ℝ) / load := by
  have hD : 0 < plateD E ν t := by unfold plateD; positivity
  have hp : 0 < piConst := by unfold piConst; norm_num
  have h := entry_sq (f := biaxialGamma E ν t) (c := plateD E ν t * piConst ^ 2) (by positivity)
    (fun m n => by unfold biaxialGamma; push_cast; ring) hi
  exact ⟨_, by rw [biaxialReference, h]; rfl, rfl⟩

theorem bind_entry {f : ℕ → ℕ → ℝ} {g : ℝ → ℝ} {i : ℤ} {x : ℝ}
    (h : ((entry (table f) i).bind fun x => .ok (g x)) = .ok x) :
    ∃ m n : ℕ, 1 ≤ m ∧ 1 ≤ n ∧ x = g (f m n) := by
  unfold entry at h
  split_ifs at h with hi
  · cases h
  · rcases hx : (table f)[i.toNat]? with _ | y
    · rw [hx] at h; cases h
    · rw [hx] at h
      have h' : g y = x := Outcome.ok.inj h
      have hy := List.mem_of_getElem? hx
      rw [table, List.mem_insertionSort, List.mem_map] at hy
      obtain ⟨p, hp, rfl⟩ := hy
      have := (mem_waves p).1 hp
      exact ⟨p.1, p.2, this.1.1, this.2.1, h'.symm⟩

theorem piConst_bounds : (1 - 1e-19) * piConst ^ 2 ≤ Real.pi ^ 2 ∧ Real.pi ^ 2 ≤ (1 + 1e-19) * piConst ^ 2 := by
  have p1 := Real.pi_gt_d20
  have p2 := Real.pi_lt_d20
  have a : (3.14159265358979323846 : ℝ) ^ 2 ≤ Real.pi ^ 2 := by gcongr
  have b : Real.pi ^ 2 ≤ (3.14159265358979323847 : ℝ) ^ 2 := by gcongr
  constructor
  · refine le_trans ?_ a; unfold piConst; norm_num
  · refine b.trans ?_; unfold piConst; norm_num

theorem kth_of {i s : ℕ} (hi : i < 69) (h : sq.getD i 0 = s) : Kth i s := h ▸ sq_kth hi

theorem num_entry {i : ℕ} (hi : i < 10) : ∃ m n : ℕ, 1 ≤ m ∧ 1 ≤ n ∧ Kth i (m ^ 2 + n ^ 2) ∧
    ∃ g, gammasNum[i]? = some g ∧
      (1 - 1e-12) * (Real.pi ^ 2 * ((m : ℝ) ^ 2 + (n : ℝ) ^ 2) / (10.92 * 1.000035)) ≤ g ∧
      g ≤ (1 + 1e-12) * (Real.pi ^ 2 * ((m : ℝ) ^ 2 + (n : ℝ) ^ 2) / (10.92 * 1.000035)) := by
  have a : (3.14159265358979323846 : ℝ) ^ 2 ≤ Real.pi ^ 2 := by
    have := Real.pi_gt_d20; gcongr
  have b : Real.pi ^ 2 ≤ (3.14159265358979323847 : ℝ) ^ 2 := by
    have := Real.pi_lt_d20; have := Real.pi_pos; gcongr
  norm_num at a b
  generalize Real.pi ^ 2 = P at *
  interval_cases i
  · exact ⟨1, 1, by norm_num, by norm_num, kth_of (by norm_num) (by decide +kernel), _, rfl,
      by norm_num; linarith, by norm_num; linarith⟩
  · exact ⟨1, 2, by norm_num, by norm_num, kth_of (by norm_num) (by decide +kernel), _, rfl,
      by norm_num; linarith, by norm_num; linarith⟩
  · exact ⟨2, 1, by norm_num, by norm_num, kth_of (by norm_num) (by decide +kernel), _, rfl,
      by norm_num; linarith, by norm_num; linarith⟩
  · exact ⟨2, 2, by norm_num, by norm_num, kth_of (by norm_num) (by decide +kernel), _, rfl,
      by norm_num; linarith, by norm_num; linarith⟩
  · exact ⟨1, 3, by norm_num, by norm_num, kth_of (by norm_num) (by decide +kernel), _, rfl,
      by norm_num; linarith, by norm_num; linarith⟩
  · exact ⟨3, 1, by norm_num, by norm_num, kth_of (by norm_num) (by decide +kernel), _, rfl,
      by norm_num; linarith, by norm_num; linarith⟩
  · exact ⟨2, 3, by norm_num, by norm_num, kth_of (by norm_num) (by decide +kernel), _, rfl,
      by norm_num; linarith, by norm_num; linarith⟩
  · exact ⟨3, 2, by norm_num, by norm_num, kth_of (by norm_num) (by decide +kernel), _, rfl,
      by norm_num; linarith, by norm_num; linarith⟩
  · exact ⟨1, 4, by norm_num, by norm_num, kth_of (by norm_num) (by decide +kernel), _, rfl,
      by norm_num; linarith, by norm_num; linarith⟩
  · exact ⟨4, 1, by norm_num, by norm_num, kth_of (by norm_num) (by decide +kernel), _, rfl,
      by norm_num; linarith, by norm_num; linarith⟩

end Verif.Examples
