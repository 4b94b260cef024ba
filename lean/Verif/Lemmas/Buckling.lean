import Verif.Model.Buckling
import Verif.Spec.Buckling
import Verif.Spec.Integrate
import Verif.Lemmas.PlateMode

/-! # Lemmas: tangent of a stretched plate -/

namespace Verif.Plate

open V3 Geometry Fields MeasureTheory Verif.Variation Verif.Balance Spec.Balloon Spec.Plate Verif.Balloon
open Verif.Integrate (Rule)

/-- Derivatives of the stretched plate. -/
def flatL (lx ly : ℝ) : Surf := ⟨fun i => if i = 0 then ⟨lx, 0, 0⟩ else ⟨0, ly, 0⟩, 0, 0, 0⟩

section
variable {lx ly : ℝ}

theorem flatL_one : flatL 1 1 = flatS := rfl

theorem vpd_stretched0 : vpd 0 (stretched lx ly) = fun _ => ⟨lx, 0, 0⟩ := by
  funext q
  ext
  · exact pd_x (by fun_prop) (((hasDerivAt_id' q.1).const_mul lx).congr_deriv (mul_one lx))
  · exact pd_x (by fun_prop) (hasDerivAt_const q.1 (ly * q.2))
  · exact pd_const _ _ _

theorem vpd_stretched1 : vpd 1 (stretched lx ly) = fun _ => ⟨0, ly, 0⟩ := by
  funext q
  ext
  · exact pd_y (by fun_prop) (hasDerivAt_const q.2 (lx * q.1))
  · exact pd_y (by fun_prop) (((hasDerivAt_id' q.2).const_mul ly).congr_deriv (mul_one ly))
  · exact pd_const _ _ _

theorem jet_stretched (q : ℝ × ℝ) : jet (stretched lx ly) q = flatL lx ly := by
  unfold jet flatL
  simp only [vpd_stretched0, vpd_stretched1, vpd_const]
  congr 1
  funext i
  rcases fin2_cases i with rfl | rfl
  · rw [vpd_stretched0]; simp
  · rw [vpd_stretched1]; simp

theorem flatL_normal (hx : 0 < lx) (hy : 0 < ly) : normal (flatL lx ly) = ⟨0, 0, 1⟩ := by
  have c : cross ((flatL lx ly).a 0) ((flatL lx ly).a 1) = ⟨0, 0, lx * ly⟩ := by
    ext <;> simp [flatL, cross]
  have n : V3.norm ⟨0, 0, lx * ly⟩ = lx * ly := by
    simp only [V3.norm, dot, mul_zero, zero_add]
    exact Real.sqrt_mul_self (by positivity)
  unfold normal
  rw [c, normalized, n]
  ext <;> simp
  field_simp

theorem flatL_Ef (hx : 0 < lx) (hy : 0 < ly) (v : ℝ × ℝ → V3) (q : ℝ × ℝ) :
    EfDer (flatL lx ly) (jet v q) = kap (fun q => (v q).z) q := by
  have z : ∀ w : V3, dot w ⟨0, 0, 1⟩ = w.z := fun w => by simp [dot]
  have z' : ∀ w : V3, dot 0 w = 0 := fun w => by simp [dot]
  have d1 : (flatL lx ly).d11 = 0 := rfl
  have d2 : (flatL lx ly).d22 = 0 := rfl
  have d3 : (flatL lx ly).d12 = 0 := rfl
  funext k
  rcases fin3_cases k with rfl | rfl | rfl <;>
    simp only [EfDer, flatL_normal hx hy, deriv2dot, dbl3, kap, z, z', d1, d2, d3, vec3_zero, vec3_one, vec3_two,
      add_zero] <;> rfl

theorem flatL_Em_z {v : ℝ × ℝ → V3} (hx : ∀ q, (v q).x = 0) (hy : ∀ q, (v q).y = 0) (q : ℝ × ℝ) :
    EmDer (flatL lx ly) (jet v q) = fun _ => 0 := by
  have ex : (fun q => (v q).x) = fun _ => 0 := funext hx
  have ey : (fun q => (v q).y) = fun _ => 0 := funext hy
  funext k
  rcases fin3_cases k with rfl | rfl | rfl <;>
    simp [EmDer, flatL, jet, vpd, ex, ey, pd_const, dot]

/-- Geometric part. -/
noncomputable def geo (N : Voigt) (f g : ℝ × ℝ → ℝ) (q : ℝ × ℝ) : ℝ :=
  pd 0 f q * pd 0 g q * N 0 + pd 0 f q * pd 1 g q * N 2 + pd 1 f q * pd 0 g q * N 2 + pd 1 f q * pd 1 g q * N 1

theorem Em2_left {u v : ℝ × ℝ → V3} (hx : ∀ q, (u q).x = 0) (hy : ∀ q, (u q).y = 0) (N : Voigt) (q : ℝ × ℝ) :
    EmDer2 (jet u q) (jet v q) N = geo N (fun q => (u q).z) (fun q => (v q).z) q := by
  have ex : (fun q => (u q).x) = fun _ => 0 := funext hx
  have ey : (fun q => (u q).y) = fun _ => 0 := funext hy
  simp [EmDer2, jet, vpd, ex, ey, pd_const, dot, geo]

theorem Em2_right {u v : ℝ × ℝ → V3} (hx : ∀ q, (v q).x = 0) (hy : ∀ q, (v q).y = 0) (N : Voigt) (q : ℝ × ℝ) :
    EmDer2 (jet u q) (jet v q) N = geo N (fun q => (u q).z) (fun q => (v q).z) q := by
  have ex : (fun q => (v q).x) = fun _ => 0 := funext hx
  have ey : (fun q => (v q).y) = fun _ => 0 := funext hy
  simp [EmDer2, jet, vpd, ex, ey, pd_const, dot, geo]

theorem Ef2_zero (s u v : Surf) : EfDer2 s u v (fun _ => 0) = 0 := by
  simp [EfDer2, flatdot2, var2deriv2, dotV]

variable {S : Surf → Surf → Section} {k : V3} {u v : ℝ × ℝ → V3}

theorem tangent_left (D : Set (ℝ × ℝ)) (h1 : 0 < lx) (h2 : 0 < ly)
    (hB : (S flatS (flatL lx ly)).B = fun _ _ => 0) (hM : (S flatS (flatL lx ly)).M = fun _ => 0)
    (hx : ∀ q, (u q).x = 0) (hy : ∀ q, (u q).y = 0) :
    tangentForm plate (stretched lx ly) S k D u v = ∫ q in D,
      (bend (S flatS (flatL lx ly)).D (fun q => (u q).z) (fun q => (v q).z) q
        + geo (S flatS (flatL lx ly)).N (fun q => (u q).z) (fun q => (v q).z) q
        + k.z * ((u q).z * (v q).z)) := by
  unfold tangentForm
  congr 1
  funext q
  simp only [jet_plate, jet_stretched, flat_measure, mul_one]
  rw [stiffness, hB, hM, Ef2_zero, flatL_Em_z hx hy, flatL_Ef h1 h2, flatL_Ef h1 h2, Em2_left hx hy,
    WeakForms.foundMat, WeakForms.diagDot, hx q, hy q]
  simp only [dotV, rowMul, bend, zero_mul, mul_zero, Finset.sum_const_zero, zero_add, add_zero, mul_one]
  ring

theorem tangent_right (D : Set (ℝ × ℝ)) (h1 : 0 < lx) (h2 : 0 < ly)
    (hC : (S flatS (flatL lx ly)).C = fun _ _ => 0) (hM : (S flatS (flatL lx ly)).M = fun _ => 0)
    (hx : ∀ q, (v q).x = 0) (hy : ∀ q, (v q).y = 0) :
    tangentForm plate (stretched lx ly) S k D u v = ∫ q in D,
      (bend (S flatS (flatL lx ly)).D (fun q => (u q).z) (fun q => (v q).z) q
        + geo (S flatS (flatL lx ly)).N (fun q => (u q).z) (fun q => (v q).z) q
        + k.z * ((u q).z * (v q).z)) := by
  unfold tangentForm
  congr 1
  funext q
  simp only [jet_plate, jet_stretched, flat_measure, mul_one]
  rw [stiffness, hC, hM, Ef2_zero, flatL_Em_z hx hy, flatL_Ef h1 h2, flatL_Ef h1 h2, Em2_right hx hy,
    WeakForms.foundMat, WeakForms.diagDot, hx q, hy q]
  simp only [dotV, rowMul, bend, mul_zero, Finset.sum_const_zero, zero_add, add_zero, mul_one]
  ring

end

section
variable {a b α β : ℝ} {f : ℝ × ℝ → ℝ}

theorem geo_pair (ha : 0 ≤ a) (hb : 0 ≤ b) (hf : ContDiff ℝ 2 f) (h0 : ∀ q, Edge a b q → f q = 0) (c0 c1 : ℝ) :
    ∫ q in rect a b, (c0 * (pd 0 (ss α β) q * pd 0 f q) + c1 * (pd 1 (ss α β) q * pd 1 f q))
      = (c0 * α ^ 2 + c1 * β ^ 2) * ∫ q in rect a b, ss α β q * f q := by
  have f0 : Continuous (pd 0 f) := (pd_cont (n := 1) hf 0).continuous
  have f1 : Continuous (pd 1 f) := (pd_cont (n := 1) hf 1).continuous
  have e0 : ∫ q in rect a b, α * Real.cos (α * q.1) * Real.sin (β * q.2) * pd 0 f q
      = α ^ 2 * ∫ q in rect a b, ss α β q * f q := by
    rw [parts_x (g := fun x => α * Real.cos (α * x)) (h := fun y => Real.sin (β * y)) ha hb
      (hf.of_le (by norm_num)) (cos_deriv α) (by fun_prop) (by fun_prop)
      (fun y => by rw [h0 _ (Or.inl rfl), mul_zero]) (fun y => by rw [h0 _ (Or.inr (Or.inl rfl)), mul_zero]),
      ← integral_neg, ← integral_const_mul]
    congr 1
    funext q
    simp only [ss]
    ring
  have e1 : ∫ q in rect a b, Real.sin (α * q.1) * (β * Real.cos (β * q.2)) * pd 1 f q
      = β ^ 2 * ∫ q in rect a b, ss α β q * f q := by
    rw [parts_y (g := fun x => Real.sin (α * x)) (h := fun y => β * Real.cos (β * y)) ha hb
      (hf.of_le (by norm_num)) (cos_deriv β) (by fun_prop) (by fun_prop)
      (fun y => by rw [h0 _ (Or.inr (Or.inr (Or.inl rfl))), mul_zero])
      (fun y => by rw [h0 _ (Or.inr (Or.inr (Or.inr rfl))), mul_zero]),
      ← integral_neg, ← integral_const_mul]
    congr 1
    funext q
    simp only [ss]
    ring
  simp only [ss_0, ss_1]
  have i0 : IntegrableOn (fun q : ℝ × ℝ => c0 * (α * Real.cos (α * q.1) * Real.sin (β * q.2) * pd 0 f q))
      (rect a b) := rect_integrable (by fun_prop) a b
  have i1 : IntegrableOn (fun q : ℝ × ℝ => c1 * (Real.sin (α * q.1) * (β * Real.cos (β * q.2)) * pd 1 f q))
      (rect a b) := rect_integrable (by fun_prop) a b
  rw [integral_add i0 i1, integral_const_mul, integral_const_mul, e0, e1]
  ring

theorem bend_cont (D : T3) {f g : ℝ × ℝ → ℝ} (hf : ContDiff ℝ 2 f) (hg : ContDiff ℝ 2 g) :
    Continuous (bend D f g) := by
  have c : ∀ {f : ℝ × ℝ → ℝ}, ContDiff ℝ 2 f → ∀ i, Continuous fun q => kap f q i := by
    intro f hf i
    have f00 : Continuous (pd 0 (pd 0 f)) := (pd_cont (n := 0) (pd_cont (n := 1) hf 0) 0).continuous
    have f11 : Continuous (pd 1 (pd 1 f)) := (pd_cont (n := 0) (pd_cont (n := 1) hf 1) 1).continuous
    have f01 : Continuous (pd 1 (pd 0 f)) := (pd_cont (n := 0) (pd_cont (n := 1) hf 0) 1).continuous
    rcases fin3_cases i with rfl | rfl | rfl <;> simp only [kap, vec3_zero, vec3_one, vec3_two] <;> fun_prop
  have c1 := c hf
  have c2 := c hg
  unfold bend dotV rowMul
  fun_prop

theorem geo_cont (N : Voigt) {f g : ℝ × ℝ → ℝ} (hf : ContDiff ℝ 2 f) (hg : ContDiff ℝ 2 g) :
    Continuous (geo N f g) := by
  have f0 : Continuous (pd 0 f) := (pd_cont (n := 1) hf 0).continuous
  have f1 : Continuous (pd 1 f) := (pd_cont (n := 1) hf 1).continuous
  have g0 : Continuous (pd 0 g) := (pd_cont (n := 1) hg 0).continuous
  have g1 : Continuous (pd 1 g) := (pd_cont (n := 1) hg 1).continuous
  unfold geo
  fun_prop

/-- The three parts for a sine product on the left. -/
theorem parts_left {D : T3} (hD : Uncoupled D) {N : Voigt} (hN : N 2 = 0) (κ : ℝ) (ha : 0 ≤ a) (hb : 0 ≤ b)
    (hα : Real.sin (α * a) = 0) (hβ : Real.sin (β * b) = 0) (hf : ContDiff ℝ 2 f)
    (h0 : ∀ q, Edge a b q → f q = 0) :
    ∫ q in rect a b, (bend D (ss α β) f q + geo N (ss α β) f q + κ * (ss α β q * f q))
      = (D 0 0 * α ^ 4 + (D 0 1 + D 1 0 + 4 * D 2 2) * α ^ 2 * β ^ 2 + D 1 1 * β ^ 4
          + N 0 * α ^ 2 + N 1 * β ^ 2 + κ) * ∫ q in rect a b, ss α β q * f q := by
  have cs := (ss_smooth α β).continuous
  have cf := hf.continuous
  have i0 : IntegrableOn (fun q => bend D (ss α β) f q) (rect a b) :=
    rect_integrable (bend_cont D (ss_smooth α β) hf) a b
  have i1 : IntegrableOn (fun q => geo N (ss α β) f q) (rect a b) :=
    rect_integrable (geo_cont N (ss_smooth α β) hf) a b
  have i2 : IntegrableOn (fun q => κ * (ss α β q * f q)) (rect a b) := rect_integrable (by fun_prop) a b
  have i01 : IntegrableOn (fun q => bend D (ss α β) f q + geo N (ss α β) f q) (rect a b) := i0.add i1
  have g : ∫ q in rect a b, geo N (ss α β) f q
      = (N 0 * α ^ 2 + N 1 * β ^ 2) * ∫ q in rect a b, ss α β q * f q := by
    rw [← geo_pair ha hb hf h0]
    congr 1
    funext q
    simp only [geo, hN]
    ring
  rw [integral_add i01 i2, integral_add i0 i1, integral_const_mul, g, navier_left hD ha hb hα hβ hf h0]
  ring

/-- The three parts for a sine product on the right. -/
theorem parts_right {D : T3} (hD : Uncoupled D) {N : Voigt} (hN : N 2 = 0) (κ : ℝ) (ha : 0 ≤ a) (hb : 0 ≤ b)
    (hα : Real.sin (α * a) = 0) (hβ : Real.sin (β * b) = 0) (hf : ContDiff ℝ 2 f)
    (h0 : ∀ q, Edge a b q → f q = 0) :
    ∫ q in rect a b, (bend D f (ss α β) q + geo N f (ss α β) q + κ * (f q * ss α β q))
      = (D 0 0 * α ^ 4 + (D 0 1 + D 1 0 + 4 * D 2 2) * α ^ 2 * β ^ 2 + D 1 1 * β ^ 4
          + N 0 * α ^ 2 + N 1 * β ^ 2 + κ) * ∫ q in rect a b, ss α β q * f q := by
  have cs := (ss_smooth α β).continuous
  have cf := hf.continuous
  have i0 : IntegrableOn (fun q => bend D f (ss α β) q) (rect a b) :=
    rect_integrable (bend_cont D hf (ss_smooth α β)) a b
  have i1 : IntegrableOn (fun q => geo N f (ss α β) q) (rect a b) :=
    rect_integrable (geo_cont N hf (ss_smooth α β)) a b
  have i2 : IntegrableOn (fun q => κ * (f q * ss α β q)) (rect a b) := rect_integrable (by fun_prop) a b
  have i01 : IntegrableOn (fun q => bend D f (ss α β) q + geo N f (ss α β) q) (rect a b) := i0.add i1
  have g : ∫ q in rect a b, geo N f (ss α β) q
      = (N 0 * α ^ 2 + N 1 * β ^ 2) * ∫ q in rect a b, ss α β q * f q := by
    rw [← geo_pair ha hb hf h0]
    congr 1
    funext q
    simp only [geo, hN]
    ring
  have c : ∫ q in rect a b, f q * ss α β q = ∫ q in rect a b, ss α β q * f q := by
    congr 1
    funext q
    ring
  rw [integral_add i01 i2, integral_add i0 i1, integral_const_mul, g, c, navier_right hD ha hb hα hβ hf h0]
  ring

end

/-! ## Sections at the stretched state -/

section
variable {lx ly : ℝ}

theorem flatL_Acov : Acov (flatL lx ly) = ![![lx ^ 2, 0], ![0, ly ^ 2]] := by
  funext i j
  rcases fin2_cases i with rfl | rfl <;> rcases fin2_cases j with rfl | rfl <;>
    simp [Acov, flatL, dot] <;> ring

theorem flatL_Bcov : Bcov (flatL lx ly) = fun _ _ => 0 := by
  have d1 : (flatL lx ly).d11 = 0 := rfl
  have d2 : (flatL lx ly).d22 = 0 := rfl
  have d3 : (flatL lx ly).d12 = 0 := rfl
  funext i j
  rcases fin2_cases i with rfl | rfl <;> rcases fin2_cases j with rfl | rfl <;>
    simp [Bcov, d1, d2, d3, dot]

theorem flatL_ncov (i : Fin 2) : ncov (flatL lx ly) i = 0 := by
  have h : ∀ i j, mixedB (flatL lx ly) i j = 0 := by
    intro i j
    simp [mixedB, flatL_Bcov]
  ext <;> simp [ncov, h]

theorem flatL_Gblock (z : ℝ) : Gblock (flatL lx ly) z = ![![lx ^ 2, 0], ![0, ly ^ 2]] := by
  funext i j
  rw [Gblock, flatL_ncov, flatL_ncov, flatL_Acov, flatL_Bcov]
  simp [dot]

/-- Section of the linear material at the stretched plate. -/
theorem linear_section (r : Rule) {E ν : ℝ} (hE : E ≠ 0) (h1 : 1 + ν ≠ 0) (h2 : 1 - 2 * ν ≠ 0) (h3 : 1 - ν ≠ 0)
    (t lx ly : ℝ) :
    (linearSection r t E ν flatS (flatL lx ly)).B = (fun _ _ => 0) ∧
    (linearSection r t E ν flatS (flatL lx ly)).C = (fun _ _ => 0) ∧
    (linearSection r t E ν flatS (flatL lx ly)).M = (fun _ => 0) ∧
    (linearSection r t E ν flatS (flatL lx ly)).N
      = vec3 (t * (E / (1 - ν ^ 2)) * ((lx ^ 2 - 1) / 2 + ν * ((ly ^ 2 - 1) / 2)))
          (t * (E / (1 - ν ^ 2)) * ((ly ^ 2 - 1) / 2 + ν * ((lx ^ 2 - 1) / 2))) 0 ∧
    (linearSection r t E ν flatS (flatL lx ly)).D = fun i j => t ^ 3 / 12 * iso E ν i j := by
  have m := flat_linear hE h1 h2 h3
  have c00 : Linear.Cval E ν (Acon flatS) 0 0 0 0 = E / (1 - ν ^ 2) := congrFun (congrFun m 0) 0
  have c01 : Linear.Cval E ν (Acon flatS) 0 0 1 1 = ν * (E / (1 - ν ^ 2)) := congrFun (congrFun m 0) 1
  have c11 : Linear.Cval E ν (Acon flatS) 1 1 1 1 = E / (1 - ν ^ 2) := congrFun (congrFun m 1) 1
  have c10 : Linear.Cval E ν (Acon flatS) 1 1 0 0 = ν * (E / (1 - ν ^ 2)) := by
    rw [← c01, flat_Acon]; simp [Linear.Cval]
  have c20 : Linear.Cval E ν (Acon flatS) 0 1 0 0 = 0 := by rw [flat_Acon]; simp [Linear.Cval]
  have c21 : Linear.Cval E ν (Acon flatS) 0 1 1 1 = 0 := by rw [flat_Acon]; simp [Linear.Cval]
  have a0 : Acov flatS = ![![1, 0], ![0, 1]] := by rw [← flatL_one, flatL_Acov]; simp
  have b0 : Bcov flatS = fun _ _ => 0 := by rw [← flatL_one, flatL_Bcov]
  refine ⟨?_, ?_, ?_, ?_, ?_⟩
  · funext i j; exact System.linear_B r t E ν flatS i j
  · funext i j; exact System.linear_C r t E ν flatS i j
  · funext i
    show Integrate.multiplyZ t 2 (fun _ => Linear.stress E ν (Acon flatS)
      (bendingStrain flatS (flatL lx ly)) i) = 0
    have : bendingStrain flatS (flatL lx ly) = fun _ _ => 0 := by
      funext i j; rw [bendingStrain, b0, flatL_Bcov]; ring
    rw [this]
    rcases fin3_cases i with rfl | rfl | rfl <;> simp [Linear.stress, Linear.Sij, Integrate.multiplyZ]
  · funext i
    show Integrate.multiplyZ t 0 (fun _ => Linear.stress E ν (Acon flatS)
      (membraneStrain flatS (flatL lx ly)) i) = _
    have : membraneStrain flatS (flatL lx ly) = ![![(lx ^ 2 - 1) / 2, 0], ![0, (ly ^ 2 - 1) / 2]] := by
      funext i j
      rw [membraneStrain, a0, flatL_Acov]
      rcases fin2_cases i with rfl | rfl <;> rcases fin2_cases j with rfl | rfl <;> simp <;> ring
    rw [this]
    rcases fin3_cases i with rfl | rfl | rfl <;>
      simp [Linear.stress, Linear.Sij, Integrate.multiplyZ, c00, c01, c10, c11, c20, c21] <;> ring
  · funext i j
    have : (linearSection r t E ν flatS (flatL lx ly)).D i j = (System.linearModuli r t E ν flatS).D i j := rfl
    rw [this, System.linear_D, m]

theorem mode_nonzero {a b : ℝ} (ha : 0 < a) (hb : 0 < b) {m n : ℕ} (hm1 : 1 ≤ m) (hn1 : 1 ≤ n) :
    ∃ q ∈ rect a b, (mode a b m n q).z ≠ 0 := by
  refine ⟨(a / (2 * m), b / (2 * n)), ⟨⟨?_, ?_⟩, ?_, ?_⟩, ?_⟩
  · positivity
  · have : (1 : ℝ) ≤ m := by exact_mod_cast hm1
    show a / (2 * m) ≤ a
    rw [div_le_iff₀ (by positivity)]
    nlinarith
  · positivity
  · have : (1 : ℝ) ≤ n := by exact_mod_cast hn1
    show b / (2 * n) ≤ b
    rw [div_le_iff₀ (by positivity)]
    nlinarith
  · have m0 : (m : ℝ) ≠ 0 := by positivity
    have n0 : (n : ℝ) ≠ 0 := by positivity
    have e1 : m * Real.pi / a * (a / (2 * m)) = Real.pi / 2 := by field_simp
    have e2 : n * Real.pi / b * (b / (2 * n)) = Real.pi / 2 := by field_simp
    simp only [mode]
    rw [e1, e2]; simp

open Verif.Hyper Verif.ShellTangent

theorem flatS_Gblock (z : ℝ) : Gblock flatS z = ![![1, 0], ![0, 1]] := by
  rw [← flatL_one, flatL_Gblock]; simp

theorem exact_moments {r : Rule} (hr : r.Exact 2) :
    (∑ j, r.w j = 1) ∧ (∑ j, r.w j * r.ξ j = 0) ∧ ∑ j, r.w j * r.ξ j ^ 2 = 1 / 12 := by
  have h0 := hr 0 (by norm_num)
  have h1 := hr 1 (by norm_num)
  have h2 := hr 2 (by norm_num)
  rw [integral_pow] at h0 h1 h2
  refine ⟨?_, ?_, ?_⟩
  · rw [show (1 : ℝ) = ((1 / 2 : ℝ) ^ (0 + 1) - (-(1 / 2)) ^ (0 + 1)) / ((0 : ℕ) + 1) by norm_num, ← h0]
    simp
  · rw [show (0 : ℝ) = ((1 / 2 : ℝ) ^ (1 + 1) - (-(1 / 2)) ^ (1 + 1)) / ((1 : ℕ) + 1) by norm_num, ← h1]
    simp
  · rw [h2]; norm_num

/-- Moments of a constant. -/
theorem integrateZ_const {r : Rule} (hr : r.Exact 2) (t c : ℝ) :
    Integrate.integrateZ r t 0 (fun _ => c) = t * c ∧ Integrate.integrateZ r t 1 (fun _ => c) = 0 ∧
    Integrate.integrateZ r t 2 (fun _ => c) = t ^ 3 / 12 * c := by
  obtain ⟨h0, h1, h2⟩ := exact_moments hr
  unfold Integrate.integrateZ
  refine ⟨?_, ?_, ?_⟩
  · have : ∀ j, r.w j * (r.ξ j * t) ^ 0 * c * t = r.w j * (c * t) := fun j => by ring
    simp only [this]
    rw [← Finset.sum_mul, h0]; ring
  · have : ∀ j, r.w j * (r.ξ j * t) ^ 1 * c * t = r.w j * r.ξ j * (c * t ^ 2) := fun j => by ring
    simp only [this]
    rw [← Finset.sum_mul, h1]; ring
  · have : ∀ j, r.w j * (r.ξ j * t) ^ 2 * c * t = r.w j * r.ξ j ^ 2 * (c * t ^ 3) := fun j => by ring
    simp only [this]
    rw [← Finset.sum_mul, h2]; ring

/-- Data of the stretched plate. -/
noncomputable def dataL (lx ly : ℝ) : Data := data ![![1, 0], ![0, 1]] ![![lx ^ 2, 0], ![0, ly ^ 2]]

/-- Section of the Mooney–Rivlin material at the stretched plate. -/
theorem mr_section {r : Rule} (hr : r.Exact 2) (p : Par) (t : ℝ) :
    (lawSection (mr p) r t flatS (flatL lx ly)).B = (fun _ _ => 0) ∧
    (lawSection (mr p) r t flatS (flatL lx ly)).C = (fun _ _ => 0) ∧
    (lawSection (mr p) r t flatS (flatL lx ly)).M = (fun _ => 0) ∧
    (lawSection (mr p) r t flatS (flatL lx ly)).N = (fun k => t * stressV (sMR p (dataL lx ly)) k) ∧
    (lawSection (mr p) r t flatS (flatL lx ly)).D
      = fun i j => t ^ 3 / 12 * fillMatrix (cMR p (dataL lx ly)) i j := by
  refine ⟨?_, ?_, ?_, ?_, ?_⟩
  · funext i j
    simp only [lawSection, modulus, mr, flatS_Gblock, flatL_Gblock]
    exact (integrateZ_const hr t _).2.1
  · funext i j
    simp only [lawSection, modulus, mr, flatS_Gblock, flatL_Gblock]
    exact (integrateZ_const hr t _).2.1
  · funext i
    simp only [lawSection, resultant, mr, flatS_Gblock, flatL_Gblock]
    exact (integrateZ_const hr t _).2.1
  · funext i
    simp only [lawSection, resultant, mr, flatS_Gblock, flatL_Gblock]
    exact (integrateZ_const hr t _).1
  · funext i j
    simp only [lawSection, modulus, mr, flatS_Gblock, flatL_Gblock]
    exact (integrateZ_const hr t _).2.2

theorem nh_section {r : Rule} (hr : r.Exact 2) (p : Par) (t : ℝ) :
    (lawSection (nh p) r t flatS (flatL lx ly)).B = (fun _ _ => 0) ∧
    (lawSection (nh p) r t flatS (flatL lx ly)).C = (fun _ _ => 0) ∧
    (lawSection (nh p) r t flatS (flatL lx ly)).M = (fun _ => 0) ∧
    (lawSection (nh p) r t flatS (flatL lx ly)).N = (fun k => t * stressV (sNH p (dataL lx ly)) k) ∧
    (lawSection (nh p) r t flatS (flatL lx ly)).D
      = fun i j => t ^ 3 / 12 * fillMatrix (cNH p (dataL lx ly)) i j := by
  refine ⟨?_, ?_, ?_, ?_, ?_⟩
  · funext i j
    simp only [lawSection, modulus, nh, flatS_Gblock, flatL_Gblock]
    exact (integrateZ_const hr t _).2.1
  · funext i j
    simp only [lawSection, modulus, nh, flatS_Gblock, flatL_Gblock]
    exact (integrateZ_const hr t _).2.1
  · funext i
    simp only [lawSection, resultant, nh, flatS_Gblock, flatL_Gblock]
    exact (integrateZ_const hr t _).2.1
  · funext i
    simp only [lawSection, resultant, nh, flatS_Gblock, flatL_Gblock]
    exact (integrateZ_const hr t _).1
  · funext i j
    simp only [lawSection, modulus, nh, flatS_Gblock, flatL_Gblock]
    exact (integrateZ_const hr t _).2.2

theorem dataL_entries (hx : 0 < lx) (hy : 0 < ly) :
    (dataL lx ly).Gori = mk3 1 0 0 0 1 0 0 0 1 ∧ (dataL lx ly).gcov = mk3 (lx ^ 2) 0 0 0 (ly ^ 2) 0 0 0 1 ∧
    (dataL lx ly).gcon = mk3 (1 / lx ^ 2) 0 0 0 (1 / ly ^ 2) 0 0 0 1 ∧ (dataL lx ly).J0 = lx ^ 2 * ly ^ 2 := by
  have h1 := hx.ne'
  have h2 := hy.ne'
  refine ⟨?_, ?_, ?_, ?_⟩
  · simp [dataL, data, embed, inv2, det2]
  · simp [dataL, data, embed]
  · have e1 : ly ^ 2 / (lx ^ 2 * ly ^ 2) = 1 / lx ^ 2 := by field_simp
    have e2 : lx ^ 2 / (lx ^ 2 * ly ^ 2) = 1 / ly ^ 2 := by field_simp
    simp [dataL, data, embed, inv2, det2, e1, e2]
  · simp [dataL, data, det2]

end

end Verif.Plate
