import Verif.Lemmas.PlateMode
import Verif.Lemmas.Wirtinger
import Verif.Lemmas.Buckling
import Verif.Spec.Rayleigh
import Mathlib.MeasureTheory.Measure.OpenPos

/-! # Lemmas: energy of a plate -/

namespace Verif.Plate

open V3 Geometry Fields MeasureTheory Verif.Variation Verif.Balance Spec.Balloon Spec.Plate Verif.Balloon
open Verif.Integrate (Rule)

/-! ## Zero integrals -/

theorem rect_closure {a b : ℝ} (ha : 0 < a) (hb : 0 < b) : rect a b ⊆ closure (interior (rect a b)) := by
  unfold rect
  rw [interior_prod_eq, closure_prod_eq, closure_interior_Icc ha.ne, closure_interior_Icc hb.ne]

theorem zero_of_integral {a b : ℝ} (ha : 0 < a) (hb : 0 < b) {F : ℝ × ℝ → ℝ} (hF : Continuous F)
    (h0 : ∀ q, 0 ≤ F q) (h : ∫ q in rect a b, F q = 0) : ∀ q ∈ rect a b, F q = 0 := by
  have := (setIntegral_eq_zero_iff_of_nonneg_ae (Filter.Eventually.of_forall h0) (rect_integrable hF a b)).1 h
  exact Measure.eqOn_of_ae_eq this hF.continuousOn continuousOn_const (rect_closure ha hb)

/-! ## Membrane strains -/

/-- Strains of displacements in the plane. -/
noncomputable def eps (v : ℝ × ℝ → V3) (q : ℝ × ℝ) : Voigt :=
  vec3 (pd 0 (fun q => (v q).x) q) (pd 1 (fun q => (v q).y) q)
    (pd 1 (fun q => (v q).x) q + pd 0 (fun q => (v q).y) q)

theorem flat_Em (v : ℝ × ℝ → V3) (q : ℝ × ℝ) : EmDer flatS (jet v q) = eps v q := by
  funext k
  rcases fin3_cases k with rfl | rfl | rfl <;> simp [EmDer, eps, flatS, jet, vpd, dot]

/-- Membrane part. -/
noncomputable def memb (A : T3) (u v : ℝ × ℝ → V3) (q : ℝ × ℝ) : ℝ := dotV (rowMul (eps u q) A) (eps v q)

theorem form_full {S : Surf → Section} (D : Set (ℝ × ℝ)) (hB : (S flatS).B = fun _ _ => 0)
    (hC : (S flatS).C = fun _ _ => 0) (u v : ℝ × ℝ → V3) :
    stiffForm plate S D u v = ∫ q in D, (memb (S flatS).A u v q
      + bend (S flatS).D (fun q => (u q).z) (fun q => (v q).z) q) := by
  unfold stiffForm
  congr 1
  funext q
  rw [jet_plate, flat_measure, mul_one, System.integrand, if_pos rfl, linStiffness, hB, hC,
    flat_Em, flat_Em, flat_Ef, flat_Ef]
  simp [bend, memb, dotV, rowMul]

theorem memb_cont (A : T3) {u v : ℝ × ℝ → V3} (hu : SmoothOn 2 u Set.univ) (hv : SmoothOn 2 v Set.univ) :
    Continuous (memb A u v) := by
  have k : ∀ (i : Fin 2) {f : ℝ × ℝ → ℝ}, ContDiffOn ℝ (2 : ℕ) f Set.univ → Continuous (pd i f) := fun i f hf =>
    (pd_cont (n := 1) (contDiffOn_univ.1 hf) i).continuous
  have a1 := k 0 hu.1
  have a2 := k 1 hu.1
  have a3 := k 0 hu.2.1
  have a4 := k 1 hu.2.1
  have b1 := k 0 hv.1
  have b2 := k 1 hv.1
  have b3 := k 0 hv.2.1
  have b4 := k 1 hv.2.1
  unfold memb
  simp only [eps, dotV, rowMul, Fin.sum_univ_three, vec3_zero, vec3_one, vec3_two]
  fun_prop

theorem form_split {S : Surf → Section} (a b : ℝ) (hB : (S flatS).B = fun _ _ => 0)
    (hC : (S flatS).C = fun _ _ => 0) {u v : ℝ × ℝ → V3} (hu : SmoothOn 2 u Set.univ)
    (hv : SmoothOn 2 v Set.univ) :
    stiffForm plate S (rect a b) u v = (∫ q in rect a b, memb (S flatS).A u v q)
      + ∫ q in rect a b, bend (S flatS).D (fun q => (u q).z) (fun q => (v q).z) q := by
  rw [form_full _ hB hC]
  exact integral_add (rect_integrable (memb_cont _ hu hv) a b)
    (rect_integrable (bend_cont _ (contDiffOn_univ.1 hu.2.2) (contDiffOn_univ.1 hv.2.2)) a b)

section
variable {a b : ℝ} {f g : ℝ × ℝ → ℝ}

/-- Exchange of derivatives. -/
theorem exchange (ha : 0 ≤ a) (hb : 0 ≤ b) (hf : ContDiff ℝ 2 f) (hg : ContDiff ℝ 2 g)
    (f0 : ∀ q, Edge a b q → f q = 0) :
    ∫ q in rect a b, pd 1 f q * pd 0 g q = ∫ q in rect a b, pd 0 f q * pd 1 g q := by
  have kg := pd_cont (n := 1) hg 0
  have kg1 := pd_cont (n := 1) hg 1
  have cf := hf.continuous
  have c0 : Continuous (pd 0 f) := (pd_cont (n := 1) hf 0).continuous
  have c1 : Continuous (pd 1 f) := (pd_cont (n := 1) hf 1).continuous
  have cg0 := kg.continuous
  have cg1 := kg1.continuous
  have g01 : Continuous (pd 1 (pd 0 g)) := (pd_cont (n := 0) kg 1).continuous
  have g10 : Continuous (pd 0 (pd 1 g)) := (pd_cont (n := 0) kg1 0).continuous
  have comm : ∀ q, pd 0 (pd 1 g) q = pd 1 (pd 0 g) q := fun q =>
    pd_comm (hg.contDiffOn (s := Set.univ)) isOpen_univ (Set.mem_univ q)
  have df := hf.differentiable (by norm_num)
  have e1 : ∫ q in rect a b, pd 1 f q * pd 0 g q = -∫ q in rect a b, pd 1 (pd 0 g) q * f q := by
    rw [rect_xy (by fun_prop) ha hb, rect_xy (by fun_prop) ha hb, ← intervalIntegral.integral_neg]
    congr 1
    funext x
    have := parts (a := b) (g := fun y => pd 0 g (x, y)) (f := fun y => f (x, y))
      (fun y => line_y (kg.differentiable (by norm_num)) x y) (fun y => line_y df x y) (by fun_prop)
      (by fun_prop) (by rw [f0 (x, 0) (by simp [Edge]), mul_zero]) (by rw [f0 (x, b) (by simp [Edge]), mul_zero])
    rw [← this]
    congr 1
    funext y
    ring
  have e2 : ∫ q in rect a b, pd 0 f q * pd 1 g q = -∫ q in rect a b, pd 1 (pd 0 g) q * f q := by
    rw [rect_yx (by fun_prop) ha hb, rect_yx (by fun_prop) ha hb, ← intervalIntegral.integral_neg]
    congr 1
    funext y
    have := parts (a := a) (g := fun x => pd 1 g (x, y)) (f := fun x => f (x, y))
      (fun x => line_x (kg1.differentiable (by norm_num)) x y) (fun x => line_x df x y) (by fun_prop)
      (by fun_prop) (by rw [f0 (0, y) (by simp [Edge]), mul_zero]) (by rw [f0 (a, y) (by simp [Edge]), mul_zero])
    simp only [comm] at this
    rw [← this]
    congr 1
    funext x
    ring
  rw [e1, e2]

/-- Lower bound of the bending energy. -/
theorem bend_bound {D : T3} (hD : Uncoupled D) (h0 : 0 ≤ D 0 0) (h1 : 0 ≤ D 1 1)
    (h2 : 0 ≤ D 0 1 + D 1 0 + 4 * D 2 2) (ha : 0 < a) (hb : 0 < b) (hf : ContDiff ℝ 2 f)
    (f0 : ∀ q, Edge a b q → f q = 0) :
    navier D a b 1 1 * ∫ q in rect a b, f q ^ 2 ≤ ∫ q in rect a b, bend D f f q := by
  have f00 : Continuous (pd 0 (pd 0 f)) := (pd_cont (n := 0) (pd_cont (n := 1) hf 0) 0).continuous
  have f11 : Continuous (pd 1 (pd 1 f)) := (pd_cont (n := 0) (pd_cont (n := 1) hf 1) 1).continuous
  have f01 : Continuous (pd 1 (pd 0 f)) := (pd_cont (n := 0) (pd_cont (n := 1) hf 0) 1).continuous
  have i0 : IntegrableOn (fun q => D 0 0 * pd 0 (pd 0 f) q ^ 2) (rect a b) := rect_integrable (by fun_prop) a b
  have i1 : IntegrableOn (fun q => D 1 1 * pd 1 (pd 1 f) q ^ 2) (rect a b) := rect_integrable (by fun_prop) a b
  have i2 : IntegrableOn (fun q => (D 0 1 + D 1 0) * (pd 0 (pd 0 f) q * pd 1 (pd 1 f) q)) (rect a b) :=
    rect_integrable (by fun_prop) a b
  have i3 : IntegrableOn (fun q => 4 * D 2 2 * pd 1 (pd 0 f) q ^ 2) (rect a b) :=
    rect_integrable (by fun_prop) a b
  have i01 : IntegrableOn (fun q => D 0 0 * pd 0 (pd 0 f) q ^ 2 + D 1 1 * pd 1 (pd 1 f) q ^ 2) (rect a b) :=
    i0.add i1
  have i23 : IntegrableOn (fun q => (D 0 1 + D 1 0) * (pd 0 (pd 0 f) q * pd 1 (pd 1 f) q)
    + 4 * D 2 2 * pd 1 (pd 0 f) q ^ 2) (rect a b) := i2.add i3
  obtain ⟨z1, z2, z3, z4⟩ := hD
  have e : ∀ q, bend D f f q = (D 0 0 * pd 0 (pd 0 f) q ^ 2 + D 1 1 * pd 1 (pd 1 f) q ^ 2)
      + ((D 0 1 + D 1 0) * (pd 0 (pd 0 f) q * pd 1 (pd 1 f) q) + 4 * D 2 2 * pd 1 (pd 0 f) q ^ 2) := by
    intro q
    simp only [bend, dotV, rowMul, kap, Fin.sum_univ_three, vec3_zero, vec3_one, vec3_two, z1, z2, z3, z4]
    ring
  simp only [e]
  rw [integral_add i01 i23, integral_add i0 i1, integral_add i2 i3, integral_const_mul, integral_const_mul,
    integral_const_mul, integral_const_mul, gauss ha.le hb.le hf hf f0 f0]
  have k0 := bound_xx (b := b) ha hb.le hf (fun y => f0 _ (Or.inl rfl)) (fun y => f0 _ (Or.inr (Or.inl rfl)))
  have k1 := bound_yy (a := a) ha.le hb hf (fun y => f0 _ (Or.inr (Or.inr (Or.inl rfl))))
    (fun y => f0 _ (Or.inr (Or.inr (Or.inr rfl))))
  have k2 := bound_xy ha hb hf f0
  have sq : ∫ q in rect a b, pd 1 (pd 0 f) q * pd 1 (pd 0 f) q = ∫ q in rect a b, pd 1 (pd 0 f) q ^ 2 := by
    congr 1; funext q; ring
  rw [sq]
  simp only [navier, Nat.cast_one, one_mul]
  nlinarith [mul_le_mul_of_nonneg_left k0 h0, mul_le_mul_of_nonneg_left k1 h1, mul_le_mul_of_nonneg_left k2 h2]

end

/-! ## Isotropic plates -/

section
variable {a b E ν t : ℝ}

/-- Lower bound of the membrane energy. -/
theorem memb_bound {A : T3} (hE : 0 < E) (h1 : -1 < ν) (h2 : ν < 1) (ht : 0 < t)
    (hA : ∀ i j, A i j = t * iso E ν i j) (ha : 0 < a) (hb : 0 < b) {u : ℝ × ℝ → V3}
    (hu : Pinned a b u) :
    t * shear E ν * wave2 a b * ∫ q in rect a b, ((u q).x ^ 2 + (u q).y ^ 2)
      ≤ ∫ q in rect a b, memb A u u q := by
  have hx : ContDiff ℝ 2 fun q => (u q).x := contDiffOn_univ.1 hu.1.1
  have hy : ContDiff ℝ 2 fun q => (u q).y := contDiffOn_univ.1 hu.1.2.1
  have x0 : ∀ q, Edge a b q → (u q).x = 0 := fun q hq => by rw [hu.2 q hq]; rfl
  have y0 : ∀ q, Edge a b q → (u q).y = 0 := fun q hq => by rw [hu.2 q hq]; rfl
  generalize hX : (fun q => (u q).x) = X at *
  generalize hY : (fun q => (u q).y) = Y at *
  have eX : ∀ q, (u q).x = X q := fun q => by rw [← hX]
  have eY : ∀ q, (u q).y = Y q := fun q => by rw [← hY]
  simp only [eX, eY] at x0 y0 ⊢
  have cX := hx.continuous
  have cY := hy.continuous
  have X0 : Continuous (pd 0 X) := (pd_cont (n := 1) hx 0).continuous
  have X1 : Continuous (pd 1 X) := (pd_cont (n := 1) hx 1).continuous
  have Y0 : Continuous (pd 0 Y) := (pd_cont (n := 1) hy 0).continuous
  have Y1 : Continuous (pd 1 Y) := (pd_cont (n := 1) hy 1).continuous
  set G := shear E ν with hG
  set c := E / (1 - ν ^ 2) with hc
  have n1 : 1 - ν ≠ 0 := by linarith
  have n2 : 1 + ν ≠ 0 := by linarith
  have cG : c * (1 - ν) / 2 = G := by
    rw [hG, hc, shear, show 1 - ν ^ 2 = (1 - ν) * (1 + ν) by ring]; field_simp
  have e : ∀ q, memb A u u q = t * G * (pd 0 X q ^ 2 + pd 1 X q ^ 2 + (pd 0 Y q ^ 2 + pd 1 Y q ^ 2))
      + (t * (c * (1 + ν) / 2) * (pd 0 X q + pd 1 Y q) ^ 2
        + t * (c * (1 - ν)) * (pd 1 X q * pd 0 Y q - pd 0 X q * pd 1 Y q)) := by
    intro q
    simp only [memb, eps, hX, hY, dotV, rowMul, Fin.sum_univ_three, vec3_zero, vec3_one, vec3_two, hA, iso, mk3_zero,
      mk3_one, mk3_two, ← hc, ← cG]
    ring
  have i1 : IntegrableOn (fun q => t * G * (pd 0 X q ^ 2 + pd 1 X q ^ 2 + (pd 0 Y q ^ 2 + pd 1 Y q ^ 2)))
      (rect a b) := rect_integrable (by fun_prop) a b
  have i2 : IntegrableOn (fun q => t * (c * (1 + ν) / 2) * (pd 0 X q + pd 1 Y q) ^ 2) (rect a b) :=
    rect_integrable (by fun_prop) a b
  have i3 : IntegrableOn (fun q => t * (c * (1 - ν)) * (pd 1 X q * pd 0 Y q - pd 0 X q * pd 1 Y q)) (rect a b) :=
    rect_integrable (by fun_prop) a b
  have i4 : IntegrableOn (fun q => pd 1 X q * pd 0 Y q) (rect a b) := rect_integrable (by fun_prop) a b
  have i5 : IntegrableOn (fun q => pd 0 X q * pd 1 Y q) (rect a b) := rect_integrable (by fun_prop) a b
  have j1 : IntegrableOn (fun q => pd 0 X q ^ 2) (rect a b) := rect_integrable (by fun_prop) a b
  have j2 : IntegrableOn (fun q => pd 1 X q ^ 2) (rect a b) := rect_integrable (by fun_prop) a b
  have j3 : IntegrableOn (fun q => pd 0 Y q ^ 2) (rect a b) := rect_integrable (by fun_prop) a b
  have j4 : IntegrableOn (fun q => pd 1 Y q ^ 2) (rect a b) := rect_integrable (by fun_prop) a b
  have j12 : IntegrableOn (fun q => pd 0 X q ^ 2 + pd 1 X q ^ 2) (rect a b) := j1.add j2
  have j34 : IntegrableOn (fun q => pd 0 Y q ^ 2 + pd 1 Y q ^ 2) (rect a b) := j3.add j4
  have i23 : IntegrableOn (fun q => t * (c * (1 + ν) / 2) * (pd 0 X q + pd 1 Y q) ^ 2
    + t * (c * (1 - ν)) * (pd 1 X q * pd 0 Y q - pd 0 X q * pd 1 Y q)) (rect a b) := i2.add i3
  have k1 : IntegrableOn (fun q => X q ^ 2) (rect a b) := rect_integrable (by fun_prop) a b
  have k2 : IntegrableOn (fun q => Y q ^ 2) (rect a b) := rect_integrable (by fun_prop) a b
  simp only [e]
  rw [integral_add i1 i23, integral_add i2 i3, integral_const_mul, integral_const_mul, integral_const_mul,
    integral_sub i4 i5, exchange ha.le hb.le hx hy x0, sub_self, mul_zero, add_zero, integral_add j12 j34,
    integral_add j1 j2, integral_add j3 j4, integral_add k1 k2]
  have b1 := bound_x (b := b) ha hb.le (hx.of_le (by norm_num)) (fun y => x0 _ (Or.inl rfl)) (fun y => x0 _ (Or.inr (Or.inl rfl)))
  have b2 := bound_y (a := a) ha.le hb (hx.of_le (by norm_num)) (fun y => x0 _ (Or.inr (Or.inr (Or.inl rfl))))
    (fun y => x0 _ (Or.inr (Or.inr (Or.inr rfl))))
  have b3 := bound_x (b := b) ha hb.le (hy.of_le (by norm_num)) (fun y => y0 _ (Or.inl rfl)) (fun y => y0 _ (Or.inr (Or.inl rfl)))
  have b4 := bound_y (a := a) ha.le hb (hy.of_le (by norm_num)) (fun y => y0 _ (Or.inr (Or.inr (Or.inl rfl))))
    (fun y => y0 _ (Or.inr (Or.inr (Or.inr rfl))))
  have nn : 0 ≤ ∫ q in rect a b, (pd 0 X q + pd 1 Y q) ^ 2 := integral_nonneg fun q => sq_nonneg _
  have cp : 0 < c := by rw [hc]; exact div_pos hE (by nlinarith)
  have gp : 0 ≤ t * G := by rw [← cG]; have : 0 < 1 - ν := by linarith
                            positivity
  have dp : 0 ≤ t * (c * (1 + ν) / 2) := by have : 0 < 1 + ν := by linarith
                                            positivity
  have s := mul_le_mul_of_nonneg_left (add_le_add (add_le_add b1 b2) (add_le_add b3 b4)) gp
  have s2 := mul_nonneg dp nn
  unfold wave2
  nlinarith

theorem linear_flat (r : Rule) (hE : 0 < E) (h1 : -1 < ν) (h2 : ν < 1 / 2) :
    (System.linearModuli r t E ν flatS).B = (fun _ _ => 0) ∧ (System.linearModuli r t E ν flatS).C = (fun _ _ => 0) ∧
    (∀ i j, (System.linearModuli r t E ν flatS).A i j = t * iso E ν i j) ∧
    ∀ i j, (System.linearModuli r t E ν flatS).D i j = t ^ 3 / 12 * iso E ν i j := by
  refine ⟨?_, ?_, ?_, ?_⟩
  · funext i j; exact System.linear_B r t E ν flatS i j
  · funext i j; exact System.linear_C r t E ν flatS i j
  · intro i j
    rw [System.linear_A, flat_linear hE.ne' (by linarith) (by linarith) (by linarith)]
  · intro i j
    rw [System.linear_D, flat_linear hE.ne' (by linarith) (by linarith) (by linarith)]

theorem iso_uncoupled {D : T3} (hD : ∀ i j, D i j = t ^ 3 / 12 * iso E ν i j) : Uncoupled D := by
  refine ⟨?_, ?_, ?_, ?_⟩ <;> rw [hD] <;> simp [iso]

theorem navier_flex {D : T3} (h1 : -1 < ν) (h2 : ν < 1) (hD : ∀ i j, D i j = t ^ 3 / 12 * iso E ν i j) (m n : ℕ) :
    navier D a b m n = flexural E ν t * ((m * Real.pi / a) ^ 2 + (n * Real.pi / b) ^ 2) ^ 2 := by
  have e : 1 - ν ^ 2 ≠ 0 := by nlinarith
  simp only [navier, flexural, hD]
  simp only [iso, mk3_zero, mk3_one, mk3_two, vec3_zero, vec3_one, vec3_two]
  generalize m * Real.pi / a = α
  generalize n * Real.pi / b = β
  field_simp
  ring

/-- Energy of a pinned isotropic plate. -/
theorem coercive (r : Rule) (hE : 0 < E) (h1 : -1 < ν) (h2 : ν < 1 / 2) (ht : 0 < t) (ha : 0 < a)
    (hb : 0 < b) {u : ℝ × ℝ → V3} (hu : Pinned a b u) :
    t * shear E ν * wave2 a b * (∫ q in rect a b, ((u q).x ^ 2 + (u q).y ^ 2))
        + flexural E ν t * wave2 a b ^ 2 * ∫ q in rect a b, (u q).z ^ 2
      ≤ stiffForm plate (System.linearModuli r t E ν) (rect a b) u u := by
  obtain ⟨hB, hC, hA, hD⟩ := linear_flat (t := t) r hE h1 h2
  rw [form_split a b hB hC hu.1 hu.1]
  have c : 0 < E / (1 - ν ^ 2) := div_pos hE (by nlinarith)
  have nv := navier_flex (a := a) (b := b) h1 (by linarith) hD 1 1
  have k := bend_bound (iso_uncoupled hD) (by rw [hD]; simp only [iso, mk3_zero, vec3_zero]; positivity)
    (by rw [hD]; simp only [iso, mk3_one, vec3_one]; positivity)
    (by
      simp only [hD, iso, mk3_zero, mk3_one, mk3_two, vec3_zero, vec3_one, vec3_two]
      have : t ^ 3 / 12 * (ν * (E / (1 - ν ^ 2))) + t ^ 3 / 12 * (ν * (E / (1 - ν ^ 2)))
        + 4 * (t ^ 3 / 12 * ((E / (1 - ν ^ 2) - ν * (E / (1 - ν ^ 2))) / 2)) = t ^ 3 / 6 * (E / (1 - ν ^ 2)) := by ring
      rw [this]; positivity)
    ha hb (contDiffOn_univ.1 hu.1.2.2) hu.supported.2
  rw [nv, Nat.cast_one, one_mul] at k
  exact add_le_add (memb_bound hE h1 (by linarith) ht hA ha hb hu) k

/-- The energy vanishes only without displacement. -/
theorem energy_zero (r : Rule) (hE : 0 < E) (h1 : -1 < ν) (h2 : ν < 1 / 2) (ht : 0 < t) (ha : 0 < a)
    (hb : 0 < b) {u : ℝ × ℝ → V3} (hu : Pinned a b u)
    (h : stiffForm plate (System.linearModuli r t E ν) (rect a b) u u ≤ 0) : ∀ q ∈ rect a b, u q = 0 := by
  have k := coercive r hE h1 h2 ht ha hb hu
  have g : 0 < shear E ν := by unfold shear; exact div_pos hE (by linarith)
  have f : 0 < flexural E ν t := by unfold flexural; exact div_pos (by positivity) (by nlinarith)
  have w : 0 < wave2 a b := by have := Real.pi_pos; unfold wave2; positivity
  have hx : Continuous fun q => (u q).x := (contDiffOn_univ.1 hu.1.1).continuous
  have hy : Continuous fun q => (u q).y := (contDiffOn_univ.1 hu.1.2.1).continuous
  have hz : Continuous fun q => (u q).z := (contDiffOn_univ.1 hu.1.2.2).continuous
  have n1 : 0 ≤ ∫ q in rect a b, ((u q).x ^ 2 + (u q).y ^ 2) := integral_nonneg fun q => by positivity
  have n2 : 0 ≤ ∫ q in rect a b, (u q).z ^ 2 := integral_nonneg fun q => by positivity
  have p1 : 0 < t * shear E ν * wave2 a b := by positivity
  have p2 : 0 < flexural E ν t * wave2 a b ^ 2 := by positivity
  have m1 := mul_nonneg p1.le n1
  have m2 := mul_nonneg p2.le n2
  have z1 := (mul_eq_zero.1 (by linarith : t * shear E ν * wave2 a b
    * (∫ q in rect a b, ((u q).x ^ 2 + (u q).y ^ 2)) = 0)).resolve_left p1.ne'
  have z2 := (mul_eq_zero.1 (by linarith : flexural E ν t * wave2 a b ^ 2
    * (∫ q in rect a b, (u q).z ^ 2) = 0)).resolve_left p2.ne'
  intro q hq
  have e1 := zero_of_integral ha hb (F := fun q => (u q).x ^ 2 + (u q).y ^ 2) (by fun_prop)
    (fun q => by positivity) z1 q hq
  have e2 := zero_of_integral ha hb (F := fun q => (u q).z ^ 2) (by fun_prop) (fun q => by positivity) z2 q hq
  ext
  · exact pow_eq_zero_iff (two_ne_zero) |>.1 (by nlinarith [sq_nonneg (u q).x, sq_nonneg (u q).y] : (u q).x ^ 2 = 0)
  · exact pow_eq_zero_iff (two_ne_zero) |>.1 (by nlinarith [sq_nonneg (u q).x, sq_nonneg (u q).y] : (u q).y ^ 2 = 0)
  · exact pow_eq_zero_iff (two_ne_zero) |>.1 e2

theorem linear_symm (r : Rule) :
    (∀ i j, (System.linearModuli r t E ν flatS).A i j = (System.linearModuli r t E ν flatS).A j i) ∧
    ∀ i j, (System.linearModuli r t E ν flatS).D i j = (System.linearModuli r t E ν flatS).D j i := by
  constructor <;> intro i j
  · rw [System.linear_A, System.linear_A, Linear.C18_matrix_symmetric]
  · rw [System.linear_D, System.linear_D, Linear.C18_matrix_symmetric]

end

/-! ## Combinations -/

section
variable {a b : ℝ} {N : ℕ} {φ : Fin N → ℝ × ℝ → V3}

theorem comb_pinned (hφ : ∀ i, Pinned a b (φ i)) (c : Fin N → ℝ) : Pinned a b (comb φ c) := by
  refine ⟨⟨?_, ?_, ?_⟩, fun q hq => ?_⟩
  · show ContDiffOn ℝ (2 : ℕ) (fun q => ∑ i, c i * (φ i q).x) Set.univ
    exact ContDiffOn.sum fun i _ => contDiffOn_const.mul (hφ i).1.1
  · show ContDiffOn ℝ (2 : ℕ) (fun q => ∑ i, c i * (φ i q).y) Set.univ
    exact ContDiffOn.sum fun i _ => contDiffOn_const.mul (hφ i).1.2.1
  · show ContDiffOn ℝ (2 : ℕ) (fun q => ∑ i, c i * (φ i q).z) Set.univ
    exact ContDiffOn.sum fun i _ => contDiffOn_const.mul (hφ i).1.2.2
  · simp only [comb, (hφ _).2 q hq, zero_x, zero_y, zero_z, mul_zero, Finset.sum_const_zero]; rfl

theorem pd_comb (i : Fin 2) {f : Fin N → ℝ × ℝ → ℝ} (hf : ∀ j, Differentiable ℝ (f j)) (c : Fin N → ℝ) :
    pd i (fun q => ∑ j, c j * f j q) = fun q => ∑ j, c j * pd i (f j) q := by
  funext q
  have h : HasFDerivAt (fun q => ∑ j, c j * f j q) (∑ j, c j • fderiv ℝ (f j) q) q :=
    HasFDerivAt.fun_sum fun j _ => ((hf j) q).hasFDerivAt.const_mul (c j)
  rw [pd_eq, h.fderiv]
  simp [pd_eq]

theorem eps_comb (hφ : ∀ i, SmoothOn 2 (φ i) Set.univ) (c : Fin N → ℝ) (q : ℝ × ℝ) :
    eps (comb φ c) q = fun k => ∑ j, c j * eps (φ j) q k := by
  have dx : ∀ j, Differentiable ℝ fun q => (φ j q).x := fun j =>
    (contDiffOn_univ.1 (hφ j).1).differentiable (by norm_num)
  have dy : ∀ j, Differentiable ℝ fun q => (φ j q).y := fun j =>
    (contDiffOn_univ.1 (hφ j).2.1).differentiable (by norm_num)
  funext k
  rcases fin3_cases k with rfl | rfl | rfl <;>
    simp only [eps, comb, pd_comb _ dx, pd_comb _ dy, vec3_zero, vec3_one, vec3_two, mul_add,
      Finset.sum_add_distrib]

theorem kap_comb (hφ : ∀ i, SmoothOn 2 (φ i) Set.univ) (c : Fin N → ℝ) (q : ℝ × ℝ) :
    kap (fun q => (comb φ c q).z) q = fun k => ∑ j, c j * kap (fun q => (φ j q).z) q k := by
  have hz : ∀ j, ContDiff ℝ 2 fun q => (φ j q).z := fun j => contDiffOn_univ.1 (hφ j).2.2
  have dz : ∀ j, Differentiable ℝ fun q => (φ j q).z := fun j => (hz j).differentiable (by norm_num)
  have d0 : ∀ j, Differentiable ℝ (pd 0 fun q => (φ j q).z) := fun j =>
    (pd_cont (n := 1) (hz j) 0).differentiable (by norm_num)
  have d1 : ∀ j, Differentiable ℝ (pd 1 fun q => (φ j q).z) := fun j =>
    (pd_cont (n := 1) (hz j) 1).differentiable (by norm_num)
  funext k
  rcases fin3_cases k with rfl | rfl | rfl <;>
    simp only [kap, comb, pd_comb _ dz, pd_comb _ d0, pd_comb _ d1, vec3_zero, vec3_one, vec3_two, mul_neg,
      Finset.sum_neg_distrib, Finset.mul_sum]
  rw [neg_inj]
  exact Finset.sum_congr rfl fun j _ => by ring

theorem row_comb (c : Fin N → ℝ) (e : Fin N → Voigt) (A : T3) (w : Voigt) :
    dotV (rowMul (fun k => ∑ j, c j * e j k) A) w = ∑ j, c j * dotV (rowMul (e j) A) w := by
  simp only [dotV, rowMul, Fin.sum_univ_three, Finset.sum_mul, ← Finset.sum_add_distrib]
  exact Finset.sum_congr rfl fun j _ => by ring

theorem form_comb {S : Surf → Section} (hB : (S flatS).B = fun _ _ => 0)
    (hC : (S flatS).C = fun _ _ => 0) (hφ : ∀ i, SmoothOn 2 (φ i) Set.univ) (c : Fin N → ℝ) {v : ℝ × ℝ → V3}
    (hv : SmoothOn 2 v Set.univ) : stiffForm plate S (rect a b) (comb φ c) v
      = ∑ j, c j * stiffForm plate S (rect a b) (φ j) v := by
  simp only [form_full _ hB hC, memb, bend, eps_comb hφ, kap_comb hφ, row_comb, ← Finset.sum_add_distrib, ← mul_add]
  rw [integral_finsetSum]
  · simp only [integral_const_mul]
  · intro j _
    exact (rect_integrable ((memb_cont _ (hφ j) hv).add
      (bend_cont _ (contDiffOn_univ.1 (hφ j).2.2) (contDiffOn_univ.1 hv.2.2))) a b).const_mul (c j)

theorem dot_cont {u v : ℝ × ℝ → V3} (hu : SmoothOn 2 u Set.univ) (hv : SmoothOn 0 v Set.univ) :
    Continuous fun q => dot (u q) (v q) := by
  have a1 := (contDiffOn_univ.1 hu.1).continuous
  have a2 := (contDiffOn_univ.1 hu.2.1).continuous
  have a3 := (contDiffOn_univ.1 hu.2.2).continuous
  have b1 := (contDiffOn_univ.1 hv.1).continuous
  have b2 := (contDiffOn_univ.1 hv.2.1).continuous
  have b3 := (contDiffOn_univ.1 hv.2.2).continuous
  unfold dot
  fun_prop

theorem dot_comb (c : Fin N → ℝ) (q : ℝ × ℝ) (w : V3) : dot (comb φ c q) w = ∑ j, c j * dot (φ j q) w := by
  simp only [comb, dot, Finset.sum_mul, ← Finset.sum_add_distrib]
  exact Finset.sum_congr rfl fun j _ => by ring

theorem load_comb {f : ℝ × ℝ → V3} (hf : SmoothOn 0 f Set.univ) (hφ : ∀ i, SmoothOn 2 (φ i) Set.univ)
    (c : Fin N → ℝ) : loadForm plate f (rect a b) (comb φ c) = ∑ j, c j * loadForm plate f (rect a b) (φ j) := by
  simp only [load_eq, dot_comb]
  rw [integral_finsetSum]
  · simp only [integral_const_mul]
  · intro j _
    exact (rect_integrable (dot_cont (hφ j) hf) a b).const_mul (c j)

theorem mass_comb {m : ℝ} (hφ : ∀ i, SmoothOn 2 (φ i) Set.univ) (c : Fin N → ℝ) {v : ℝ × ℝ → V3}
    (hv : SmoothOn 0 v Set.univ) : massForm plate m (rect a b) (comb φ c) v
      = ∑ j, c j * massForm plate m (rect a b) (φ j) v := by
  simp only [mass_eq, integral_const_mul, dot_comb]
  rw [integral_finsetSum]
  · simp only [integral_const_mul, Finset.mul_sum]
    exact Finset.sum_congr rfl fun j _ => by ring
  · intro j _
    exact (rect_integrable (dot_cont (hφ j) hv) a b).const_mul (c j)

theorem form_symm {S : Surf → Section} (D : Set (ℝ × ℝ)) (hB : (S flatS).B = fun _ _ => 0)
    (hC : (S flatS).C = fun _ _ => 0) (hA : ∀ i j, (S flatS).A i j = (S flatS).A j i)
    (hD : ∀ i j, (S flatS).D i j = (S flatS).D j i) (u v : ℝ × ℝ → V3) :
    stiffForm plate S D u v = stiffForm plate S D v u := by
  have k : ∀ (A : T3) (e f : Voigt), (∀ i j, A i j = A j i) → dotV (rowMul e A) f = dotV (rowMul f A) e := by
    intro A e f h
    simp only [dotV, rowMul, Fin.sum_univ_three, h 1 0, h 2 0, h 2 1]
    ring
  rw [form_full _ hB hC, form_full _ hB hC]
  simp only [memb, bend, k _ (eps u _) _ hA, k _ (kap (fun q => (u q).z) _) _ hD]

theorem sub_comb (u w : ℝ × ℝ → V3) : (fun q => u q - w q) = comb ![u, w] ![1, -1] := by
  funext q
  ext <;> simp [comb, Fin.sum_univ_two] <;> ring

end

/-! ## For the unit test and examples -/

theorem freq2_omega {E ν ρ t : ℝ} (hE : 0 < E) (h1 : -1 < ν) (h2 : ν < 1) (hρ : 0 < ρ) (ht : 0 < t) (m n : ℕ) :
    freq2 E ν ρ t 1 1 m n = omega E ν ρ t m n ^ 2 := by
  have e : 0 < 1 - ν ^ 2 := by nlinarith
  have s : √(E * t ^ 3 / (12 * (1 - ν ^ 2)) / (ρ * t)) ^ 2 = E * t ^ 3 / (12 * (1 - ν ^ 2)) / (ρ * t) :=
    Real.sq_sqrt (by positivity)
  simp only [omega, freq2, flexural, mul_pow, s]
  ring

theorem int_sincos : ∫ x in (0 : ℝ)..1, Real.sin (Real.pi * x) * Real.cos (Real.pi * x) = 0 := by
  have hp := Real.pi_ne_zero
  have d : ∀ x ∈ Set.uIcc (0 : ℝ) 1, HasDerivAt (fun x => Real.sin (Real.pi * x) ^ 2 / (2 * Real.pi))
      (Real.sin (Real.pi * x) * Real.cos (Real.pi * x)) x := by
    intro x _
    have := ((sin_deriv Real.pi x).fun_pow 2).div_const (2 * Real.pi)
    refine this.congr_deriv ?_
    field_simp
    norm_num
    ring
  rw [intervalIntegral.integral_eq_sub_of_hasDerivAt d (Continuous.intervalIntegrable (by fun_prop) _ _)]
  simp

/-- A basis of two functions: a deflection and a displacement in the plane. -/
noncomputable def twoFields (i : Fin 2) (q : ℝ × ℝ) : V3 :=
  if i = 0 then mode 1 1 1 1 q else ⟨(mode 1 1 1 1 q).z, 0, 0⟩

theorem twoFields_pinned (i : Fin 2) : Pinned 1 1 (twoFields i) := by
  rcases fin2_cases i with rfl | rfl
  · exact mode_pinned one_pos one_pos 1 1
  · have h := mode_pinned (a := 1) (b := 1) one_pos one_pos 1 1
    refine ⟨⟨h.1.2.2, contDiffOn_const, contDiffOn_const⟩, fun q hq => ?_⟩
    have := h.2 q hq
    show (⟨(mode 1 1 1 1 q).z, 0, 0⟩ : V3) = 0
    rw [this]; rfl

theorem twoFields_independent : Independent 1 1 twoFields := by
  intro c hc
  obtain ⟨q, hq, hne⟩ := mode_nonzero (a := 1) (b := 1) one_pos one_pos (m := 1) (n := 1) le_rfl le_rfl
  have h := hc q hq
  have hz := congrArg V3.z h
  have hx := congrArg V3.x h
  have m0 : (mode 1 1 1 1 q).x = 0 := rfl
  simp only [comb, twoFields, Fin.sum_univ_two, if_true, one_ne_zero, if_false, zero_x, zero_z, mul_zero, add_zero,
    m0, zero_add] at hx hz
  funext i
  rcases fin2_cases i with rfl | rfl
  · exact (mul_eq_zero.1 hz).resolve_right hne
  · exact (mul_eq_zero.1 hx).resolve_right hne

end Verif.Plate
