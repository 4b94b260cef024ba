import Verif.Spec.PatchTest
import Verif.Model.PatchTest
import Verif.Lemmas.Reparam
import Verif.Lemmas.CylinderRing

/-! # Lemmas: the patch test -/

namespace Verif.PatchTest

open V3 Geometry Fields MeasureTheory Verif.Variation Verif.Balance Verif.Hyper
open Spec.Balloon Spec.Plate Spec.PatchTest Spec.Reparam Verif.Balloon Verif.Plate Verif.Reparam
open Verif.Integrate (Rule)

/-! ## Derivatives -/

/-- Derivatives of the deformation of the unit square. -/
def fS (f : Fin 2 → V3) : Surf := ⟨f, 0, 0, 0⟩

/-- Matrix of the parametrisation. -/
noncomputable def par (X : ℝ × ℝ → V3) (q : ℝ × ℝ) : T2 := fun i j =>
  if j = 0 then (vpd i X q).x else (vpd i X q).y

/-- Plane components of a vector. -/
def xy (w : V3) : Fin 2 → ℝ := fun j => if j = 0 then w.x else w.y

theorem vpd_affine {α β : ℝ × ℝ → ℝ} (ha : Differentiable ℝ α) (hb : Differentiable ℝ β) (c f0 f1 : V3) (i : Fin 2) :
    vpd i (fun q => c + (α q • f0 + β q • f1)) = fun q => 0 + (pd i α q • f0 + pd i β q • f1) := by
  have key : ∀ (q : ℝ × ℝ) (c x y : ℝ), pd i (fun q => c + (α q * x + β q * y)) q = pd i α q * x + pd i β q * y := by
    intro q c x y
    have h1 : DifferentiableAt ℝ (fun q => α q * x) q := (ha q).mul_const x
    have h2 : DifferentiableAt ℝ (fun q => β q * y) q := (hb q).mul_const y
    rw [pd_add (differentiableAt_const c) (h1.fun_add h2), pd_const, pd_add h1 h2,
      pd_mul (ha q) (differentiableAt_const x), pd_mul (hb q) (differentiableAt_const y), pd_const, pd_const]
    ring
  funext q
  ext
  · simpa [vpd, mul_comm] using key q c.x f0.x f1.x
  · simpa [vpd, mul_comm] using key q c.y f0.y f1.y
  · simpa [vpd, mul_comm] using key q c.z f0.z f1.z

section
variable {a b : ℝ} {X : ℝ × ℝ → V3}

theorem cx (h : SmoothOn 2 X Set.univ) : ContDiff ℝ 2 fun q => (X q).x := contDiffOn_univ.1 h.1

theorem cy (h : SmoothOn 2 X Set.univ) : ContDiff ℝ 2 fun q => (X q).y := contDiffOn_univ.1 h.2.1

theorem jet_affine (h : SmoothOn 2 X Set.univ) (f : Fin 2 → V3) (c : V3) (q : ℝ × ℝ) :
    jet (affine f c X) q = Linear.reparam (par X q) (xy (vpd 0 (vpd 0 X) q)) (xy (vpd 1 (vpd 1 X) q))
      (xy (vpd 1 (vpd 0 X) q)) (fS f) := by
  have h1 : ∀ i, vpd i (affine f c X) = fun q => 0 + (pd i (fun q => (X q).x) q • f 0
      + pd i (fun q => (X q).y) q • f 1) := fun i =>
    vpd_affine ((cx h).differentiable (by norm_num)) ((cy h).differentiable (by norm_num)) c (f 0) (f 1) i
  have h2 : ∀ i j, vpd j (vpd i (affine f c X)) = fun q => 0 + (pd j (pd i fun q => (X q).x) q • f 0
      + pd j (pd i fun q => (X q).y) q • f 1) := by
    intro i j
    rw [h1]
    exact vpd_affine ((pd_cont (n := 1) (cx h) i).differentiable (by norm_num))
      ((pd_cont (n := 1) (cy h) i).differentiable (by norm_num)) 0 (f 0) (f 1) j
  unfold jet Linear.reparam
  simp only [h2]
  congr 1
  · funext i
    rw [h1]
    ext <;> simp [par, fS, vpd]
  all_goals ext <;> simp [xy, vpd, fS]

theorem affine_id (h : ∀ q, (X q).z = 0) : X = affine (fun i => if i = 0 then ⟨1, 0, 0⟩ else ⟨0, 1, 0⟩) 0 X := by
  funext q
  ext <;> simp [affine, h]

theorem jet_sheet (h : SmoothOn 2 X Set.univ) (hz : ∀ q, (X q).z = 0) (q : ℝ × ℝ) :
    jet X q = Linear.reparam (par X q) (xy (vpd 0 (vpd 0 X) q)) (xy (vpd 1 (vpd 1 X) q))
      (xy (vpd 1 (vpd 0 X) q)) flatS := by
  have := jet_affine h (fun i => if i = 0 then ⟨1, 0, 0⟩ else ⟨0, 1, 0⟩) 0 q
  rwa [← affine_id hz] at this

theorem measure_sheet (P : T2) (g1 g2 g3 : Fin 2 → ℝ) :
    Variation.measure (Linear.reparam P g1 g2 g3 flatS) = |det2 P| := by
  have : cross ((Linear.reparam P g1 g2 g3 flatS).a 0) ((Linear.reparam P g1 g2 g3 flatS).a 1) = ⟨0, 0, det2 P⟩ := by
    ext <;> simp [Linear.reparam, flatS, cross, det2]
  rw [Variation.measure, this]
  simp only [V3.norm, dot]
  rw [← Real.sqrt_mul_self_eq_abs]
  congr 1; ring

/-! ## Pointwise work -/

/-- Voigt vector of a symmetric stress. -/
noncomputable def vec (N : T2) : Voigt := vec3 (N 0 0) (N 1 1) (N 0 1)

/-- Traction vectors of the stress `N`. -/
def tr (N : T2) (f : Fin 2 → V3) : Fin 2 → V3 := fun b => N 0 b • f 0 + N 1 b • f 1

theorem work_point (P N : T2) (g1 g2 g3 : Fin 2 → ℝ) (f : Fin 2 → V3) (u : Surf) (hN : N 0 1 = N 1 0) (hP : det2 P ≠ 0) :
    det2 P * dotV (vec (contra P N)) (EmDer (Linear.reparam P g1 g2 g3 (fS f)) u)
      = (P 1 1 * dot (u.a 0) (tr N f 0) - P 1 0 * dot (u.a 0) (tr N f 1))
        - (P 0 1 * dot (u.a 1) (tr N f 0) - P 0 0 * dot (u.a 1) (tr N f 1)) := by
  simp only [dotV, EmDer, vec, contra, tr, Linear.reparam, fS, Fin.sum_univ_two, Fin.sum_univ_three, vec3_zero,
    vec3_one, vec3_two, inv2, Matrix.cons_val_zero, Matrix.cons_val_one, dot_add_left, dot_add_right, dot_smul_left,
    dot_smul_right, hN, dot_comm (f _) (u.a _)]
  field_simp
  simp only [det2]
  ring

end

/-! ## Integration by parts -/

theorem ends_y {a b : ℝ} (ha : 0 ≤ a) (hb : 0 ≤ b) {f : ℝ × ℝ → ℝ} (hf : ContDiff ℝ 1 f) :
    ∫ q in rect a b, pd 1 f q = ∫ x in (0 : ℝ)..a, (f (x, b) - f (x, 0)) := by
  have cd : Continuous (pd 1 f) := (pd_cont (n := 0) hf 1).continuous
  rw [rect_xy (by fun_prop) ha hb]
  congr 1
  funext x
  exact intervalIntegral.integral_eq_sub_of_hasDerivAt (f := fun y => f (x, y))
    (fun y _ => line_y (hf.differentiable (by norm_num)) x y) (Continuous.intervalIntegrable (by fun_prop) _ _)

/-- Flux through the lines where parameter `1 - i` is constant. -/
noncomputable def flux (X : ℝ × ℝ → V3) (T : Fin 2 → V3) (v : ℝ × ℝ → V3) (i : Fin 2) (q : ℝ × ℝ) : ℝ :=
  (vpd i X q).y * dot (v q) (T 0) - (vpd i X q).x * dot (v q) (T 1)

section
variable {a b : ℝ} {X v : ℝ × ℝ → V3}

theorem const_smooth (n : ℕ) (w : V3) : SmoothOn n (fun _ => w) Set.univ :=
  ⟨contDiffOn_const, contDiffOn_const, contDiffOn_const⟩

theorem flux_smooth (h : SmoothOn 2 X Set.univ) (T : Fin 2 → V3) (hv : SmoothOn 2 v Set.univ) (i : Fin 2) :
    ContDiff ℝ 1 (flux X T v i) := by
  have d := Cylinder.smooth1 hv
  have k : ∀ w, ContDiff ℝ 1 fun q => dot (v q) w := fun w => contDiffOn_univ.1 (d.dot (const_smooth 1 w))
  have s := Cylinder.smooth0 h i
  exact ((contDiffOn_univ.1 s.2.1).mul (k _)).sub ((contDiffOn_univ.1 s.1).mul (k _))

theorem flux_div (h : SmoothOn 2 X Set.univ) (T : Fin 2 → V3) (hv : SmoothOn 2 v Set.univ) (q : ℝ × ℝ) :
    pd 0 (flux X T v 1) q - pd 1 (flux X T v 0) q
      = (par X q 1 1 * dot (vpd 0 v q) (T 0) - par X q 1 0 * dot (vpd 0 v q) (T 1))
        - (par X q 0 1 * dot (vpd 1 v q) (T 0) - par X q 0 0 * dot (vpd 1 v q) (T 1)) := by
  have d := Cylinder.smooth1 hv
  have dv : VDiffAt v q := d.diffAt (by norm_num) isOpen_univ (Set.mem_univ q)
  have kd : ∀ w, DifferentiableAt ℝ (fun q => dot (v q) w) q := fun w =>
    (contDiffOn_univ.1 (d.dot (const_smooth 1 w))).differentiable (by norm_num) q
  have kp : ∀ i w, pd i (fun q => dot (v q) w) q = dot (vpd i v q) w := by
    intro i w
    rw [pd_dot dv ((const_smooth 1 w).diffAt (by norm_num) isOpen_univ (Set.mem_univ q)), vpd_const]
    simp [dot]
  have px : ∀ i, DifferentiableAt ℝ (fun q => (vpd i X q).x) q := fun i =>
    (contDiffOn_univ.1 (Cylinder.smooth0 h i).1).differentiable (by norm_num) q
  have py : ∀ i, DifferentiableAt ℝ (fun q => (vpd i X q).y) q := fun i =>
    (contDiffOn_univ.1 (Cylinder.smooth0 h i).2.1).differentiable (by norm_num) q
  have e : ∀ i j, pd j (flux X T v i) q
      = (pd j (fun q => (vpd i X q).y) q * dot (v q) (T 0) + (vpd i X q).y * dot (vpd j v q) (T 0))
        - (pd j (fun q => (vpd i X q).x) q * dot (v q) (T 1) + (vpd i X q).x * dot (vpd j v q) (T 1)) := by
    intro i j
    unfold flux
    rw [pd_sub ((py i).fun_mul (kd _)) ((px i).fun_mul (kd _)), pd_mul (py i) (kd _), pd_mul (px i) (kd _), kp, kp]
  have c := vpd_comm h isOpen_univ (Set.mem_univ q)
  have c1 := congrArg V3.x c
  have c2 := congrArg V3.y c
  simp only [vpd] at c1 c2
  rw [e, e]
  simp only [par, vpd]
  simp only [vpd] at *
  simp
  rw [c1, c2]
  ring

/-- The determinant has one sign. -/
theorem orient (ha : 0 ≤ a) (hb : 0 ≤ b) (h : Sheet a b X) :
    ∃ σ : ℝ, (σ = 1 ∨ σ = -1) ∧ ∀ q ∈ rect a b, |det2 (par X q)| = σ * det2 (par X q) := by
  have hc : Continuous fun q => det2 (par X q) := by
    have c1 := fun i => (contDiffOn_univ.1 (Cylinder.smooth0 h.smooth i).1).continuous
    have c2 := fun i => (contDiffOn_univ.1 (Cylinder.smooth0 h.smooth i).2.1).continuous
    simp only [det2, par]
    exact ((c1 0).mul (c2 1)).sub ((c2 0).mul (c1 1))
  have hp : IsPreconnected (rect a b) := ((convex_Icc 0 a).prod (convex_Icc 0 b)).isPreconnected
  have hne : ∀ q ∈ rect a b, det2 (par X q) ≠ 0 := fun q hq => h.regular q hq
  have h0 : ((0, 0) : ℝ × ℝ) ∈ rect a b := ⟨⟨le_rfl, ha⟩, ⟨le_rfl, hb⟩⟩
  rcases lt_or_gt_of_ne (hne _ h0) with hs | hs
  · refine ⟨-1, Or.inr rfl, fun q hq => ?_⟩
    have : det2 (par X q) < 0 := by
      by_contra hn
      push Not at hn
      obtain ⟨z, hz, hz0⟩ := hp.intermediate_value h0 hq hc.continuousOn ⟨hs.le, hn⟩
      exact hne z hz hz0
    rw [abs_of_neg this]; ring
  · refine ⟨1, Or.inl rfl, fun q hq => ?_⟩
    have : 0 < det2 (par X q) := by
      by_contra hn
      push Not at hn
      obtain ⟨z, hz, hz0⟩ := hp.intermediate_value hq h0 hc.continuousOn ⟨hn, hs.le⟩
      exact hne z hz hz0
    rw [abs_of_pos this]; ring

/-- Sections whose forces are a tensor `N`, without moments. -/
def Uniform (S : Surf → Surf → Section) (f : Fin 2 → V3) (N : T2) : Prop :=
  ∀ (P : T2) (g1 g2 g3 : Fin 2 → ℝ), det2 P ≠ 0 →
    (S (Linear.reparam P g1 g2 g3 flatS) (Linear.reparam P g1 g2 g3 (fS f))).N = vec (contra P N) ∧
    (S (Linear.reparam P g1 g2 g3 flatS) (Linear.reparam P g1 g2 g3 (fS f))).M = fun _ => 0

theorem residual_flux (ha : 0 ≤ a) (hb : 0 ≤ b) (h : Sheet a b X) {S : Surf → Surf → Section} {f : Fin 2 → V3} {N : T2}
    (hN : N 0 1 = N 1 0) (hS : Uniform S f N) (c : V3) (hv : SmoothOn 2 v Set.univ) {σ : ℝ}
    (hσ : ∀ q ∈ rect a b, |det2 (par X q)| = σ * det2 (par X q)) :
    residualForm X (affine f c X) S 0 (rect a b) v
      = -σ * ((∫ y in (0 : ℝ)..b, (flux X (tr N f) v 1 (a, y) - flux X (tr N f) v 1 (0, y)))
          - ∫ x in (0 : ℝ)..a, (flux X (tr N f) v 0 (x, b) - flux X (tr N f) v 0 (x, 0))) := by
  have s1 := flux_smooth h.smooth (tr N f) hv 1
  have s0 := flux_smooth h.smooth (tr N f) hv 0
  have d1 : Continuous (pd 0 (flux X (tr N f) v 1)) := (pd_cont (n := 0) s1 0).continuous
  have d0 : Continuous (pd 1 (flux X (tr N f) v 0)) := (pd_cont (n := 0) s0 1).continuous
  rw [← Cylinder.ends_x ha hb s1, ← ends_y ha hb s0, ← Cylinder.int_sub d1 d0, ← integral_const_mul]
  unfold residualForm
  refine setIntegral_congr_fun (measurableSet_Icc.prod measurableSet_Icc) fun q hq => ?_
  have hd : det2 (par X q) ≠ 0 := h.regular q hq
  obtain ⟨hn, hm⟩ := hS (par X q) (xy (vpd 0 (vpd 0 X) q)) (xy (vpd 1 (vpd 1 X) q)) (xy (vpd 1 (vpd 0 X) q)) hd
  have w := work_point (par X q) N (xy (vpd 0 (vpd 0 X) q)) (xy (vpd 1 (vpd 1 X) q)) (xy (vpd 1 (vpd 0 X) q)) f (jet v q)
    hN hd
  simp only [jet_affine h.smooth, jet_sheet h.smooth h.plane, hn, hm, measure_sheet, hσ q hq]
  rw [flux_div h.smooth _ hv]
  have e : ∀ i, (jet v q).a i = vpd i v q := fun _ => rfl
  simp only [e] at w
  rw [← w]
  simp only [internalForce, WeakForms.pressVec, dotV]
  simp
  ring

/-! ## Boundary -/

theorem outer_side (h : Sheet a b X) {σ : ℝ} (hs : σ = 1 ∨ σ = -1) {q : ℝ × ℝ} (hq : q ∈ rect a b)
    (hσ : |det2 (par X q)| = σ * det2 (par X q)) (i : Fin 2) {e κ : ℝ} (he : e = 1 ∨ e = -1)
    (hκ : κ = if i = 0 then 1 else -1) :
    0 < V3.norm (vpd (1 - i) X q) ∧
    Outer X i e q ((κ * e * σ / V3.norm (vpd (1 - i) X q)) • ⟨(vpd (1 - i) X q).y, -(vpd (1 - i) X q).x, 0⟩) := by
  have hz : ∀ i, (vpd i X q).z = 0 := by
    intro i
    have : (fun q => (X q).z) = fun _ => 0 := funext h.plane
    simp only [vpd, this, pd_const]
  have hd : det2 (par X q) ≠ 0 := h.regular q hq
  have hpos : 0 < σ * det2 (par X q) := by rw [← hσ]; exact abs_pos.2 hd
  have hdet : det2 (par X q) = (vpd 0 X q).x * (vpd 1 X q).y - (vpd 0 X q).y * (vpd 1 X q).x := rfl
  set w := vpd (1 - i) X q with hw
  have hww : 0 < dot w w := by
    have : dot w w = w.x ^ 2 + w.y ^ 2 + w.z ^ 2 := by simp only [dot]; ring
    rw [this]
    have hne : w.x ≠ 0 ∨ w.y ≠ 0 := by
      by_contra hn
      push Not at hn
      apply hd
      rw [hdet]
      rcases fin2_cases i with rfl | rfl
      · have : w = vpd 1 X q := rfl
        rw [← this, hn.1, hn.2]; ring
      · have : w = vpd 0 X q := rfl
        rw [← this, hn.1, hn.2]; ring
    rcases hne with h1 | h1
    · have := pow_pos (abs_pos.2 h1) 2
      rw [sq_abs] at this
      nlinarith [sq_nonneg w.y, sq_nonneg w.z]
    · have := pow_pos (abs_pos.2 h1) 2
      rw [sq_abs] at this
      nlinarith [sq_nonneg w.x, sq_nonneg w.z]
  have hn : 0 < V3.norm w := Real.sqrt_pos.2 hww
  have hn2 : V3.norm w ^ 2 = w.x ^ 2 + w.y ^ 2 := by
    have : w.z = 0 := hz _
    rw [V3.norm, Real.sq_sqrt hww.le]; simp only [dot, this]; ring
  have hκ2 : κ ^ 2 = 1 := by rw [hκ]; split <;> norm_num
  have he2 : e ^ 2 = 1 := by rcases he with rfl | rfl <;> norm_num
  have hs2 : σ ^ 2 = 1 := by rcases hs with rfl | rfl <;> norm_num
  refine ⟨hn, ⟨by simp, ?_, ?_, ?_⟩⟩
  · simp only [dot, smul_x, smul_y, smul_z]
    have : (κ * e * σ / V3.norm w) ^ 2 * (w.x ^ 2 + w.y ^ 2) = 1 := by
      rw [div_pow, mul_pow, mul_pow, hκ2, he2, hs2, ← hn2]
      field_simp
    linear_combination this
  · simp only [dot, smul_x, smul_y, smul_z]; ring
  · have hv : e * dot ((κ * e * σ / V3.norm w) • (⟨w.y, -w.x, 0⟩ : V3)) (vpd i X q)
        = σ * det2 (par X q) / V3.norm w := by
      rw [hdet, dot_smul_left]
      have hx : κ * (w.y * (vpd i X q).x - w.x * (vpd i X q).y)
          = (vpd 0 X q).x * (vpd 1 X q).y - (vpd 0 X q).y * (vpd 1 X q).x := by
        rcases fin2_cases i with rfl | rfl
        · have : w = vpd 1 X q := rfl
          rw [this, hκ]; simp; ring
        · have : w = vpd 0 X q := rfl
          rw [this, hκ]; simp
      rw [← hx]
      simp only [dot]
      field_simp
      linear_combination (κ * σ * (w.y * (vpd i X q).x - w.x * (vpd i X q).y)) * he2
    rw [hv]
    exact div_pos hpos hn

theorem side (h : Sheet a b X) {σ : ℝ} (hs : σ = 1 ∨ σ = -1) {q : ℝ × ℝ} (hq : q ∈ rect a b)
    (hσ : |det2 (par X q)| = σ * det2 (par X q)) (i : Fin 2) {e : ℝ} (he : e = 1 ∨ e = -1) (T : Fin 2 → V3) (g u : V3)
    (hg : ∀ n, Outer X i e q n → g = traction T n) :
    dot u g * V3.norm (vpd (1 - i) X q) = (if i = 0 then 1 else -1) * e * σ
      * ((vpd (1 - i) X q).y * dot u (T 0) - (vpd (1 - i) X q).x * dot u (T 1)) := by
  obtain ⟨hn, ho⟩ := outer_side h hs hq hσ i he rfl
  rw [hg _ ho, traction]
  simp only [dot_add_right, dot_smul_right, smul_x, smul_y]
  field_simp
  ring

/-- The tractions of the sides balance the residual. -/
theorem balance (ha : 0 ≤ a) (hb : 0 ≤ b) (h : Sheet a b X) {S : Surf → Surf → Section} {f : Fin 2 → V3} {N : T2}
    (hN : N 0 1 = N 1 0) (hS : Uniform S f N) (c : V3) (hv : SmoothOn 2 v Set.univ)
    {g : Fin 2 → Bool → ℝ × ℝ → V3} (hg : Loaded a b X (tr N f) g) :
    residualForm X (affine f c X) S 0 (rect a b) v + neumannForm a b X g v = 0 := by
  obtain ⟨σ, hs, hσ⟩ := orient ha hb h
  rw [residual_flux ha hb h hN hS c hv hσ]
  have s1 := (flux_smooth h.smooth (tr N f) hv 1).continuous
  have s0 := (flux_smooth h.smooth (tr N f) hv 0).continuous
  have ii : ∀ {k : ℝ → ℝ} (_ : Continuous k) (a b : ℝ), IntervalIntegrable k volume a b :=
    fun hk a b => hk.intervalIntegrable a b
  rw [intervalIntegral.integral_sub (ii (by fun_prop) _ _) (ii (by fun_prop) _ _),
    intervalIntegral.integral_sub (ii (by fun_prop) _ _) (ii (by fun_prop) _ _)]
  have e1 : (∫ y in (0 : ℝ)..b, dot (v (a, y)) (g 0 true (a, y)) * V3.norm (vpd 1 X (a, y)))
      = ∫ y in (0 : ℝ)..b, σ * flux X (tr N f) v 1 (a, y) := by
    refine intervalIntegral.integral_congr fun y hy => ?_
    rw [Set.uIcc_of_le hb] at hy
    have hq : (a, y) ∈ rect a b := ⟨⟨ha, le_rfl⟩, hy⟩
    have := side h hs hq (hσ _ hq) 0 (Or.inl rfl) (tr N f) _ (v (a, y)) (hg.east y hy)
    simpa [flux] using this
  have e2 : (∫ y in (0 : ℝ)..b, dot (v (0, y)) (g 0 false (0, y)) * V3.norm (vpd 1 X (0, y)))
      = ∫ y in (0 : ℝ)..b, -σ * flux X (tr N f) v 1 (0, y) := by
    refine intervalIntegral.integral_congr fun y hy => ?_
    rw [Set.uIcc_of_le hb] at hy
    have hq : (0, y) ∈ rect a b := ⟨⟨le_rfl, ha⟩, hy⟩
    have := side h hs hq (hσ _ hq) 0 (Or.inr rfl) (tr N f) _ (v (0, y)) (hg.west y hy)
    simpa [flux] using this
  have e3 : (∫ x in (0 : ℝ)..a, dot (v (x, b)) (g 1 true (x, b)) * V3.norm (vpd 0 X (x, b)))
      = ∫ x in (0 : ℝ)..a, -σ * flux X (tr N f) v 0 (x, b) := by
    refine intervalIntegral.integral_congr fun x hx => ?_
    rw [Set.uIcc_of_le ha] at hx
    have hq : (x, b) ∈ rect a b := ⟨hx, ⟨hb, le_rfl⟩⟩
    have := side h hs hq (hσ _ hq) 1 (Or.inl rfl) (tr N f) _ (v (x, b)) (hg.north x hx)
    simpa [flux] using this
  have e4 : (∫ x in (0 : ℝ)..a, dot (v (x, 0)) (g 1 false (x, 0)) * V3.norm (vpd 0 X (x, 0)))
      = ∫ x in (0 : ℝ)..a, σ * flux X (tr N f) v 0 (x, 0) := by
    refine intervalIntegral.integral_congr fun x hx => ?_
    rw [Set.uIcc_of_le ha] at hx
    have hq : (x, 0) ∈ rect a b := ⟨hx, ⟨le_rfl, hb⟩⟩
    have := side h hs hq (hσ _ hq) 1 (Or.inr rfl) (tr N f) _ (v (x, 0)) (hg.south x hx)
    simpa [flux] using this
  unfold neumannForm
  rw [e1, e2, e3, e4]
  simp only [intervalIntegral.integral_const_mul]
  ring

theorem flux_edge (T : Fin 2 → V3) {q : ℝ × ℝ} (hq : v q = 0) (i : Fin 2) : flux X T v i q = 0 := by
  simp [flux, hq, dot]

/-- Without displacement at the sides there is no residual. -/
theorem pinned (ha : 0 ≤ a) (hb : 0 ≤ b) (h : Sheet a b X) {S : Surf → Surf → Section} {f : Fin 2 → V3} {N : T2}
    (hN : N 0 1 = N 1 0) (hS : Uniform S f N) (c : V3) (hv : Pinned a b v) :
    residualForm X (affine f c X) S 0 (rect a b) v = 0 := by
  obtain ⟨σ, -, hσ⟩ := orient ha hb h
  rw [residual_flux ha hb h hN hS c hv.1 hσ]
  have e : ∀ x y i, Edge a b (x, y) → flux X (tr N f) v i (x, y) = 0 := fun x y i hq => flux_edge _ (hv.2 _ hq) i
  have h1 : ∀ y, flux X (tr N f) v 1 (a, y) - flux X (tr N f) v 1 (0, y) = 0 := fun y => by
    rw [e _ _ _ (Or.inr (Or.inl rfl)), e _ _ _ (Or.inl rfl), sub_zero]
  have h2 : ∀ x, flux X (tr N f) v 0 (x, b) - flux X (tr N f) v 0 (x, 0) = 0 := fun x => by
    rw [e _ _ _ (Or.inr (Or.inr (Or.inr rfl))), e _ _ _ (Or.inr (Or.inr (Or.inl rfl))), sub_zero]
  simp [h1, h2]

end

end Verif.PatchTest
