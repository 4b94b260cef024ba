import Verif.Spec.Reaction
import Verif.Lemmas.UniaxialLaw

/-! # Lemmas: forces on sides -/

namespace Verif.Reaction

open V3 Geometry Fields MeasureTheory Verif.Variation Verif.Balance Verif.Hyper Verif.PatchTest
open Spec.Balloon Spec.Plate Spec.PatchTest Spec.Reaction Verif.Plate Verif.Reparam
open Verif.Integrate (Rule)

theorem field_smooth {φ : ℝ × ℝ → ℝ} (h : ContDiff ℝ 2 φ) (k : ℕ) : SmoothOn 2 (field φ k) Set.univ := by
  unfold field
  by_cases h0 : k = 0
  · simp only [if_pos h0]; exact ⟨h.contDiffOn, contDiffOn_const, contDiffOn_const⟩
  · by_cases h1 : k = 1
    · simp only [if_neg h0, if_pos h1]; exact ⟨contDiffOn_const, h.contDiffOn, contDiffOn_const⟩
    · simp only [if_neg h0, if_neg h1]; exact ⟨contDiffOn_const, contDiffOn_const, h.contDiffOn⟩

theorem dot_field (φ : ℝ × ℝ → ℝ) (k : ℕ) (q : ℝ × ℝ) (g : V3) : dot (field φ k q) g = φ q * part k g := by
  unfold field part
  by_cases h0 : k = 0
  · simp [h0, dot]
  · by_cases h1 : k = 1
    · simp [h1, dot]
    · simp [h0, h1, dot]

theorem norm_cont {X : ℝ × ℝ → V3} (h : SmoothOn 2 X Set.univ) (i : Fin 2) : Continuous fun q => V3.norm (vpd i X q) := by
  have s := Cylinder.smooth0 h i
  have c1 := (contDiffOn_univ.1 s.1).continuous
  have c2 := (contDiffOn_univ.1 s.2.1).continuous
  have c3 := (contDiffOn_univ.1 s.2.2).continuous
  unfold V3.norm dot
  exact (((c1.mul c1).add (c2.mul c2)).add (c3.mul c3)).sqrt

/-- A sum of weighted integrals. -/
theorem sum_integral {ι : Type} (l : Finset ι) {φ : ι → ℝ → ℝ} {G : ℝ → ℝ} {a : ℝ} (hφ : ∀ i, Continuous (φ i))
    (hG : Continuous G) : ∑ i ∈ l, ∫ s in (0 : ℝ)..a, φ i s * G s = ∫ s in (0 : ℝ)..a, (∑ i ∈ l, φ i s) * G s := by
  rw [← intervalIntegral.integral_finsetSum fun i _ => Continuous.intervalIntegrable (by fun_prop) _ _]
  refine intervalIntegral.integral_congr fun s _ => ?_
  rw [Finset.sum_mul]

/-- Sum of the tractions over a set of functions. -/
theorem neumann_sum {a b : ℝ} {X : ℝ × ℝ → V3} (hX : SmoothOn 2 X Set.univ) {g : Fin 2 → Bool → ℝ × ℝ → V3}
    (hg : Smooth g) {φ : ℕ → ℝ × ℝ → ℝ} (hφ : ∀ i, ContDiff ℝ 2 (φ i)) (l : Finset ℕ) (k : ℕ) :
    ∑ i ∈ l, neumannForm a b X g (field (φ i) k)
      = eastForce a b X (g 0 true) (fun q => ∑ i ∈ l, φ i q) k + westForce b X (g 0 false) (fun q => ∑ i ∈ l, φ i q) k
        + northForce a b X (g 1 true) (fun q => ∑ i ∈ l, φ i q) k
        + southForce a X (g 1 false) (fun q => ∑ i ∈ l, φ i q) k := by
  have c0 := norm_cont hX 0
  have c1 := norm_cont hX 1
  have cg := fun i e => hg i e k
  have cφ := fun i => (hφ i).continuous
  simp only [neumannForm, dot_field, Finset.sum_add_distrib, eastForce, westForce, northForce, southForce, mul_assoc]
  have e1 : ∀ (i : ℕ) (x : ℝ), Continuous fun s : ℝ => φ i (x, s) := fun i x => by fun_prop
  have e2 : ∀ (i : ℕ) (x : ℝ), Continuous fun s : ℝ => φ i (s, x) := fun i x => by fun_prop
  have f1 : ∀ e (x : ℝ), Continuous fun s : ℝ => part k (g 0 e (x, s)) * V3.norm (vpd 1 X (x, s)) := fun e x =>
    ((cg 0 e).mul c1).comp (by fun_prop : Continuous fun s : ℝ => ((x, s) : ℝ × ℝ))
  have f2 : ∀ e (x : ℝ), Continuous fun s : ℝ => part k (g 1 e (s, x)) * V3.norm (vpd 0 X (s, x)) := fun e x =>
    ((cg 1 e).mul c0).comp (by fun_prop : Continuous fun s : ℝ => ((s, x) : ℝ × ℝ))
  rw [sum_integral l (fun i => e1 i a) (f1 true a), sum_integral l (fun i => e1 i 0) (f1 false 0),
    sum_integral l (fun i => e2 i b) (f2 true b), sum_integral l (fun i => e2 i 0) (f2 false 0)]

/-- The boundary force is minus the weighted force of all tractions. -/
theorem force_sum {a b : ℝ} {X : ℝ × ℝ → V3} (hX : SmoothOn 2 X Set.univ) {R : (ℝ × ℝ → V3) → ℝ}
    {g : Fin 2 → Bool → ℝ × ℝ → V3} (hg : Smooth g)
    (hR : ∀ v, SmoothOn 2 v Set.univ → R v + neumannForm a b X g v = 0) {φ : ℕ → ℝ × ℝ → ℝ}
    (hφ : ∀ i, ContDiff ℝ 2 (φ i)) (l : List ℕ) {glob : ℕ → ℕ → ℕ → ℕ} (hi : ∀ k, Function.Injective (glob 0 k))
    {rhs : ℕ → ℝ} {k : ℕ} (hr : ∀ i, rhs (glob 0 k i) = R (field (φ i) k)) :
    Solution.boundaryForce glob rhs [⟨0, l⟩] k
      = -(eastForce a b X (g 0 true) (fun q => ∑ i ∈ l.toFinset, φ i q) k
        + westForce b X (g 0 false) (fun q => ∑ i ∈ l.toFinset, φ i q) k
        + northForce a b X (g 1 true) (fun q => ∑ i ∈ l.toFinset, φ i q) k
        + southForce a X (g 1 false) (fun q => ∑ i ∈ l.toFinset, φ i q) k) := by
  rw [← neumann_sum hX hg hφ]
  have : (l.map (glob 0 k)).toFinset = l.toFinset.image (glob 0 k) := by
    ext; simp
  simp only [Solution.boundaryForce, Solution.indices, Finset.union_empty, this]
  rw [Finset.sum_image fun _ _ _ _ e => hi k e, ← Finset.sum_neg_distrib]
  refine Finset.sum_congr rfl fun i _ => ?_
  rw [hr i]
  linarith [hR _ (field_smooth (hφ i) k)]

/-! ## A trapezoid -/

/-- The trapezoid with the corners `(0,0)`, `(1,0)`, `(1,2)`, `(0,1)`. -/
def trapezoid (q : ℝ × ℝ) : V3 := ⟨q.1, q.2 * (1 + q.1), 0⟩

theorem trapezoid_vpd (q : ℝ × ℝ) :
    vpd 0 trapezoid q = ⟨1, q.2, 0⟩ ∧ vpd 1 trapezoid q = ⟨0, 1 + q.1, 0⟩ := by
  have hx : Differentiable ℝ fun q : ℝ × ℝ => q.1 := by fun_prop
  have hy : Differentiable ℝ fun q : ℝ × ℝ => q.2 * (1 + q.1) := by fun_prop
  constructor
  · ext
    · exact pd0 hx q (hasDerivAt_id' q.1)
    · refine pd0 hy q ?_
      have := ((hasDerivAt_id' q.1).const_add 1).const_mul q.2
      exact this.congr_deriv (by ring)
    · exact Balloon.pd_const 0 _ _
  · ext
    · exact pd1 hx q (hasDerivAt_const q.2 q.1)
    · refine pd1 hy q ?_
      have := (hasDerivAt_id' q.2).mul_const (1 + q.1)
      exact this.congr_deriv (by ring)
    · exact Balloon.pd_const 1 _ _

theorem trapezoid_sheet : Sheet 1 1 trapezoid where
  smooth := by
    refine ⟨?_, ?_, contDiffOn_const⟩ <;> unfold trapezoid <;> exact ContDiff.contDiffOn (by fun_prop)
  plane _ := rfl
  regular q hq := by
    rw [(trapezoid_vpd q).1, (trapezoid_vpd q).2]
    have := hq.1.1
    simp only
    nlinarith

/-- Tractions of a stress along `x` and `y` on the sides of the trapezoid. -/
noncomputable def pull (α β : ℝ) (i : Fin 2) (e : Bool) (_q : ℝ × ℝ) : V3 :=
  if i = 0 then (if e then ⟨α, 0, 0⟩ else ⟨-α, 0, 0⟩) else (if e then ⟨-(α / √2), β / √2, 0⟩ else ⟨0, -β, 0⟩)

theorem pull_loaded (α β : ℝ) :
    Loaded 1 1 trapezoid (fun i => if i = 0 then ⟨α, 0, 0⟩ else ⟨0, β, 0⟩) (pull α β) := by
  have sq1 : ∀ u : ℝ, u * u = 1 → 0 < u → u = 1 := fun u h hp => by nlinarith
  constructor
  · intro y _ n hn
    have h1 := hn.plane; have h2 := hn.unit; have h3 := hn.perp; have h4 := hn.out
    have e : (1 - 0 : Fin 2) = 1 := rfl
    rw [e, (trapezoid_vpd _).2] at h3; rw [(trapezoid_vpd _).1] at h4
    simp [dot] at h3 h4
    have hy : n.y = 0 := h3
    simp [dot, h1, hy] at h2 h4
    have hx := sq1 _ h2 h4
    ext <;> simp [pull, traction, hx, hy]
  · intro y _ n hn
    have h1 := hn.plane; have h2 := hn.unit; have h3 := hn.perp; have h4 := hn.out
    have e : (1 - 0 : Fin 2) = 1 := rfl
    rw [e, (trapezoid_vpd _).2] at h3; rw [(trapezoid_vpd _).1] at h4
    simp [dot] at h3 h4
    simp [dot, h1, h3] at h2 h4
    have hx := sq1 (-n.x) (by linarith) (by linarith)
    have hx' : n.x = -1 := by linarith
    ext <;> simp [pull, traction, hx', h3]
  · intro x hx0 n hn
    have h1 := hn.plane; have h2 := hn.unit; have h3 := hn.perp; have h4 := hn.out
    have e : (1 - 1 : Fin 2) = 0 := rfl
    rw [e, (trapezoid_vpd _).1] at h3; rw [(trapezoid_vpd _).2] at h4
    simp [dot] at h3 h4
    have hx : n.x = -n.y := by linarith
    simp [dot, h1, hx] at h2
    have hp : 0 < n.y := by
      have : 0 < 1 + x := by linarith [hx0.1]
      exact (mul_pos_iff_of_pos_right this).1 h4
    have q2 : √(2 : ℝ) * √2 = 2 := Real.mul_self_sqrt (by norm_num)
    have s0 : 0 < √(2 : ℝ) := Real.sqrt_pos.2 (by norm_num)
    have hy := sq1 (√2 * n.y) (by nlinarith) (by positivity)
    have hy' : n.y = 1 / √2 := by rw [eq_div_iff s0.ne']; linarith
    ext <;> simp [pull, traction, hx, hy'] <;> ring
  · intro x hx0 n hn
    have h1 := hn.plane; have h2 := hn.unit; have h3 := hn.perp; have h4 := hn.out
    have e : (1 - 1 : Fin 2) = 0 := rfl
    rw [e, (trapezoid_vpd _).1] at h3; rw [(trapezoid_vpd _).2] at h4
    simp [dot] at h3 h4
    simp [dot, h1, h3] at h2
    have hp : 0 < -n.y := by
      have : 0 < 1 + x := by linarith [hx0.1]
      nlinarith
    have hy := sq1 (-n.y) (by linarith) hp
    have hy' : n.y = -1 := by linarith
    ext <;> simp [pull, traction, h3, hy']

theorem pull_smooth (α β : ℝ) : Smooth (pull α β) := fun i e k => by
  unfold pull; exact continuous_const

/-- Stress of the linear sheet stretched along `x`. -/
theorem linear_tr (t E ν : ℝ) : tr (linN t E ν (Spec.Uniaxial.stretch 2 1)) (Spec.Uniaxial.stretch 2 1)
      = fun i => if i = 0 then ⟨3 * t * (Linear.Cconst E ν + 2 * Linear.mu E ν), 0, 0⟩
        else ⟨0, linN t E ν (Spec.Uniaxial.stretch 2 1) 1 1, 0⟩ := by
  have h01 : linN t E ν (Spec.Uniaxial.stretch 2 1) 0 1 = 0 := by
    simp [linN, Linear.Sij, Linear.Cval, flat_inv, green_eq, Spec.Uniaxial.stretch, dot]
  have h00 : linN t E ν (Spec.Uniaxial.stretch 2 1) 0 0 = 3 / 2 * t * (Linear.Cconst E ν + 2 * Linear.mu E ν) := by
    simp [linN, Linear.Sij, Linear.Cval, flat_inv, green_eq, Spec.Uniaxial.stretch, dot]
    ring
  funext i
  rcases fin2_cases i with rfl | rfl
  · ext
    · simp [tr, Spec.Uniaxial.stretch] at *
      rw [h00]; ring
    · simp [tr, Spec.Uniaxial.stretch] at *
      rw [← linN_symm]; exact h01
    · simp [tr, Spec.Uniaxial.stretch]
  · ext <;> simp [tr, h01] <;> simp [Spec.Uniaxial.stretch]

/-- The linear sheet stretched along `x`. -/
theorem linear_pull (r : Rule) (t E ν : ℝ) : ∃ β, ∀ v, SmoothOn 2 v Set.univ →
    residualForm trapezoid (affine (Spec.Uniaxial.stretch 2 1) 0 trapezoid) (linearSection r t E ν) 0 (rect 1 1) v
      + neumannForm 1 1 trapezoid (pull (3 * t * (Linear.Cconst E ν + 2 * Linear.mu E ν)) β) v = 0 := by
  refine ⟨linN t E ν (Spec.Uniaxial.stretch 2 1) 1 1, fun v hv => ?_⟩
  refine balance zero_le_one zero_le_one trapezoid_sheet (linN_symm t E ν _) (linear_uniform r t E ν _) 0 hv ?_
  rw [linear_tr]
  exact pull_loaded _ _

/-- Its virtual work in fields along `x`. -/
theorem linear_work (r : Rule) (t E ν : ℝ) (φ : ℝ × ℝ → ℝ) {q : ℝ × ℝ} (hq : 0 ≤ q.1) :
    internalForce (jet (affine (Spec.Uniaxial.stretch 2 1) 0 trapezoid) q) (jet (field φ 0) q)
        (linearSection r t E ν (jet trapezoid q) (jet (affine (Spec.Uniaxial.stretch 2 1) 0 trapezoid) q)).N
        (linearSection r t E ν (jet trapezoid q) (jet (affine (Spec.Uniaxial.stretch 2 1) 0 trapezoid) q)).M
        * Variation.measure (jet trapezoid q)
      = -(3 * t * (Linear.Cconst E ν + 2 * Linear.mu E ν)) * ((1 + q.1) * pd 0 φ q - q.2 * pd 1 φ q) := by
  have h := trapezoid_sheet
  have hp : det2 (par trapezoid q) = 1 + q.1 := by
    simp [det2, par, (trapezoid_vpd q).1, (trapezoid_vpd q).2]
  have hd : det2 (par trapezoid q) ≠ 0 := by rw [hp]; positivity
  obtain ⟨hn, hm⟩ := linear_uniform r t E ν (Spec.Uniaxial.stretch 2 1) (par trapezoid q)
    (xy (vpd 0 (vpd 0 trapezoid) q)) (xy (vpd 1 (vpd 1 trapezoid) q)) (xy (vpd 1 (vpd 0 trapezoid) q)) hd
  have w := work_point (par trapezoid q) (linN t E ν (Spec.Uniaxial.stretch 2 1)) (xy (vpd 0 (vpd 0 trapezoid) q))
    (xy (vpd 1 (vpd 1 trapezoid) q)) (xy (vpd 1 (vpd 0 trapezoid) q)) (Spec.Uniaxial.stretch 2 1) (jet (field φ 0) q)
    (linN_symm t E ν _) hd
  simp only [jet_affine h.smooth, jet_sheet h.smooth h.plane, hn, hm, measure_sheet]
  rw [linear_tr] at w
  have e : ∀ i, (jet (field φ 0) q).a i = ⟨pd i φ q, 0, 0⟩ := fun i => by
    change vpd i (field φ 0) q = _
    ext
    · rfl
    · exact Balloon.pd_const i _ _
    · exact Balloon.pd_const i _ _
  rw [e, e] at w
  have p00 : par trapezoid q 0 0 = 1 ∧ par trapezoid q 0 1 = q.2 ∧ par trapezoid q 1 0 = 0
      ∧ par trapezoid q 1 1 = 1 + q.1 := by
    simp [par, (trapezoid_vpd q).1, (trapezoid_vpd q).2]
  rw [p00.1, p00.2.1, p00.2.2.1, p00.2.2.2] at w
  rw [show |det2 (par trapezoid q)| = det2 (par trapezoid q) from abs_of_nonneg (by rw [hp]; positivity)]
  have z : ∀ (s u : Surf) (N : Voigt), internalForce s u N (fun _ => 0) = -dotV N (EmDer s u) := fun s u N => by
    simp [internalForce, dotV]
  rw [z]
  have : ∀ i j : ℝ, -i * j = -(j * i) := fun i j => by ring
  rw [this, w]
  simp [dot]
  ring

end Verif.Reaction
