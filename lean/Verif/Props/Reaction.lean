import Verif.Lemmas.Reaction
import Verif.Props.Uniaxial

/-!
# Claim C146: the boundary force of a side

`boundaryForce` is documented as "the force on a set of boundaries" (`src/gsThinShellAssembler.h` l.962-973).
-/

namespace Verif.Reaction

open V3 Geometry Fields Verif.Hyper Verif.PatchTest
open Spec.Balloon Spec.Plate Spec.PatchTest Spec.Reaction Verif.Plate Verif.Reparam
open Verif.Integrate (Rule)

/-- In a state that is balanced by tractions on the four sides of the patch, without loads inside, the boundary
force of the right side is minus the force of the tractions on this side, minus the tractions on the two adjacent
sides weighted with the functions of the right side. -/
theorem C146_formula {a b : ℝ} {X : ℝ × ℝ → V3} (hb : 0 ≤ b) (hX : SmoothOn 2 X Set.univ) {R : (ℝ × ℝ → V3) → ℝ}
    {g : Fin 2 → Bool → ℝ × ℝ → V3} (hg : Smooth g)
    (hR : ∀ v, SmoothOn 2 v Set.univ → R v + neumannForm a b X g v = 0) {φ : ℕ → ℝ × ℝ → ℝ}
    (hφ : ∀ i, ContDiff ℝ 2 (φ i)) {l : List ℕ} (hl : East a b φ l) {glob : ℕ → ℕ → ℕ → ℕ}
    (hi : ∀ k, Function.Injective (glob 0 k)) {rhs : ℕ → ℝ} {k : ℕ} (hr : ∀ i, rhs (glob 0 k i) = R (field (φ i) k)) :
    Solution.boundaryForce glob rhs [⟨0, l⟩] k
      = -eastForce a b X (g 0 true) (fun _ => 1) k
        - northForce a b X (g 1 true) (fun q => ∑ i ∈ l.toFinset, φ i q) k
        - southForce a X (g 1 false) (fun q => ∑ i ∈ l.toFinset, φ i q) k := by
  rw [force_sum hX hg hR hφ l hi hr]
  have e1 : eastForce a b X (g 0 true) (fun q => ∑ i ∈ l.toFinset, φ i q) k
      = eastForce a b X (g 0 true) (fun _ => 1) k := by
    refine intervalIntegral.integral_congr fun s hs => ?_
    rw [Set.uIcc_of_le hb] at hs
    simp only [hl.one s hs]
  have e2 : westForce b X (g 0 false) (fun q => ∑ i ∈ l.toFinset, φ i q) k = ∫ _s in (0 : ℝ)..b, (0 : ℝ) := by
    refine intervalIntegral.integral_congr fun s hs => ?_
    rw [Set.uIcc_of_le hb] at hs
    have : ∑ i ∈ l.toFinset, φ i (0, s) = 0 :=
      Finset.sum_eq_zero fun i hi => hl.far i (List.mem_toFinset.1 hi) s hs
    simp only [this]; ring
  rw [e1, e2]
  simp
  ring

/-- If the adjacent sides are free of tractions, the boundary force of the right side is minus the force on this
side.  Missing: loads on the adjacent sides. -/
theorem C146_free_partial {a b : ℝ} {X : ℝ × ℝ → V3} (hb : 0 ≤ b) (hX : SmoothOn 2 X Set.univ) {R : (ℝ × ℝ → V3) → ℝ}
    {g : Fin 2 → Bool → ℝ × ℝ → V3} (hg : Smooth g) (h0 : ∀ e q, g 1 e q = 0)
    (hR : ∀ v, SmoothOn 2 v Set.univ → R v + neumannForm a b X g v = 0) {φ : ℕ → ℝ × ℝ → ℝ}
    (hφ : ∀ i, ContDiff ℝ 2 (φ i)) {l : List ℕ} (hl : East a b φ l) {glob : ℕ → ℕ → ℕ → ℕ}
    (hi : ∀ k, Function.Injective (glob 0 k)) {rhs : ℕ → ℝ} {k : ℕ} (hr : ∀ i, rhs (glob 0 k i) = R (field (φ i) k)) :
    Solution.boundaryForce glob rhs [⟨0, l⟩] k = -eastForce a b X (g 0 true) (fun _ => 1) k := by
  rw [C146_formula hb hX hg hR hφ hl hi hr]
  have p0 : part k (0 : V3) = 0 := by
    unfold part; split
    · rfl
    · split <;> rfl
  simp [northForce, southForce, h0, p0]

/-- The same for the right-hand side as it is assembled, the internal forces of the state summed over the points
of integration, if the rule integrates the virtual work of the functions of the side exactly. -/
theorem C146_assembled {a b : ℝ} {X x : ℝ × ℝ → V3} (hb : 0 ≤ b) (hX : SmoothOn 2 X Set.univ)
    {S : Surf → Surf → Balance.Section} {g : Fin 2 → Bool → ℝ × ℝ → V3} (hg : Smooth g)
    (hR : ∀ v, SmoothOn 2 v Set.univ → residualForm X x S 0 (rect a b) v + neumannForm a b X g v = 0) {φ : ℕ → ℝ × ℝ → ℝ}
    (hφ : ∀ i, ContDiff ℝ 2 (φ i)) {l : List ℕ} (hl : East a b φ l) {glob : ℕ → ℕ → ℕ → ℕ}
    (hi : ∀ k, Function.Injective (glob 0 k)) {k : ℕ} {Φ : ℕ → ℝ × ℝ → Surf} (hΦ : ∀ i, Φ (glob 0 k i) = jet (field (φ i) k))
    {Q : Finset (ℝ × ℝ)} {wt : ℝ × ℝ → ℝ}
    (hQ : ∀ i, ∑ q ∈ Q, wt q * (Variation.internalForce (jet x q) (jet (field (φ i) k) q) (S (jet X q) (jet x q)).N
        (S (jet X q) (jet x q)).M * Variation.measure (jet X q))
      = ∫ q in rect a b, Variation.internalForce (jet x q) (jet (field (φ i) k) q) (S (jet X q) (jet x q)).N
        (S (jet X q) (jet x q)).M * Variation.measure (jet X q)) :
    Solution.boundaryForce glob (Solution.forceVector Q wt (fun q => Variation.measure (jet X q)) (jet x)
        (fun q => (S (jet X q) (jet x q)).N) (fun q => (S (jet X q) (jet x q)).M) Φ) [⟨0, l⟩] k
      = -eastForce a b X (g 0 true) (fun _ => 1) k
        - northForce a b X (g 1 true) (fun q => ∑ i ∈ l.toFinset, φ i q) k
        - southForce a X (g 1 false) (fun q => ∑ i ∈ l.toFinset, φ i q) k := by
  refine C146_formula hb hX hg hR hφ hl hi fun i => ?_
  rw [Solution.forceVector, hΦ i, hQ i]
  simp [residualForm, WeakForms.pressVec]

/-- The boundary force of all four sides together is minus the force of all tractions. -/
theorem C146_all {a b : ℝ} {X : ℝ × ℝ → V3} (ha : 0 ≤ a) (hb : 0 ≤ b) (hX : SmoothOn 2 X Set.univ)
    {R : (ℝ × ℝ → V3) → ℝ} {g : Fin 2 → Bool → ℝ × ℝ → V3} (hg : Smooth g)
    (hR : ∀ v, SmoothOn 2 v Set.univ → R v + neumannForm a b X g v = 0) {φ : ℕ → ℝ × ℝ → ℝ}
    (hφ : ∀ i, ContDiff ℝ 2 (φ i)) {l : List ℕ} (hl : Around a b φ l) {glob : ℕ → ℕ → ℕ → ℕ}
    (hi : ∀ k, Function.Injective (glob 0 k)) {rhs : ℕ → ℝ} {k : ℕ} (hr : ∀ i, rhs (glob 0 k i) = R (field (φ i) k)) :
    Solution.boundaryForce glob rhs [⟨0, l⟩] k
      = -(eastForce a b X (g 0 true) (fun _ => 1) k + westForce b X (g 0 false) (fun _ => 1) k
        + northForce a b X (g 1 true) (fun _ => 1) k + southForce a X (g 1 false) (fun _ => 1) k) := by
  rw [force_sum hX hg hR hφ l hi hr]
  have e1 : eastForce a b X (g 0 true) (fun q => ∑ i ∈ l.toFinset, φ i q) k
      = eastForce a b X (g 0 true) (fun _ => 1) k := by
    refine intervalIntegral.integral_congr fun s hs => ?_
    rw [Set.uIcc_of_le hb] at hs
    simp only [(hl.ends s hs).1]
  have e2 : westForce b X (g 0 false) (fun q => ∑ i ∈ l.toFinset, φ i q) k
      = westForce b X (g 0 false) (fun _ => 1) k := by
    refine intervalIntegral.integral_congr fun s hs => ?_
    rw [Set.uIcc_of_le hb] at hs
    simp only [(hl.ends s hs).2]
  have e3 : northForce a b X (g 1 true) (fun q => ∑ i ∈ l.toFinset, φ i q) k
      = northForce a b X (g 1 true) (fun _ => 1) k := by
    refine intervalIntegral.integral_congr fun s hs => ?_
    rw [Set.uIcc_of_le ha] at hs
    simp only [(hl.sides s hs).1]
  have e4 : southForce a X (g 1 false) (fun q => ∑ i ∈ l.toFinset, φ i q) k
      = southForce a X (g 1 false) (fun _ => 1) k := by
    refine intervalIntegral.integral_congr fun s hs => ?_
    rw [Set.uIcc_of_le ha] at hs
    simp only [(hl.sides s hs).2]
  rw [e1, e2, e3, e4]

/-- With loads on an adjacent side the boundary force is not the force on the side: in a trapezoid stretched along
`x`, discretised by four functions, the function of the upper right corner takes a part of the traction on the
upper side along; the boundary force is three quarters of the force on the right side. -/
theorem C146_corner_violated (r : Rule) {t E ν : ℝ} (ht : t ≠ 0) (hE : 0 < E) (h1 : -1 < ν) (h2 : ν < 1 / 2) :
    ∃ (X x : ℝ × ℝ → V3) (g : Fin 2 → Bool → ℝ × ℝ → V3) (φ : ℕ → ℝ × ℝ → ℝ) (l : List ℕ), Sheet 1 1 X ∧ Smooth g ∧
      (∀ v, SmoothOn 2 v Set.univ →
        residualForm X x (linearSection r t E ν) 0 (rect 1 1) v + neumannForm 1 1 X g v = 0) ∧
      (∀ i, ContDiff ℝ 2 (φ i)) ∧ East 1 1 φ l ∧ eastForce 1 1 X (g 0 true) (fun _ => 1) 0 ≠ 0 ∧
      ∀ (glob : ℕ → ℕ → ℕ → ℕ) (rhs : ℕ → ℝ), (∀ k, Function.Injective (glob 0 k)) →
        (∀ i, rhs (glob 0 0 i) = residualForm X x (linearSection r t E ν) 0 (rect 1 1) (field (φ i) 0)) →
        Solution.boundaryForce glob rhs [⟨0, l⟩] 0 = -(3 / 4 * eastForce 1 1 X (g 0 true) (fun _ => 1) 0) := by
  obtain ⟨β, hβ⟩ := linear_pull r t E ν
  set α := 3 * t * (Linear.Cconst E ν + 2 * Linear.mu E ν) with hα
  have hα0 : α ≠ 0 := mul_ne_zero (mul_ne_zero three_ne_zero ht) (linear_pos hE h1 h2)
  have hl : East 1 1 Uniaxial.hat [1, 3] := ⟨fun s hs => Uniaxial.hat_east.one s hs, fun i hi s hs =>
    Uniaxial.hat_east.far i hi s hs⟩
  have s0 : 0 < √(2 : ℝ) := Real.sqrt_pos.2 (by norm_num)
  have n1 : ∀ s : ℝ, V3.norm (vpd 1 trapezoid (1, s)) = 2 := by
    intro s
    rw [(trapezoid_vpd _).2]
    simp only [V3.norm, dot]
    rw [show (0 : ℝ) * 0 + (1 + 1) * (1 + 1) + 0 * 0 = 2 ^ 2 by norm_num, Real.sqrt_sq (by norm_num)]
  have n0 : ∀ s : ℝ, V3.norm (vpd 0 trapezoid (s, 1)) = √2 := by
    intro s
    rw [(trapezoid_vpd _).1]
    simp only [V3.norm, dot]
    norm_num
  have he : eastForce 1 1 trapezoid (pull α β 0 true) (fun _ => 1) 0 = 2 * α := by
    simp [eastForce, pull, part, n1]; ring
  have hn : northForce 1 1 trapezoid (pull α β 1 true) (fun q => ∑ i ∈ [1, 3].toFinset, Uniaxial.hat i q) 0 = -(α / 2) := by
    have : northForce 1 1 trapezoid (pull α β 1 true) (fun q => ∑ i ∈ [1, 3].toFinset, Uniaxial.hat i q) 0
        = ∫ s in (0 : ℝ)..1, -α * s := by
      refine intervalIntegral.integral_congr fun s _ => ?_
      simp only [n0]
      simp [pull, part, Uniaxial.hat]
      field_simp
    rw [this, intervalIntegral.integral_const_mul, integral_id]; ring
  have hs : southForce 1 trapezoid (pull α β 1 false) (fun q => ∑ i ∈ [1, 3].toFinset, Uniaxial.hat i q) 0 = 0 := by
    simp [southForce, pull, part]
  refine ⟨trapezoid, affine (Spec.Uniaxial.stretch 2 1) 0 trapezoid, pull α β, Uniaxial.hat, [1, 3], trapezoid_sheet,
    pull_smooth α β, hβ, Uniaxial.hat_east.smooth, hl, ?_, fun glob rhs hi hr => ?_⟩
  · rw [he]; exact mul_ne_zero two_ne_zero hα0
  · rw [C146_formula zero_le_one trapezoid_sheet.smooth (pull_smooth α β) hβ Uniaxial.hat_east.smooth hl hi hr, he, hn, hs]
    ring

/-! ## Examples -/

/-- The numbering of the examples: three numbers per function. -/
def number (_ c i : ℕ) : ℕ := 3 * i + c

theorem number_inj (k : ℕ) : Function.Injective (number 0 k) := fun a b h => by
  simpa [number] using h

/-- The four sides of the trapezoid together carry no force along `y`. -/
example (r : Rule) (t E ν : ℝ) : ∃ g : Fin 2 → Bool → ℝ × ℝ → V3, Solution.boundaryForce number
    (fun n => residualForm trapezoid (affine (Spec.Uniaxial.stretch 2 1) 0 trapezoid) (linearSection r t E ν) 0 (rect 1 1)
      (field (Uniaxial.hat (n / 3)) (n % 3))) [⟨0, [0, 1, 2, 3]⟩] 1
    = -(eastForce 1 1 trapezoid (g 0 true) (fun _ => 1) 1 + westForce 1 trapezoid (g 0 false) (fun _ => 1) 1
        + northForce 1 1 trapezoid (g 1 true) (fun _ => 1) 1 + southForce 1 trapezoid (g 1 false) (fun _ => 1) 1) := by
  obtain ⟨β, hβ⟩ := linear_pull r t E ν
  refine ⟨_, C146_all zero_le_one zero_le_one trapezoid_sheet.smooth (pull_smooth _ β) hβ Uniaxial.hat_east.smooth
    ⟨fun s _ => ?_, fun s _ => ?_⟩ number_inj fun i => ?_⟩
  · have e : [0, 1, 2, 3].toFinset = ({0, 1, 2, 3} : Finset ℕ) := rfl
    rw [e]
    constructor <;> simp [Uniaxial.hat]
  · have e : [0, 1, 2, 3].toFinset = ({0, 1, 2, 3} : Finset ℕ) := rfl
    rw [e]
    constructor <;> simp [Uniaxial.hat]
  · have h1 : number 0 1 i / 3 = i := by unfold number; omega
    have h2 : number 0 1 i % 3 = 1 := by unfold number; omega
    simp only [h1, h2]

/-- A unit traction on the right side, of length 2. -/
example (R : (ℝ × ℝ → V3) → ℝ) (hR : ∀ v, SmoothOn 2 v Set.univ → R v
    + neumannForm 1 1 trapezoid (fun i e _ => if i = 0 then (if e then ⟨1, 0, 0⟩ else ⟨-2, 0, 0⟩) else 0) v = 0) :
    Solution.boundaryForce number (fun n => R (field (Uniaxial.hat (n / 3)) (n % 3))) [⟨0, [1, 3]⟩] 0 = -2 := by
  rw [C146_free_partial (g := fun i e _ => if i = 0 then (if e then ⟨1, 0, 0⟩ else ⟨-2, 0, 0⟩) else 0) zero_le_one
    trapezoid_sheet.smooth (fun _ _ _ => continuous_const) (fun _ _ => by simp) hR Uniaxial.hat_east.smooth
    (l := [1, 3]) ⟨fun s hs => Uniaxial.hat_east.one s hs, fun i hi s hs => Uniaxial.hat_east.far i hi s hs⟩ number_inj
    fun i => ?_]
  · have n1 : ∀ s : ℝ, V3.norm (vpd 1 trapezoid (1, s)) = 2 := by
      intro s
      rw [(trapezoid_vpd _).2]
      simp only [V3.norm, dot]
      rw [show (0 : ℝ) * 0 + (1 + 1) * (1 + 1) + 0 * 0 = 2 ^ 2 by norm_num, Real.sqrt_sq (by norm_num)]
    simp [eastForce, part, n1]
  · have h1 : number 0 0 i / 3 = i := by unfold number; omega
    have h2 : number 0 0 i % 3 = 0 := by unfold number; omega
    simp only [h1, h2]

/-- The assembled right-hand side of the stretched trapezoid, integrated by the rule with one point in the middle. -/
example (r : Rule) (t E ν : ℝ) : ∃ g : Fin 2 → Bool → ℝ × ℝ → V3, Solution.boundaryForce number
    (Solution.forceVector {(1 / 2, 1 / 2)} (fun _ => 1) (fun q => Variation.measure (jet trapezoid q))
      (jet (affine (Spec.Uniaxial.stretch 2 1) 0 trapezoid))
      (fun q => (linearSection r t E ν (jet trapezoid q) (jet (affine (Spec.Uniaxial.stretch 2 1) 0 trapezoid) q)).N)
      (fun q => (linearSection r t E ν (jet trapezoid q) (jet (affine (Spec.Uniaxial.stretch 2 1) 0 trapezoid) q)).M)
      (fun n => jet (field (Uniaxial.hat (n / 3)) (n % 3)))) [⟨0, [1, 3]⟩] 0
    = -eastForce 1 1 trapezoid (g 0 true) (fun _ => 1) 0
      - northForce 1 1 trapezoid (g 1 true) (fun q => ∑ i ∈ [1, 3].toFinset, Uniaxial.hat i q) 0
      - southForce 1 trapezoid (g 1 false) (fun q => ∑ i ∈ [1, 3].toFinset, Uniaxial.hat i q) 0 := by
  obtain ⟨β, hβ⟩ := linear_pull r t E ν
  refine ⟨_, C146_assembled zero_le_one trapezoid_sheet.smooth (pull_smooth _ β) hβ Uniaxial.hat_east.smooth
    (l := [1, 3]) ⟨fun s hs => Uniaxial.hat_east.one s hs, fun i hi s hs => Uniaxial.hat_east.far i hi s hs⟩ number_inj
    (fun i => ?_) fun i => ?_⟩
  · have h1 : number 0 0 i / 3 = i := by unfold number; omega
    have h2 : number 0 0 i % 3 = 0 := by unfold number; omega
    simp only [h1, h2]
  · have d := (Uniaxial.hat_east.smooth i).differentiable (by norm_num)
    have hh : ∃ c0 c1 c2 : ℝ, ∀ q : ℝ × ℝ, (1 + q.1) * pd 0 (Uniaxial.hat i) q - q.2 * pd 1 (Uniaxial.hat i) q
        = c0 + c1 * q.1 + c2 * q.2 := by
      have key : ∃ e0 e1 e2 e3 : ℝ, ∀ q, Uniaxial.hat i q = e0 + e1 * q.1 + e2 * q.2 + e3 * (q.1 * q.2) := by
        unfold Uniaxial.hat
        split
        · exact ⟨1, -1, -1, 1, fun q => by ring⟩
        split
        · exact ⟨0, 1, 0, -1, fun q => by ring⟩
        split
        · exact ⟨0, 0, 1, -1, fun q => by ring⟩
        · exact ⟨0, 0, 0, 1, fun q => by ring⟩
      obtain ⟨e0, e1, e2, e3, he⟩ := key
      refine ⟨e1, e1, e3 - e2, fun q => ?_⟩
      have p0 : pd 0 (Uniaxial.hat i) q = e1 + e3 * q.2 := by
        refine pd0 d q ?_
        simp only [he]
        have := (((hasDerivAt_id' q.1).const_mul e1).const_add e0).add_const (e2 * q.2)
        exact (this.add (((hasDerivAt_id' q.1).mul_const q.2).const_mul e3)).congr_deriv (by ring)
      have p1 : pd 1 (Uniaxial.hat i) q = e2 + e3 * q.1 := by
        refine pd1 d q ?_
        simp only [he]
        have := ((hasDerivAt_id' q.2).const_mul e2).const_add (e0 + e1 * q.1)
        exact (this.add (((hasDerivAt_id' q.2).const_mul q.1).const_mul e3)).congr_deriv (by ring)
      rw [p0, p1]; ring
    obtain ⟨c0, c1, c2, hc⟩ := hh
    rw [Finset.sum_singleton, linear_work r t E ν _ (by norm_num : (0 : ℝ) ≤ ((1 / 2, 1 / 2) : ℝ × ℝ).1), hc]
    refine Eq.trans ?_ (MeasureTheory.setIntegral_congr_fun (measurableSet_Icc.prod measurableSet_Icc) fun q hq =>
      linear_work r t E ν _ hq.1.1).symm
    simp only [hc]
    refine Eq.trans ?_ (rect_xy (f := fun q => -(3 * t * (Linear.Cconst E ν + 2 * Linear.mu E ν))
      * (c0 + c1 * q.1 + c2 * q.2)) (by fun_prop) zero_le_one zero_le_one).symm
    simp only [intervalIntegral.integral_const_mul]
    have : ∀ x : ℝ, ∫ y in (0 : ℝ)..1, (c0 + c1 * x + c2 * y) = c0 + c1 * x + c2 / 2 := by
      intro x
      rw [intervalIntegral.integral_add (by simp) (by apply Continuous.intervalIntegrable; fun_prop),
        intervalIntegral.integral_const_mul, integral_id, intervalIntegral.integral_const]
      simp; ring
    simp only [this]
    rw [intervalIntegral.integral_add (by apply Continuous.intervalIntegrable; fun_prop) (by simp),
      intervalIntegral.integral_add (by simp) (by apply Continuous.intervalIntegrable; fun_prop),
      intervalIntegral.integral_const_mul, integral_id, intervalIntegral.integral_const, intervalIntegral.integral_const]
    simp only [smul_eq_mul]; ring

end Verif.Reaction
