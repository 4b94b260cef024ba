import Verif.Lemmas.SectionForces
import Verif.Props.Integrate

/-!
# C119: principal section forces

Property theorems.  `S ξ` is the stress tensor at the scaled height `ξ` and `x ξ ≤ y ξ` its
principal values in a metric that does not change through the thickness (flat reference
surface); `_evalPStress` returns these (C111).
-/

namespace Verif.SectionForces

open Verif.Integrate Spec.Principal Spec.SectionForces Verif.Principal

variable {r : Rule} {t : ℝ} {S : ℝ → T2} {G N : T2} {x y : ℝ → ℝ} {X Y xN yN : ℝ}

/-- C119: the sum of the two integrated principal stresses is the sum of the principal values
of the membrane force, for every rule, thickness and distribution of the stress. -/
theorem C119_sum (hN : ∀ i j, evalInto .notIntegrated r .vectorN t (fun ξ => S ξ i j) = .ok (N i j))
    (hX : evalInto .notIntegrated r .pstressN t x = .ok X)
    (hY : evalInto .notIntegrated r .pstressN t y = .ok Y)
    (hp : ∀ ξ, PrincipalValues (S ξ) G (x ξ) (y ξ)) (hpN : PrincipalValues N G xN yN) :
    X + Y = xN + yN := by
  simp only [evalInto, getMoment, integrateZ, Outcome.ok.injEq, pow_zero, mul_one] at hN hX hY
  rw [(sum_prod hpN).1, ← hX, ← hY]
  simp only [mul2]
  rw [← hN, ← hN, ← hN, ← hN, Finset.sum_mul, Finset.sum_mul, Finset.sum_mul, Finset.sum_mul,
    ← Finset.sum_add_distrib, ← Finset.sum_add_distrib, ← Finset.sum_add_distrib,
    ← Finset.sum_add_distrib]
  refine Finset.sum_congr rfl fun j _ => ?_
  have := (sum_prod (hp (r.ξ j))).1
  simp only [mul2] at this
  linear_combination (r.w j * t) * this

/-- C119: the interval spanned by the integrated principal stresses contains the principal
values of the membrane force (rules with weights of one sign, as those of Gauss). -/
theorem C119_contains (hw : ∀ j, 0 ≤ r.w j) (ht : 0 ≤ t) (hG : Metric G)
    (hS : ∀ ξ, S ξ 0 1 = S ξ 1 0)
    (hN : ∀ i j, evalInto .notIntegrated r .vectorN t (fun ξ => S ξ i j) = .ok (N i j))
    (hX : evalInto .notIntegrated r .pstressN t x = .ok X)
    (hY : evalInto .notIntegrated r .pstressN t y = .ok Y)
    (hp : ∀ ξ, PrincipalValues (S ξ) G (x ξ) (y ξ)) (hpN : PrincipalValues N G xN yN) :
    X ≤ xN ∧ xN ≤ yN ∧ yN ≤ Y := by
  simp only [evalInto, getMoment, integrateZ, Outcome.ok.injEq, pow_zero, mul_one] at hN hX hY
  have hSN : N 0 1 = N 1 0 := by
    rw [← hN, ← hN]; exact Finset.sum_congr rfl fun j _ => by rw [hS]
  have hform : ∀ a b, sf N G a b = ∑ j, r.w j * t * sf (S (r.ξ j)) G a b := by
    intro a b
    simp only [sf]
    rw [← hN, ← hN, ← hN, Finset.mul_sum, Finset.sum_mul, Finset.sum_mul, Finset.sum_mul,
      Finset.sum_mul, ← Finset.sum_add_distrib, ← Finset.sum_add_distrib]
    exact Finset.sum_congr rfl fun j _ => by ring
  have hwt : ∀ j, 0 ≤ r.w j * t := fun j => mul_nonneg (hw j) ht
  refine ⟨?_, hpN.le, ?_⟩
  · obtain ⟨a, b, hab, h⟩ := form_attained hpN hSN hG.symm (ρ := xN) (Or.inl rfl)
    have hq := qf_pos hG hab
    refine le_of_mul_le_mul_right ?_ hq
    rw [← h, hform, ← hX, Finset.sum_mul]
    refine Finset.sum_le_sum fun j _ => ?_
    have := mul_le_mul_of_nonneg_left (form_bounds (hp (r.ξ j)) (hS _) hG a b).1 (hwt j)
    linarith
  · obtain ⟨a, b, hab, h⟩ := form_attained hpN hSN hG.symm (ρ := yN) (Or.inr rfl)
    have hq := qf_pos hG hab
    refine le_of_mul_le_mul_right ?_ hq
    rw [← h, hform, ← hY, Finset.sum_mul]
    refine Finset.sum_le_sum fun j _ => ?_
    have := mul_le_mul_of_nonneg_left (form_bounds (hp (r.ξ j)) (hS _) hG a b).2 (hwt j)
    linarith

/-- C119 (partial): if the stress is a non-negative multiple of one tensor at every height plus
an isotropic part, the integrated principal stresses are the principal values of the membrane
force.  Missing: distributions whose principal directions change or cross. -/
theorem C119_membrane_partial (hw : ∀ j, 0 ≤ r.w j) (ht : 0 ≤ t) (S0 H : T2) (f p : ℝ → ℝ)
    (x0 y0 : ℝ) (hf : ∀ ξ, 0 ≤ f ξ)
    (hH : ∀ i j, mul2 H G i j = if i = j then 1 else 0)
    (h0 : PrincipalValues S0 G x0 y0)
    (hN : ∀ i j, evalInto .notIntegrated r .vectorN t
      (fun ξ => f ξ * S0 i j + p ξ * H i j) = .ok (N i j))
    (hX : evalInto .notIntegrated r .pstressN t x = .ok X)
    (hY : evalInto .notIntegrated r .pstressN t y = .ok Y)
    (hp : ∀ ξ, PrincipalValues (fun i j => f ξ * S0 i j + p ξ * H i j) G (x ξ) (y ξ)) :
    PrincipalValues N G X Y := by
  simp only [evalInto, getMoment, integrateZ, Outcome.ok.injEq, pow_zero, mul_one] at hN hX hY
  have e00 := hH 0 0
  have e01 := hH 0 1
  have e10 := hH 1 0
  have e11 := hH 1 1
  simp only [mul2, if_true, Fin.isValue, zero_ne_one, one_ne_zero, if_false] at e00 e01 e10 e11
  have comb : ∀ (c d : ℝ), 0 ≤ c →
      PrincipalValues (fun i j => c * S0 i j + d * H i j) G (c * x0 + d) (c * y0 + d) := by
    intro c d hc
    refine ⟨by have := mul_le_mul_of_nonneg_left h0.le hc; linarith, fun s => ?_⟩
    obtain ⟨hs, hpr⟩ := sum_prod h0
    have hpr' : x0 * y0 = mul2 S0 G 0 0 * mul2 S0 G 1 1 - mul2 S0 G 0 1 * mul2 S0 G 1 0 := by
      have := h0.roots 0; linarith
    have m : ∀ i j, mul2 (fun i j => c * S0 i j + d * H i j) G i j
        = c * mul2 S0 G i j + d * mul2 H G i j := fun i j => by simp only [mul2]; ring
    rw [m, m, m, m, hH, hH, hH, hH]
    simp only [if_true, Fin.isValue, zero_ne_one, one_ne_zero, if_false]
    linear_combination (c * (s - d)) * hs - c ^ 2 * hpr'
  have hx : ∀ ξ, x ξ = f ξ * x0 + p ξ ∧ y ξ = f ξ * y0 + p ξ := fun ξ =>
    values_unique (hp ξ) (comb (f ξ) (p ξ) (hf ξ))
  have hNeq : N = fun i j => (∑ k, r.w k * f (r.ξ k) * t) * S0 i j
      + (∑ k, r.w k * p (r.ξ k) * t) * H i j := by
    funext i j
    rw [← hN, Finset.sum_mul, Finset.sum_mul, ← Finset.sum_add_distrib]
    exact Finset.sum_congr rfl fun k _ => by ring
  have hXe : X = (∑ k, r.w k * f (r.ξ k) * t) * x0 + ∑ k, r.w k * p (r.ξ k) * t := by
    rw [← hX, Finset.sum_mul, ← Finset.sum_add_distrib]
    exact Finset.sum_congr rfl fun k _ => by rw [(hx _).1]; ring
  have hYe : Y = (∑ k, r.w k * f (r.ξ k) * t) * y0 + ∑ k, r.w k * p (r.ξ k) * t := by
    rw [← hY, Finset.sum_mul, ← Finset.sum_add_distrib]
    exact Finset.sum_congr rfl fun k _ => by rw [(hx _).2]; ring
  rw [hNeq, hXe, hYe]
  exact comb _ _ (Finset.sum_nonneg fun k _ => mul_nonneg (mul_nonneg (hw k) (hf _)) ht)

/-- Principal values of a stress proportional to the height. -/
theorem bending_values {S0 : T2} {x0 y0 : ℝ} (h0 : PrincipalValues S0 G x0 y0)
    (hp : ∀ ξ, PrincipalValues (fun i j => S0 i j * (ξ * t)) G (x ξ) (y ξ)) (ξ : ℝ) :
    x ξ = (x0 + y0) / 2 * (ξ * t) - (y0 - x0) / 2 * |ξ * t| ∧
    y ξ = (x0 + y0) / 2 * (ξ * t) + (y0 - x0) / 2 * |ξ * t| := by
  rcases le_total 0 (ξ * t) with h | h
  · obtain ⟨h1, h2⟩ := values_unique (hp ξ) (values_smul h h0)
    rw [abs_of_nonneg h]
    exact ⟨by rw [h1]; ring, by rw [h2]; ring⟩
  · have hn : PrincipalValues (fun i j => S0 i j * (ξ * t)) G (-(y0 * -(ξ * t)))
        (-(x0 * -(ξ * t))) := by
      have := values_neg (values_smul (c := -(ξ * t)) (by linarith) h0)
      have e : (fun i j => -(S0 i j * -(ξ * t))) = fun i j => S0 i j * (ξ * t) := by
        funext i j; ring
      rwa [e] at this
    obtain ⟨h1, h2⟩ := values_unique (hp ξ) hn
    rw [abs_of_nonpos h]
    exact ⟨by rw [h1]; ring, by rw [h2]; ring⟩

theorem second_moment {r : Rule} (hr : r.Exact 2) : ∑ j, r.w j * r.ξ j ^ 2 = 1 / 12 := by
  rw [hr 2 le_rfl, integral_pow]; norm_num

/-- C119: violated for moments.  In pure bending (stress proportional to the height) every
symmetric rule that is exact for quadratic functions returns the mean of the principal moments
for both values, whatever the tensor, the metric and the thickness.  The principal moments are
`x0 t³/12 ≤ y0 t³/12`. -/
theorem C119_moment_violated (hr : r.Exact 2) (hsym : Symmetric r) (S0 : T2) (x0 y0 : ℝ)
    (h0 : PrincipalValues S0 G x0 y0)
    (hp : ∀ ξ, PrincipalValues (fun i j => S0 i j * (ξ * t)) G (x ξ) (y ξ)) :
    (∀ i j, evalInto .notIntegrated r .vectorM t (fun ξ => S0 i j * (ξ * t))
      = .ok (S0 i j * (t ^ 3 / 12))) ∧
    evalInto .notIntegrated r .pstressM t x = .ok ((x0 + y0) / 2 * (t ^ 3 / 12)) ∧
    evalInto .notIntegrated r .pstressM t y = .ok ((x0 + y0) / 2 * (t ^ 3 / 12)) ∧
    (0 ≤ t → PrincipalValues (fun i j => S0 i j * (t ^ 3 / 12)) G (x0 * (t ^ 3 / 12))
      (y0 * (t ^ 3 / 12))) := by
  have hm := second_moment hr
  have hodd : ∑ j, r.w j * (r.ξ j * t * |r.ξ j * t|) = 0 :=
    sum_odd hsym (fun ξ => ξ * t * |ξ * t|) fun ξ => by
      have : -ξ * t = -(ξ * t) := by ring
      simp only [this, abs_neg]; ring
  have hb := bending_values h0 hp
  simp only [evalInto, getMoment, integrateZ, Outcome.ok.injEq, pow_one]
  refine ⟨fun i j => ?_, ?_, ?_, fun ht => values_smul (by positivity) h0⟩
  · have : ∑ k, r.w k * (r.ξ k * t) * (S0 i j * (r.ξ k * t)) * t
        = S0 i j * t ^ 3 * ∑ k, r.w k * r.ξ k ^ 2 := by
      rw [Finset.mul_sum]; exact Finset.sum_congr rfl fun k _ => by ring
    rw [this, hm]; ring
  · have : ∑ k, r.w k * (r.ξ k * t) * x (r.ξ k) * t
        = (x0 + y0) / 2 * t ^ 3 * (∑ k, r.w k * r.ξ k ^ 2)
          - (y0 - x0) / 2 * t * ∑ k, r.w k * (r.ξ k * t * |r.ξ k * t|) := by
      rw [Finset.mul_sum, Finset.mul_sum, ← Finset.sum_sub_distrib]
      exact Finset.sum_congr rfl fun k _ => by rw [(hb _).1]; ring
    rw [this, hm, hodd]; ring
  · have : ∑ k, r.w k * (r.ξ k * t) * y (r.ξ k) * t
        = (x0 + y0) / 2 * t ^ 3 * (∑ k, r.w k * r.ξ k ^ 2)
          + (y0 - x0) / 2 * t * ∑ k, r.w k * (r.ξ k * t * |r.ξ k * t|) := by
      rw [Finset.mul_sum, Finset.mul_sum, ← Finset.sum_add_distrib]
      exact Finset.sum_congr rfl fun k _ => by rw [(hb _).2]; ring
    rw [this, hm, hodd]; ring

/-- C119: violated for membrane forces.  In pure bending the membrane force vanishes, while the
integrated principal stresses are opposite and differ from zero as soon as a point of the rule
with positive weight lies off the middle surface and the two principal values differ. -/
theorem C119_membrane_violated (hr : r.Exact 2) (hw : ∀ j, 0 ≤ r.w j) (ht : 0 < t) (S0 : T2)
    (x0 y0 : ℝ) (h0 : PrincipalValues S0 G x0 y0) (hne : x0 < y0)
    (hp : ∀ ξ, PrincipalValues (fun i j => S0 i j * (ξ * t)) G (x ξ) (y ξ)) :
    (∀ i j, evalInto .notIntegrated r .vectorN t (fun ξ => S0 i j * (ξ * t)) = .ok 0) ∧
    ∃ c, 0 < c ∧ evalInto .notIntegrated r .pstressN t x = .ok (-c) ∧
      evalInto .notIntegrated r .pstressN t y = .ok c := by
  have hm := second_moment hr
  have h1 : ∑ j, r.w j * r.ξ j = 0 := by
    have := hr 1 (by norm_num)
    simp only [pow_one] at this
    rw [this]
    simp
  have hb := bending_values h0 hp
  have hc : 0 < ∑ j, r.w j * |r.ξ j * t| := by
    by_contra hn
    push Not at hn
    have hz := (Finset.sum_eq_zero_iff_of_nonneg fun j _ =>
      mul_nonneg (hw j) (abs_nonneg (r.ξ j * t))).1
      (le_antisymm hn (Finset.sum_nonneg fun j _ => mul_nonneg (hw j) (abs_nonneg (r.ξ j * t))))
    have : ∑ j, r.w j * r.ξ j ^ 2 = 0 := Finset.sum_eq_zero fun j hj => by
      rcases mul_eq_zero.1 (hz j hj) with h | h
      · rw [h, zero_mul]
      · have : r.ξ j = 0 := by simpa [ht.ne'] using h
        rw [this]; ring
    rw [this] at hm
    norm_num at hm
  have d := sub_pos.2 hne
  simp only [evalInto, getMoment, integrateZ, Outcome.ok.injEq, pow_zero, mul_one]
  refine ⟨fun i j => ?_, (y0 - x0) / 2 * t * ∑ j, r.w j * |r.ξ j * t|, by positivity, ?_, ?_⟩
  · have : ∑ k, r.w k * (S0 i j * (r.ξ k * t)) * t = S0 i j * t ^ 2 * ∑ k, r.w k * r.ξ k := by
      rw [Finset.mul_sum]; exact Finset.sum_congr rfl fun k _ => by ring
    rw [this, h1, mul_zero]
  · have : ∑ k, r.w k * x (r.ξ k) * t = (x0 + y0) / 2 * t ^ 2 * (∑ k, r.w k * r.ξ k)
          - (y0 - x0) / 2 * t * ∑ k, r.w k * |r.ξ k * t| := by
      rw [Finset.mul_sum, Finset.mul_sum, ← Finset.sum_sub_distrib]
      exact Finset.sum_congr rfl fun k _ => by rw [(hb _).1]; ring
    rw [this, h1]; ring
  · have : ∑ k, r.w k * y (r.ξ k) * t = (x0 + y0) / 2 * t ^ 2 * (∑ k, r.w k * r.ξ k)
          + (y0 - x0) / 2 * t * ∑ k, r.w k * |r.ξ k * t| := by
      rw [Finset.mul_sum, Finset.mul_sum, ← Finset.sum_add_distrib]
      exact Finset.sum_congr rfl fun k _ => by rw [(hb _).2]; ring
    rw [this, h1]; ring

/-! ### A case that meets the hypotheses -/

/-- Two points `±√(1/12)` of weight 1/2. -/
noncomputable def twoPoint : Rule := ⟨2, ![√(1 / 12), -√(1 / 12)], ![1 / 2, 1 / 2]⟩

theorem twoPoint_exact : twoPoint.Exact 2 := by
  intro k hk
  have hs : √(1 / 12 : ℝ) ^ 2 = 1 / 12 := Real.sq_sqrt (by norm_num)
  have e : ∑ j, twoPoint.w j * twoPoint.ξ j ^ k
      = 1 / 2 * √(1 / 12) ^ k + 1 / 2 * (-√(1 / 12)) ^ k := Fin.sum_univ_two _
  rw [e, integral_pow]
  interval_cases k
  · norm_num
  · ring
  · rw [neg_sq, hs]; norm_num

theorem twoPoint_symmetric : Symmetric twoPoint :=
  ⟨(Equiv.swap 0 1 : Equiv.Perm (Fin 2)), fun j => by
    change Fin 2 at j
    rcases fin2_cases j with rfl | rfl
    · exact ⟨rfl, rfl⟩
    · exact ⟨(neg_neg _).symm, rfl⟩⟩

theorem twoPoint_nonneg : ∀ j, 0 ≤ twoPoint.w j := fun j => by
  change Fin 2 at j
  have h : (0 : ℝ) ≤ 1 / 2 := by norm_num
  rcases fin2_cases j with rfl | rfl
  · exact h
  · exact h

/-- Bending in one direction: moments `0` and `1/12` are reported as `1/24` twice. -/
example : ∃ (S0 G : T2) (x y : ℝ → ℝ), PrincipalValues S0 G 0 1 ∧ Metric G ∧
    (∀ ξ, PrincipalValues (fun i j => S0 i j * (ξ * 1)) G (x ξ) (y ξ)) ∧
    evalInto .notIntegrated twoPoint .pstressM 1 x = .ok (1 / 24) ∧
    evalInto .notIntegrated twoPoint .pstressM 1 y = .ok (1 / 24) := by
  have hI : PrincipalValues ![![1, 0], ![0, 0]] ![![1, 0], ![0, 1]] 0 1 :=
    ⟨by norm_num, fun s => by simp [mul2]; ring⟩
  have hp : ∀ ξ : ℝ, PrincipalValues (fun i j => (![![1, 0], ![0, 0]] : T2) i j * (ξ * 1))
      ![![1, 0], ![0, 1]] (min ξ 0) (max ξ 0) := by
    intro ξ
    rcases le_total 0 ξ with h | h
    · rw [min_eq_right h, max_eq_left h]
      exact ⟨h, fun s => by simp [mul2]; ring⟩
    · rw [min_eq_left h, max_eq_right h]
      exact ⟨h, fun s => by simp [mul2]; ring⟩
  have := C119_moment_violated twoPoint_exact twoPoint_symmetric _ 0 1 hI hp
  refine ⟨_, _, _, _, hI, ⟨by simp, by simp, by simp⟩, hp, ?_, ?_⟩
  · rw [this.2.1]; norm_num
  · rw [this.2.2.1]; norm_num

/-- The hypotheses of the theorems on membrane forces hold for a rule with two points and a
uniaxial stress. -/
example : (∀ j, 0 ≤ twoPoint.w j) ∧ PrincipalValues ![![1, 0], ![0, 0]] ![![1, 0], ![0, 1]] 0 1 ∧
    (∀ i j, mul2 ![![1, 0], ![0, 1]] ![![1, 0], ![0, 1]] i j = if i = j then (1 : ℝ) else 0) :=
  ⟨twoPoint_nonneg, ⟨by norm_num, fun s => by simp [mul2]; ring⟩, fun i j => by
    rcases fin2_cases i with rfl | rfl <;> rcases fin2_cases j with rfl | rfl <;> simp [mul2]⟩

end Verif.SectionForces
