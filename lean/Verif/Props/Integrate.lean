import Verif.Lemmas.Integrate
import Verif.Lemmas.Linear

/-! # Properties C23 – C26: integration through the thickness -/

namespace Verif.Integrate

open Verif.Linear (Output)
open Verif.Geometry

/-! ## C23 -/

/-- **C23** The closed form for quantities constant through the thickness is the exact
moment, for every thickness, moment and value. -/
theorem C23_constant (t : ℝ) (m : Nat) (c : ℝ) :
    multiplyZ t m (fun _ => c) = moment t m (fun _ => c) := by
  rw [moment_const]
  unfold multiplyZ
  rcases Nat.even_or_odd (m + 1) with h | h
  · have hm : m % 2 ≠ 0 := by rcases h with ⟨k, hk⟩; omega
    rw [if_pos hm, h.neg_pow]; ring
  · have hm : ¬ m % 2 ≠ 0 := by rcases h with ⟨k, hk⟩; omega
    rw [if_neg hm, h.neg_pow]; ring

/-- **C23** The closed form for quantities affine in the height is the exact moment, for every
thickness, every moment and every affine quantity (`f` is the quantity in the scaled height). -/
theorem C23_linear (t : ℝ) (m : Nat) (g h : ℝ) :
    multiplyLinZ t m (fun ξ => g + h * (ξ * t)) = moment t m (fun z => g + h * z) := by
  rw [moment_linear]
  unfold multiplyLinZ
  have e1 : (1 / 2 * t) = t / 2 := by ring
  have e2 : (-(1 / 2) * t) = -(t / 2) := by ring
  rw [e1, e2]
  have p1 : (m : ℝ) + 1 ≠ 0 := by positivity
  have p2 : (m : ℝ) + 2 ≠ 0 := by positivity
  rcases Nat.even_or_odd m with he | ho
  · have hm : m % 2 = 0 := Nat.even_iff.1 he
    have o1 : Odd (m + 1) := he.add_one
    have o2 : Even (m + 2) := by rcases he with ⟨k, hk⟩; exact ⟨k + 1, by omega⟩
    rw [if_pos hm, o1.neg_pow, o2.neg_pow]
    rw [add_zero]
    field_simp
    ring
  · have hm : ¬ m % 2 = 0 := by rcases ho with ⟨k, hk⟩; omega
    have o1 : Even (m + 1) := ho.add_one
    have o2 : Odd (m + 2) := by rcases ho with ⟨k, hk⟩; exact ⟨k + 1, by omega⟩
    rw [if_neg hm, o1.neg_pow, o2.neg_pow]
    have e3 : (m : ℝ) + 1 + 1 = m + 2 := by ring
    rw [e3]
    field_simp
    ring

/-- Non-vacuity: second moment of an affine quantity. -/
example : multiplyLinZ 2 2 (fun ξ => 3 + 5 * (ξ * 2)) = 2 := by unfold multiplyLinZ; norm_num

/-- Non-vacuity: first moment of an affine quantity. -/
example : multiplyLinZ 2 1 (fun ξ => 3 + 5 * (ξ * 2)) = 10 / 3 := by unfold multiplyLinZ; norm_num

/-! ## C24 -/

/-- **C24** A quadrature rule exact up to degree `d` gives the exact `m`-th moment of every
polynomial of degree `p` with `p + m ≤ d`, for every thickness. -/
theorem C24_exact (r : Rule) (d : Nat) (hr : r.Exact d) (t : ℝ) (m p : Nat) (hp : p + m ≤ d)
    (c : Nat → ℝ) :
    integrateZ r t m (fun ξ => ∑ k ∈ Finset.range (p + 1), c k * (ξ * t) ^ k) =
      moment t m (fun z => ∑ k ∈ Finset.range (p + 1), c k * z ^ k) := by
  rw [moment_sum t m _ (fun k z => c k * z ^ k) (fun k => by fun_prop)]
  unfold integrateZ
  simp only [Finset.mul_sum, Finset.sum_mul]
  rw [Finset.sum_comm]
  refine Finset.sum_congr rfl fun k hk => ?_
  rw [moment_monomial, moment_scale, ← hr (m + k) (by have := Finset.mem_range.1 hk; omega),
    Finset.mul_sum, Finset.mul_sum]
  refine Finset.sum_congr rfl fun j _ => ?_
  rw [mul_pow, mul_pow, pow_add, pow_add, pow_add]; ring

/-- **C24** For affine quantities the quadrature and the closed form agree (rule exact to
degree `m + 1`). -/
theorem C24_agrees_with_closed_form (r : Rule) (t : ℝ) (m : Nat) (hr : r.Exact (m + 1)) (g h : ℝ) :
    integrateZ r t m (fun ξ => g + h * (ξ * t)) = multiplyLinZ t m (fun ξ => g + h * (ξ * t)) := by
  rw [C23_linear]
  have := C24_exact r (m + 1) hr t m 1 (by omega) (fun k => if k = 0 then g else h)
  simpa [Finset.sum_range_succ] using this

/-- **C24** For constant quantities it agrees with the other closed form (degree `m`). -/
theorem C24_agrees_with_constant (r : Rule) (t : ℝ) (m : Nat) (hr : r.Exact m) (g : ℝ) :
    integrateZ r t m (fun _ => g) = multiplyZ t m (fun _ => g) := by
  rw [C23_constant]
  have := C24_exact r m hr t m 0 (by omega) (fun _ => g)
  simpa [Finset.sum_range_succ] using this

/-- **C24** Without enough nodes the result is wrong: the one-point rule is exact to degree 1
but misses the second moment, so `p + m ≤ d` cannot be dropped. -/
theorem C24_bound_needed : ∃ r : Rule, r.Exact 1 ∧ integrateZ r 1 2 (fun _ => 1) ≠ moment 1 2 (fun _ => 1) := by
  refine ⟨⟨1, fun _ => 0, fun _ => 1⟩, ?_, ?_⟩
  · intro k hk
    interval_cases k
    · norm_num [integral_pow]
    · norm_num [integral_pow]
  · rw [moment_const]; norm_num [integrateZ]

/-- Non-vacuity: the two-point Gauss rule is exact to degree 3. -/
example : (⟨2, ![-(1 / (2 * Real.sqrt 3)), 1 / (2 * Real.sqrt 3)], ![1 / 2, 1 / 2]⟩ : Rule).Exact 3 := by
  have h3 : Real.sqrt 3 * Real.sqrt 3 = 3 := Real.mul_self_sqrt (by norm_num)
  have hne : Real.sqrt 3 ≠ 0 := by positivity
  have h2 : (1 / (2 * Real.sqrt 3)) ^ 2 = 1 / 12 := by
    rw [div_pow, mul_pow, pow_two (Real.sqrt 3), h3]; norm_num
  intro k hk
  interval_cases k
  · rw [Fin.sum_univ_two, integral_pow]; norm_num
  · rw [Fin.sum_univ_two, integral_pow]; norm_num
  · rw [Fin.sum_univ_two, integral_pow]
    simp only [Matrix.cons_val_zero, Matrix.cons_val_one]
    rw [neg_sq, h2]; norm_num
  · rw [Fin.sum_univ_two, integral_pow]
    simp only [Matrix.cons_val_zero, Matrix.cons_val_one]
    rw [Odd.neg_pow (by decide)]; norm_num

/-! ## C25 -/

/-- Membrane resultant of the linear material as delivered by the evaluator. -/
noncomputable def resultantN (E ν t : ℝ) (A ε : T2) (k : Fin 3) (r : Rule) : Outcome ℝ :=
  evalInto .constant r .vectorN t (fun _ => Linear.stress E ν A ε k)

/-- Bending resultant of the linear material as delivered by the evaluator. -/
noncomputable def resultantM (E ν t : ℝ) (A κ : T2) (k : Fin 3) (r : Rule) : Outcome ℝ :=
  evalInto .constant r .vectorM t (fun _ => Linear.stress E ν A κ k)

/-- Stiffness `o` (A, B, C or D) of the linear material as delivered by the evaluator. -/
noncomputable def stiffness (E ν t : ℝ) (A : T2) (o : Output) (i j : Fin 3) (r : Rule) : Outcome ℝ :=
  evalInto .constant r o t (fun _ => Linear.matrix E ν A i j)

/-- **C25** Stiffnesses: `A = t·C`, `D = t³/12·C`, `B = C = 0`. -/
theorem C25_stiffness (E ν t : ℝ) (A : T2) (i j : Fin 3) (r : Rule) :
    stiffness E ν t A .matrixA i j r = .ok (t * Linear.matrix E ν A i j) ∧
    stiffness E ν t A .matrixB i j r = .ok 0 ∧
    stiffness E ν t A .matrixC i j r = .ok 0 ∧
    stiffness E ν t A .matrixD i j r = .ok (t ^ 3 / 12 * Linear.matrix E ν A i j) := by
  refine ⟨?_, ?_, ?_, ?_⟩ <;> simp [stiffness, evalInto, constMoment, getMoment, multiplyZ] <;> ring

/-- **C25** The resultants are the stiffnesses applied to the Voigt strains (membrane and
bending strain with doubled shear), and they are the moments of the stress of the full strain
`ε + z κ` through the thickness: the coupling terms vanish. -/
theorem C25_resultants (E ν t : ℝ) (A ε κ : T2) (hA : ∀ i j, A i j = A j i)
    (hε : ε 0 1 = ε 1 0) (hκ : κ 0 1 = κ 1 0) (k : Fin 3) (r : Rule) :
    resultantN E ν t A ε k r =
      .ok (t * mulVec3 (Linear.matrix E ν A) (vec3 (ε 0 0) (ε 1 1) (ε 0 1 + ε 1 0)) k) ∧
    resultantM E ν t A κ k r =
      .ok (t ^ 3 / 12 * mulVec3 (Linear.matrix E ν A) (vec3 (κ 0 0) (κ 1 1) (κ 0 1 + κ 1 0)) k) ∧
    resultantN E ν t A ε k r =
      .ok (moment t 0 (fun z => Linear.stress E ν A (fun i j => ε i j + z * κ i j) k)) ∧
    resultantM E ν t A κ k r =
      .ok (moment t 1 (fun z => Linear.stress E ν A (fun i j => ε i j + z * κ i j) k)) := by
  have hs : ∀ e : T2, e 0 1 = e 1 0 → Linear.stress E ν A e k =
      mulVec3 (Linear.matrix E ν A) (vec3 (e 0 0) (e 1 1) (e 0 1 + e 1 0)) k := by
    intro e he
    have h10 := hA 1 0
    rcases fin3_cases k with rfl | rfl | rfl <;>
      simp [Linear.stress, mulVec3, Linear.matrix, Linear.Sij, Fin.sum_univ_three, Linear.Cval, he, h10]
        <;> ring
  have hlin : (fun z => Linear.stress E ν A (fun i j => ε i j + z * κ i j) k) =
      fun z => Linear.stress E ν A ε k + Linear.stress E ν A κ k * z := by
    funext z
    rcases fin3_cases k with rfl | rfl | rfl <;> simp [Linear.stress, Linear.Sij] <;> ring
  refine ⟨?_, ?_, ?_, ?_⟩
  · rw [← hs ε hε]
    simp [resultantN, evalInto, constMoment, multiplyZ]; ring
  · rw [← hs κ hκ]
    simp [resultantM, evalInto, constMoment, multiplyZ]; ring
  · rw [hlin, moment_linear]
    simp only [resultantN, evalInto, constMoment, multiplyZ]; norm_num; left; ring
  · rw [hlin, moment_linear]
    simp only [resultantM, evalInto, constMoment, multiplyZ]; norm_num; left; ring

/-- Non-vacuity: bending moment of a unit curvature. -/
example (r : Rule) : resultantM 12 0 2 ![![1, 0], ![0, 1]] ![![1, 0], ![0, 0]] 0 r = .ok 8 := by
  simp [resultantM, evalInto, constMoment, multiplyZ, Linear.stress, Linear.Sij, Linear.Cval,
    Linear.Cconst, Linear.mu, Linear.lam]
  norm_num

/-! ## C26 -/

/-- **C26** is violated: for a material constant through the thickness the flexural principal
stress delivered by the evaluator is zero for every thickness and every value, while the
bending resultant of the same quantity is `t³/12` times it. -/
theorem C26_pstressM_violated (r : Rule) (t p : ℝ) (ht : t ≠ 0) (hp : p ≠ 0) :
    evalInto .constant r .pstressM t (fun _ => p) = .ok 0 ∧
    evalInto .constant r .vectorM t (fun _ => p) = .ok (moment t 1 (fun z => p * z)) ∧
    moment t 1 (fun z => p * z) ≠ 0 := by
  have hm : moment t 1 (fun z => p * z) = t ^ 3 / 12 * p := by
    have := moment_linear t 1 0 p
    simp only [zero_add] at this
    rw [this]; push_cast; ring
  refine ⟨by simp [evalInto, constMoment, getMoment, multiplyZ], ?_, ?_⟩
  · rw [hm]; simp [evalInto, constMoment, multiplyZ]; ring
  · rw [hm]; exact mul_ne_zero (div_ne_zero (pow_ne_zero 3 ht) (by norm_num)) hp

/-- **C26** (partial) For materials integrated numerically, or affine in the height, the
flexural principal stress is the first moment of the pointwise principal stress. -/
theorem C26_pstressM_partial (r : Rule) (t g h : ℝ) (hr : r.Exact 2) :
    evalInto .notIntegrated r .pstressM t (fun ξ => g + h * (ξ * t)) =
      .ok (moment t 1 (fun z => g + h * z)) ∧
    evalInto .linear r .pstressM t (fun ξ => g + h * (ξ * t)) =
      .ok (moment t 1 (fun z => g + h * z)) := by
  refine ⟨?_, ?_⟩
  · simp only [evalInto, getMoment]
    rw [C24_agrees_with_closed_form r t 1 hr, C23_linear]
  · simp only [evalInto, getMoment]
    rw [C23_linear]

/-- **C26** The membrane principal stress is delivered with the right moment in every case. -/
theorem C26_pstressN (r : Rule) (t p : ℝ) (hr : r.Exact 0) :
    evalInto .constant r .pstressN t (fun _ => p) = .ok (moment t 0 (fun _ => p)) ∧
    evalInto .notIntegrated r .pstressN t (fun _ => p) = .ok (moment t 0 (fun _ => p)) := by
  refine ⟨?_, ?_⟩
  · simp only [evalInto, constMoment, getMoment]; rw [C23_constant]
  · simp only [evalInto, getMoment]; rw [C24_agrees_with_constant r t 0 hr, C23_constant]

/-- Non-vacuity: bending with principal stress 3 over thickness 2. -/
example (r : Rule) : evalInto .constant r .vectorM 2 (fun _ => 3) = .ok 2 := by
  simp [evalInto, constMoment, multiplyZ]; norm_num

end Verif.Integrate
