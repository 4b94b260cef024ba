import Verif.Lemmas.TFTInterval

/-!
# Claim C143: the interval in which the wrinkling angle is searched first
-/

namespace Verif.TFTSearch

open Verif.TFT Verif.RootFind Verif.Relaxed Verif.Spec.Relaxed

/-- C143 (partial): for the linear isotropic material in orthonormal coordinates, with principal
stresses of opposite sign whose axes lie along the coordinate lines or their diagonals, the
interval contains the angle of the state, the searched function changes from negative to
positive in it, and the root found in it is this angle up to the tolerance.  Missing: other
directions, see the negative result. -/
theorem C143_aligned_partial (Y ν : ℝ) (hY : 0 < Y) (h1 : 0 ≤ ν) (h2 : ν < 1 / 2) (E : Voigt)
    (hd : (mulVec3 (Linear.matrix Y ν unit) E) 0 * (mulVec3 (Linear.matrix Y ν unit) E) 1
      < (mulVec3 (Linear.matrix Y ν unit) E) 2 ^ 2) (ha : E 2 = 0 ∨ E 0 = E 1) :
    ∃ a b θ : ℝ, a < θ ∧ θ < b ∧
      thetaInterval (Linear.matrix Y ν unit) (mulVec3 (Linear.matrix Y ν unit) E) E = (a, b) ∧
      State (Linear.matrix Y ν unit) (mulVec3 (Linear.matrix Y ν unit) E)
        (computeS θ (Linear.matrix Y ν unit) (mulVec3 (Linear.matrix Y ν unit) E))
        (fun i => gamma θ (Linear.matrix Y ν unit) (mulVec3 (Linear.matrix Y ν unit) E) * n1 θ i) ∧
      objective (Linear.matrix Y ν unit) (mulVec3 (Linear.matrix Y ν unit) E) θ = 0 ∧
      objective (Linear.matrix Y ν unit) (mulVec3 (Linear.matrix Y ν unit) E) a < 0 ∧
      0 < objective (Linear.matrix Y ν unit) (mulVec3 (Linear.matrix Y ν unit) E) b ∧
      ∀ (eps : ℝ) (newton : (ℝ → ℝ) → ℝ → ℝ) (x : ℝ), 0 ≤ eps →
        rootOf eps newton (objective (Linear.matrix Y ν unit)
          (mulVec3 (Linear.matrix Y ν unit) E)) a b = .ok x →
        |θ - x| ≤ 2 * (2 * eps * |x| + 1e-18) := by
  obtain ⟨hm, hcm⟩ := lame_pos hY (by linarith) h2
  have hl : 0 ≤ Linear.lam Y ν := by
    unfold Linear.lam
    have : 0 < 1 - 2 * ν := by linarith
    positivity
  have hc : 0 ≤ Linear.Cconst Y ν := by
    unfold Linear.Cconst
    positivity
  rw [linear_unit] at hd ⊢
  have hp := iso_pos hm hcm
  generalize Linear.Cconst Y ν = c at *
  generalize Linear.mu Y ν = m at *
  have hS := iso_stress c m E
  have hd' : 0 < (m * E 2) * (m * E 2)
      - (c * (E 0 + E 1) + 2 * m * E 0) * (c * (E 0 + E 1) + 2 * m * E 1) := by
    rw [hS] at hd
    simp only [vec3_zero, vec3_one, vec3_two] at hd
    linarith [sq (m * E 2)]
  have hne : E 0 ≠ E 1 ∨ E 2 ≠ 0 := by
    by_contra hn
    push Not at hn
    obtain ⟨e1, e2⟩ := hn
    rw [e1, e2] at hd'
    nlinarith [mul_self_nonneg (c * (E 1 + E 1) + 2 * m * E 1)]
  obtain ⟨R, t, h⟩ := iso_exists c m E hne
  have hR := h.pos
  obtain ⟨lo, hi, l0, l1, g0, g1, hiv⟩ := h.interval_aligned hm hc hd' ha
    (mk3 (c + 2 * m) c 0 c (c + 2 * m) 0 0 0 m)
  obtain ⟨s0, s1, -⟩ := h.signs hm hc hd'
  obtain ⟨x0, x1⟩ := h.axes
  rw [← hS] at hiv
  have o : objective (mk3 (c + 2 * m) c 0 c (c + 2 * m) 0 0 0 m)
      (mulVec3 (mk3 (c + 2 * m) c 0 c (c + 2 * m) 0 0 0 m) E) (-t / 2) = 0 := by
    rw [h.objective, show 2 * (-t / 2) + t = 0 by ring, Real.sin_zero, mul_zero]
  have k : 0 < 2 * m * R := by positivity
  have fa : objective (mk3 (c + 2 * m) c 0 c (c + 2 * m) 0 0 0 m)
      (mulVec3 (mk3 (c + 2 * m) c 0 c (c + 2 * m) 0 0 0 m) E) ((lo - t) / 2) < 0 := by
    rw [h.objective, show 2 * ((lo - t) / 2) + t = lo by ring]
    exact mul_neg_of_pos_of_neg k (Real.sin_neg_of_neg_of_neg_pi_lt l1 l0)
  have fb : 0 < objective (mk3 (c + 2 * m) c 0 c (c + 2 * m) 0 0 0 m)
      (mulVec3 (mk3 (c + 2 * m) c 0 c (c + 2 * m) 0 0 0 m) E) ((hi - t) / 2) := by
    rw [h.objective, show 2 * ((hi - t) / 2) + t = hi by ring]
    exact mul_pos k (Real.sin_pos_of_pos_of_lt_pi g0 g1)
  refine ⟨(lo - t) / 2, (hi - t) / 2, -t / 2, by linarith, by linarith, hiv, ?_, o, fa, fb, ?_⟩
  · refine state_of_angle hp o ?_ (tension_sign hp E _ o ?_)
    · rw [x0]; exact s0.le
    · rw [x1]; exact s1.le
  · intro eps newton x he hx
    obtain ⟨z, hz, f0, d⟩ := rootOf_upward (continuous_objective hp _) he (by linarith) fa fb hx
    have : z = -t / 2 := by
      rw [h.objective] at f0
      have f1 := (mul_eq_zero.1 f0).resolve_left k.ne'
      obtain ⟨z1, z2⟩ := hz
      have := (Real.sin_eq_zero_iff_of_lt_of_lt (by linarith) (by linarith)).1 f1
      linarith
    rw [this] at d
    exact d

example : (mulVec3 (Linear.matrix (8 / 3) (1 / 3) unit) (vec3 4 (-2) 0)) 0
    * (mulVec3 (Linear.matrix (8 / 3) (1 / 3) unit) (vec3 4 (-2) 0)) 1
      < (mulVec3 (Linear.matrix (8 / 3) (1 / 3) unit) (vec3 4 (-2) 0)) 2 ^ 2 := by
  rw [iso_third]
  norm_num [mulVec3, Fin.sum_univ_three]

/-- C143 (violated): an isotropic membrane in orthonormal coordinates with principal stresses of
opposite sign and turned axes.  The interval is not empty, but contains no zero of the searched
function at all: Brent's method and the bisection both fail, and only Newton's method, which may
leave the interval, remains. -/
theorem C143_turned_violated : ∃ (E : Voigt) (s0 s1 e0 e1 a b : ℝ),
    PrincipalStress unit (mulVec3 (Linear.matrix (8 / 3) (1 / 3) unit) E) s0 s1 ∧
    PrincipalStrain unit E e0 e1 ∧ s0 < 0 ∧ 0 < s1 ∧ tensionField 2 s0 s1 e0 e1 = .ok 0 ∧
    thetaInterval (Linear.matrix (8 / 3) (1 / 3) unit)
      (mulVec3 (Linear.matrix (8 / 3) (1 / 3) unit) E) E = (a, b) ∧ a ≠ 0 ∧ b ≠ 0 ∧ a < b ∧
    (∀ θ ∈ Set.Icc a b, objective (Linear.matrix (8 / 3) (1 / 3) unit)
      (mulVec3 (Linear.matrix (8 / 3) (1 / 3) unit) E) θ ≠ 0) ∧
    ∀ (eps : ℝ) (newton : (ℝ → ℝ) → ℝ → ℝ),
      rootOf eps newton (objective (Linear.matrix (8 / 3) (1 / 3) unit)
        (mulVec3 (Linear.matrix (8 / 3) (1 / 3) unit) E)) a b
      = .ok (newton (objective (Linear.matrix (8 / 3) (1 / 3) unit)
        (mulVec3 (Linear.matrix (8 / 3) (1 / 3) unit) E)) a) := by
  obtain ⟨k1, k2, k3⟩ := small_angle
  have hpi := Real.pi_pos
  have hr : Real.sqrt 2 * Real.sqrt 2 = 2 := Real.mul_self_sqrt (by norm_num)
  have hr1 : 141 / 100 ≤ Real.sqrt 2 := Real.le_sqrt_of_sq_le (by norm_num)
  have hr2 : Real.sqrt 2 ≤ 142 / 100 := by
    rw [Real.sqrt_le_left (by norm_num)]; norm_num
  have hh : 0 < Real.sqrt (1 / 2) := Real.sqrt_pos.2 (by norm_num)
  have neg : ∀ θ, Real.arctan (1 / 2) - Real.arctan (1 / 7) - Real.pi ≤ 2 * θ →
      2 * θ ≤ Real.arctan (1 / 2) + Real.arctan (1 / 7) - Real.pi →
      objective (mk3 3 1 0 1 3 0 0 0 1) (vec3 (12 / 5) (2 / 5) 1) θ < 0 := by
    intro θ l u
    rw [turn_objective]
    exact mul_neg_of_pos_of_neg (by positivity)
      (Real.sin_neg_of_neg_of_neg_pi_lt (by linarith) (by linarith))
  rw [iso_third]
  set r := Real.sqrt 2
  refine ⟨turnE, 7 / 5 - r, 7 / 5 + r, (7 / 10 - r) / 2, (7 / 10 + r) / 2,
    (Real.arctan (1 / 2) - Real.arctan (1 / 7) - Real.pi) / 2,
    (Real.arctan (1 / 2) + Real.arctan (1 / 7) - Real.pi) / 2, ⟨?_, ?_, ?_⟩, ⟨?_, ?_, ?_⟩,
    by linarith, by linarith, ?_, ?_, ?_, ?_, by linarith, ?_, ?_⟩
  · linarith
  · rw [turn_stress]; norm_num [unit, stressTensor, Fin.sum_univ_two]
  · rw [turn_stress]
    have : (7 / 5 - r) * (7 / 5 + r) = 49 / 25 - 2 := by linear_combination -hr
    rw [this]; norm_num [unit, stressTensor, det2]
  · linarith
  · rw [unit_inv]
    have : (7 / 10 - r) / 2 + (7 / 10 + r) / 2 = 7 / 10 := by ring
    rw [this]
    norm_num [unit, strainTensor, turnE, Fin.sum_univ_two]
  · have : (7 / 10 - r) / 2 * ((7 / 10 + r) / 2) = (49 / 100 - 2) / 4 := by
      linear_combination -hr / 4
    rw [this]
    norm_num [unit, strainTensor, turnE, det2]
  · refine mixed_wrinkled ?_ (by linarith)
    rw [max_eq_left (by linarith)]
    norm_num
    linarith
  · rw [turn_stress]; exact turn_interval _
  · linarith
  · linarith
  · intro θ hθ
    rw [turn_stress]
    exact (neg θ (by linarith [hθ.1]) (by linarith [hθ.2])).ne
  · intro eps newton
    rw [turn_stress]
    have fa := neg ((Real.arctan (1 / 2) - Real.arctan (1 / 7) - Real.pi) / 2) (by linarith)
      (by linarith)
    have fb := neg ((Real.arctan (1 / 2) + Real.arctan (1 / 7) - Real.pi) / 2) (by linarith)
      (by linarith)
    have fc : 0 < objective (mk3 3 1 0 1 3 0 0 0 1) (vec3 (12 / 5) (2 / 5) 1)
        (Real.arctan (1 / 7) / 2) := by
      rw [turn_objective]
      exact mul_pos (by positivity) (Real.sin_pos_of_pos_of_lt_pi (by linarith) (by linarith))
    have hc : ((Real.arctan (1 / 2) + Real.arctan (1 / 7) - Real.pi) / 2
        - (Real.arctan (1 / 2) - Real.arctan (1 / 7) - Real.pi) / 2) / 2
        = Real.arctan (1 / 7) / 2 := by ring
    have hb : (bisection (objective (mk3 3 1 0 1 3 0 0 0 1) (vec3 (12 / 5) (2 / 5) 1))
        ((Real.arctan (1 / 2) - Real.arctan (1 / 7) - Real.pi) / 2)
        ((Real.arctan (1 / 2) + Real.arctan (1 / 7) - Real.pi) / 2) 1e-6 1000).1 = false := by
      unfold bisection
      dsimp only
      rw [hc, bisectLoop_closed _ _ _ _ _ 999 ?_ fc.ne',
        if_pos (mul_neg_of_pos_of_neg fc fa), if_neg]
      · rw [abs_of_pos (by linarith)]
        norm_num
        linarith
      · rw [abs_of_pos (by linarith)]
        norm_num
        linarith
    unfold rootOf brent
    rw [if_pos (mul_pos_of_neg_of_neg fa fb).le]
    simp only [Outcome.bind, hb]
    rw [if_neg (by simp)]

end Verif.TFTSearch
