import Mathlib.Analysis.Real.Pi.Bounds
import Verif.Lemmas.TFTSearch
import Verif.Spec.TFTSearch

/-!
# Claim C142: the search for the wrinkling angle
-/

namespace Verif.TFTSearch

open Verif.TFT Verif.Relaxed Verif.Spec.Relaxed

/-- C142: at the angle of the state without compression the searched function changes from
negative to positive, for every positive definite law: it is a zero of the kind for which
Brent's method of the code is right. -/
theorem C142_upward (C : T3) (hC : PosDef C) (hs : Symm C) (S : Voigt) (θ : ℝ)
    (o : objective C S θ = 0) (n : comp (stressTensor S) (dirN θ) (dirN θ) < 0)
    (m : 0 ≤ comp (stressTensor (computeS θ C S)) (dirM θ) (dirM θ)) (a b : ℝ) (ha : a < θ)
    (hb : θ < b) (only : ∀ x ∈ Set.Icc a b, objective C S x = 0 → x = θ) :
    objective C S a < 0 ∧ 0 < objective C S b := by
  rw [comp_nn] at n
  exact upward hC hs o n m ha hb only

example : sample 24 < Real.pi / 2 ∧ Real.pi / 2 < sample 26 ∧
    ∀ x ∈ Set.Icc (sample 24) (sample 26),
      objective (mk3 3 1 0 1 3 0 0 0 1) (vec3 (-1) (-11) 0) x = 0 → x = Real.pi / 2 := by
  have hpi := Real.pi_pos
  refine ⟨?_, ?_, third_only⟩ <;> unfold sample <;> push_cast <;> linarith

/-- C142: if the stress without wrinkles is compressive or tensile in all directions of the
coordinates, the precomputed interval is not used. -/
theorem C142_interval (C : T3) (N E : Voigt) (h : N 2 ^ 2 ≤ N 0 * N 1) (eps : ℝ)
    (newton : (ℝ → ℝ) → ℝ → ℝ) (prev : ℝ) :
    angle eps newton prev ⟨C, N, E⟩ = scan eps newton ⟨C, N, E⟩ := by
  have := interval_definite C N E (by linarith [sq (N 2)])
  unfold angle
  simp only [this]
  rw [if_neg (by simp)]
  simp [Outcome.bind, this]

example : (vec3 (-1) (-11) 0 : Voigt) 2 ^ 2 ≤ (vec3 (-1) (-11) 0 : Voigt) 0 * (vec3 (-1) (-11) 0 : Voigt) 1 := by
  norm_num

/-- C142: the searched function has the period of the directions, so the test at the two ends
of the sampled range adds the candidate 0 exactly when 0 is a zero. -/
theorem C142_ends (C : T3) (S : Voigt) :
    objective C S (sample 0) * objective C S (sample 50) ≤ 0 ↔ objective C S 0 = 0 := by
  have h0 : sample 0 = 0 := by simp [sample]
  have h1 : sample 50 = 0 + Real.pi := by unfold sample; push_cast; ring
  rw [h0, h1, objective_pi]
  constructor
  · intro h
    have := mul_self_nonneg (objective C S 0)
    have : objective C S 0 * objective C S 0 = 0 := le_antisymm h this
    simpa using this
  · intro h; rw [h]; simp

theorem accepted_iff (θ : ℝ) (p : Pt) : checkTheta θ p.N p.E ↔ Accepted θ p.N p.E := by
  have e : dotV (n4 θ) p.E = comp (strainTensor p.E) (dirM θ) (dirM θ) + dirM θ 0 * dirM θ 1 * p.E 2 := by
    simp only [comp, strainTensor, dirM, dotV, n4, Fin.sum_univ_two, Fin.sum_univ_three, vec3_zero, vec3_one, vec3_two,
      Matrix.cons_val_zero, Matrix.cons_val_one]
    ring
  rw [checkTheta, Accepted, comp_nn, ← e]

/-- C142: the search on the intervals ends with an accepted candidate, or with the angle 0 if no
candidate is accepted, or with the error of Brent's method; no division by zero occurs. -/
theorem C142_result (eps : ℝ) (newton : (ℝ → ℝ) → ℝ → ℝ) (p : Pt) :
    scan eps newton p = .throws ∨ ∃ θ l, scan eps newton p = .ok θ ∧
      candidates eps newton (objective p.C p.N) = .ok l ∧
      ((θ ∈ l ∧ Accepted θ p.N p.E) ∨ (θ = 0 ∧ ∀ x ∈ l, ¬ Accepted x p.N p.E)) := by
  simp only [← accepted_iff]
  rcases h : scan eps newton p with θ | _ | _
  · obtain ⟨l, hl, g⟩ := scan_ok h
    exact Or.inr ⟨θ, l, rfl, hl, g⟩
  · exact Or.inl rfl
  · exfalso
    unfold scan at h
    rcases hc : candidates eps newton (objective p.C p.N) with l | _ | _
    · rw [hc] at h; simp [Outcome.bind] at h
    · rw [hc] at h; simp [Outcome.bind] at h
    · exact candidates_safe eps newton _ hc

/-- C142: the angle of a point passes the acceptance test, or no candidate of the search does and it
is 0. -/
theorem C142_accepted (eps : ℝ) (newton : (ℝ → ℝ) → ℝ → ℝ) (prev : ℝ) (p : Pt) (θ : ℝ)
    (h : angle eps newton prev p = .ok θ) :
    Accepted θ p.N p.E ∨ (θ = 0 ∧ ∃ l, candidates eps newton (objective p.C p.N) = .ok l ∧ ∀ x ∈ l, ¬ Accepted x p.N p.E) := by
  simp only [← accepted_iff]
  unfold angle at h
  simp only at h
  rcases h0 : (if (thetaInterval p.C p.N p.E).1 ≠ 0 ∧ (thetaInterval p.C p.N p.E).2 ≠ 0 then
      rootOf eps newton (objective p.C p.N) (thetaInterval p.C p.N p.E).1 (thetaInterval p.C p.N p.E).2
      else Outcome.ok prev) with x | _ | _
  · rw [h0, Outcome.bind] at h
    split_ifs at h with hc
    · obtain ⟨l, hl, g | g⟩ := scan_ok h
      · exact .inl g.2
      · exact .inr ⟨g.1, l, hl, g.2⟩
    · push Not at hc
      rw [← Outcome.ok.inj h]
      exact .inl hc.1
  · rw [h0] at h; simp [Outcome.bind] at h
  · rw [h0] at h; simp [Outcome.bind] at h

theorem bisect_stuck {f : ℝ → ℝ} {t c b : ℝ} (hc : f c ≠ 0) (n : ℕ) : RootFind.bisectLoop f t c n c b = (c, b) := by
  induction n with
  | zero => rfl
  | succ n ih =>
    rw [RootFind.bisectLoop]
    split_ifs with h1 h2
    · exact absurd (mul_self_pos.2 hc) (not_lt.2 h2.le)
    · exact ih
    · rfl

/-- C142: on an interval at whose ends and at half of whose length the searched function has one sign Brent's
method and the bisection report failure, and the result is that of Newton's method from the left end. -/
theorem C142_fallback (eps : ℝ) (newton : (ℝ → ℝ) → ℝ → ℝ) (f : ℝ → ℝ) (a b : ℝ)
    (h1 : 0 < f a * f b) (h2 : 0 < f ((b - a) / 2) * f a) (hl : 1e-6 < |b - a|) (hm : 1e-6 ≤ |(a + b) / 2|) :
    rootOf eps newton f a b = .ok (newton f a) := by
  have hc : f ((b - a) / 2) ≠ 0 := fun h => by rw [h, zero_mul] at h2; exact h2.false
  have hb : (RootFind.bisection f a b 1e-6 1000).1 = false := by
    have e : RootFind.bisectLoop f 1e-6 ((b - a) / 2) 1000 a b = ((b - a) / 2, b) := by
      rw [show (1000 : ℕ) = 999 + 1 from rfl, RootFind.bisectLoop, if_pos hl, if_neg hc, if_neg (not_lt.2 h2.le)]
      exact bisect_stuck hc 999
    simp only [RootFind.bisection, e]
    rw [if_neg]
    rw [show b - (b - a) / 2 = (a + b) / 2 by ring]
    exact not_lt.2 hm
  unfold rootOf
  rw [RootFind.brent, if_pos h1.le]
  simp [Outcome.bind, hb]

/-- Non-vacuity: a function without zeros on the interval from 1 to 2. -/
example : 0 < (fun x : ℝ => x + 1) 1 * (fun x : ℝ => x + 1) 2 ∧
    0 < (fun x : ℝ => x + 1) ((2 - 1) / 2) * (fun x : ℝ => x + 1) 1 ∧ (1e-6 : ℝ) < |2 - 1| ∧ (1e-6 : ℝ) ≤ |(1 + 2) / 2| := by
  refine ⟨by norm_num, by norm_num, ?_, ?_⟩ <;> norm_num [abs_of_pos]

/-- C142 (partial): if the angle of the state lies inside one of the 50 intervals and is the only
zero there, the candidates contain it up to the tolerance of Brent's method; and if the
acceptance test holds in this tolerance, the search returns an accepted candidate.  Missing:
other zeros in the same interval, see the negative result, and angles equal to a sample point
other than 0, where no strict change of sign is seen. -/
theorem C142_found_partial (C : T3) (hC : PosDef C) (hs : Symm C) (N E : Voigt) (θ : ℝ)
    (o : objective C N θ = 0) (n : comp (stressTensor N) (dirN θ) (dirN θ) < 0)
    (m : 0 ≤ comp (stressTensor (computeS θ C N)) (dirM θ) (dirM θ)) (i : ℕ) (hi : i < 50)
    (ha : sample i < θ) (hb : θ < sample (i + 1))
    (only : ∀ x ∈ Set.Icc (sample i) (sample (i + 1)), objective C N x = 0 → x = θ)
    (eps : ℝ) (newton : (ℝ → ℝ) → ℝ → ℝ) (he : 0 ≤ eps) (r : ℝ)
    (h : scan eps newton ⟨C, N, E⟩ = .ok r) : ∃ l, candidates eps newton (objective C N) = .ok l ∧
      (∃ x ∈ l, |θ - x| ≤ 2 * (2 * eps * |x| + 1e-18)) ∧
      ((∀ x, |θ - x| ≤ 2 * (2 * eps * |x| + 1e-18) → checkTheta x N E) →
        r ∈ l ∧ checkTheta r N E) := by
  rw [comp_nn] at n
  obtain ⟨l, hl, g⟩ := scan_ok h
  have hf := found hC hs o n m hi ha hb only he hl
  refine ⟨l, hl, hf, fun hacc => ?_⟩
  rcases g with g | g
  · exact g
  · obtain ⟨x, hx, d⟩ := hf
    exact absurd (hacc x d) (g.2 x hx)

/-- C142 (partial): for the linear isotropic material in orthonormal coordinates no other zero
can lie in the interval, so the candidates contain the angle of the state wherever it is between
the sample points. -/
theorem C142_isotropic_partial (Y ν : ℝ) (hY : 0 < Y) (h1 : -1 < ν) (h2 : ν < 1 / 2) (E : Voigt)
    (θ : ℝ) (o : objective (Linear.matrix Y ν unit) (mulVec3 (Linear.matrix Y ν unit) E) θ = 0)
    (n : comp (stressTensor (mulVec3 (Linear.matrix Y ν unit) E)) (dirN θ) (dirN θ) < 0)
    (m : 0 ≤ comp (stressTensor (computeS θ (Linear.matrix Y ν unit)
      (mulVec3 (Linear.matrix Y ν unit) E))) (dirM θ) (dirM θ))
    (i : ℕ) (hi : i < 50) (ha : sample i < θ) (hb : θ < sample (i + 1)) (eps : ℝ)
    (newton : (ℝ → ℝ) → ℝ → ℝ) (he : 0 ≤ eps) (l : List ℝ)
    (h : candidates eps newton (objective (Linear.matrix Y ν unit)
      (mulVec3 (Linear.matrix Y ν unit) E)) = .ok l) :
    ∃ x ∈ l, |θ - x| ≤ 2 * (2 * eps * |x| + 1e-18) := by
  obtain ⟨hm, hcm⟩ := lame_pos hY h1 h2
  rw [comp_nn] at n
  rw [linear_unit] at o n m h
  refine found (iso_pos hm hcm) (iso_symm _ _) o n m hi ha hb (fun x hx ox => ?_) he h
  refine iso_only hm hcm E o n m ox ?_
  obtain ⟨x1, x2⟩ := hx
  have e : sample (i + 1) - sample i = Real.pi / 50 := by unfold sample; push_cast; ring
  rw [abs_le]
  constructor <;> linarith

/-- The hypotheses of the two partial results, for the strain with principal values 1 and -4 whose
axes are turned by 1/100. -/
example : ∃ (E : Voigt) (θ : ℝ) (i : ℕ), i < 50 ∧ sample i < θ ∧ θ < sample (i + 1) ∧
    objective (Linear.matrix (8 / 3) (1 / 3) unit) (mulVec3 (Linear.matrix (8 / 3) (1 / 3) unit) E)
      θ = 0 ∧
    comp (stressTensor (mulVec3 (Linear.matrix (8 / 3) (1 / 3) unit) E)) (dirN θ) (dirN θ) < 0 ∧
    0 ≤ comp (stressTensor (computeS θ (Linear.matrix (8 / 3) (1 / 3) unit)
      (mulVec3 (Linear.matrix (8 / 3) (1 / 3) unit) E))) (dirM θ) (dirM θ) := by
  have hpi := Real.pi_gt_three
  have hcs := Real.cos_sq_add_sin_sq (1 / 100 : ℝ)
  have h4 : (Real.cos (1 / 100) ^ 2 + Real.sin (1 / 100) ^ 2) ^ 2 = 1 := by rw [hcs]; norm_num
  have hM : mk3 3 1 0 1 3 0 0 0 1 = mk3 (1 + 2 * 1) 1 0 1 (1 + 2 * 1) 0 0 0 1 := by norm_num
  rw [iso_third]
  refine ⟨vec3 (-4 * Real.cos (1 / 100) ^ 2 + Real.sin (1 / 100) ^ 2)
    (-4 * Real.sin (1 / 100) ^ 2 + Real.cos (1 / 100) ^ 2)
    (-10 * (Real.cos (1 / 100) * Real.sin (1 / 100))), 1 / 100, 0, by norm_num, ?_, ?_, ?_, ?_, ?_⟩
  · norm_num [sample]
  · unfold sample; push_cast; linarith
  all_goals
    generalize hθ : (1 / 100 : ℝ) = θ at *
  · rw [hM, iso_objective]
    simp only [vec3_zero, vec3_one, vec3_two]
    ring
  · rw [comp_nn]
    have : dotV (n1 θ) (mulVec3 (mk3 3 1 0 1 3 0 0 0 1) (vec3 (-4 * Real.cos θ ^ 2 + Real.sin θ ^ 2)
        (-4 * Real.sin θ ^ 2 + Real.cos θ ^ 2) (-10 * (Real.cos θ * Real.sin θ)))) = -11 := by
      simp only [dotV, mulVec3, n1, Fin.sum_univ_three, mk3_zero, mk3_one, mk3_two,
        vec3_zero, vec3_one, vec3_two]
      linear_combination -11 * h4
    rw [this]; norm_num
  · have d1 : dotV (n1 θ) (mulVec3 (mk3 3 1 0 1 3 0 0 0 1) (vec3 (-4 * Real.cos θ ^ 2 + Real.sin θ ^ 2)
        (-4 * Real.sin θ ^ 2 + Real.cos θ ^ 2) (-10 * (Real.cos θ * Real.sin θ)))) = -11 := by
      simp only [dotV, mulVec3, n1, Fin.sum_univ_three, mk3_zero, mk3_one, mk3_two,
        vec3_zero, vec3_one, vec3_two]
      linear_combination -11 * h4
    have d4 : dotV (n4 θ) (mulVec3 (mk3 3 1 0 1 3 0 0 0 1) (vec3 (-4 * Real.cos θ ^ 2 + Real.sin θ ^ 2)
        (-4 * Real.sin θ ^ 2 + Real.cos θ ^ 2) (-10 * (Real.cos θ * Real.sin θ)))) = -1 := by
      simp only [dotV, mulVec3, n4, Fin.sum_univ_three, mk3_zero, mk3_one, mk3_two,
        vec3_zero, vec3_one, vec3_two]
      linear_combination -h4
    have q1 : quad (n1 θ) (mk3 3 1 0 1 3 0 0 0 1) (n1 θ) = 3 := by
      simp only [quad, dotV, mulVec3, n1, Fin.sum_univ_three, mk3_zero, mk3_one, mk3_two,
        vec3_zero, vec3_one, vec3_two]
      linear_combination 3 * h4
    have q4 : quad (n4 θ) (mk3 3 1 0 1 3 0 0 0 1) (n1 θ) = 1 := by
      simp only [quad, dotV, mulVec3, n1, n4, Fin.sum_univ_three, mk3_zero, mk3_one, mk3_two,
        vec3_zero, vec3_one, vec3_two]
      linear_combination h4
    rw [comp_mm, dotV_computeS, gamma, q1, q4, d1, d4]
    norm_num

/-- C142 (violated): a point of the linear isotropic material, in skew coordinates, which the
mixed criterion calls wrinkled.  The two zeros lie in one of the 50 intervals, no change of sign
is seen, the search returns the angle 0, and the returned stress is compressive: it is not that
of the state.  This holds for every previous angle, machine epsilon and Newton method. -/
theorem C142_skew_violated : ∃ (B : T2) (E : Voigt) (s0 s1 e0 e1 : ℝ),
    Spec.PosDef.Metric (inv2 B) ∧ inv2 (inv2 B) = B ∧
    PrincipalStress (inv2 B) (mulVec3 (Linear.matrix (8 / 3) (1 / 3) B) E) s0 s1 ∧
    PrincipalStrain (inv2 B) E e0 e1 ∧ tensionField 2 s0 s1 e0 e1 = .ok 0 ∧
    ∀ (eps : ℝ) (newton : (ℝ → ℝ) → ℝ → ℝ) (prev : ℝ),
      angle eps newton prev ⟨Linear.matrix (8 / 3) (1 / 3) B,
        mulVec3 (Linear.matrix (8 / 3) (1 / 3) B) E, E⟩ = .ok 0 ∧
      ¬ NoCompression (computeS 0 (Linear.matrix (8 / 3) (1 / 3) B)
        (mulVec3 (Linear.matrix (8 / 3) (1 / 3) B) E)) := by
  have hr : Real.sqrt (4000000 / 3999) * Real.sqrt (4000000 / 3999) = 4000000 / 3999 :=
    Real.mul_self_sqrt (by norm_num)
  have hr0 : 0 ≤ Real.sqrt (4000000 / 3999) := Real.sqrt_nonneg _
  have hr1 : 31 ≤ Real.sqrt (4000000 / 3999) := Real.le_sqrt_of_sq_le (by norm_num)
  have hr2 : Real.sqrt (4000000 / 3999) ≤ 32 := by
    rw [Real.sqrt_le_left (by norm_num)]; norm_num
  set r := Real.sqrt (4000000 / 3999)
  refine ⟨skew, skewE, -41 - r, -41 + r, (-41 / 2 - r) / 2, (-41 / 2 + r) / 2, skew_metric, skew_inv,
    ⟨?_, ?_, ?_⟩, ⟨?_, ?_, ?_⟩, ?_, fun eps newton prev => ⟨?_, ?_⟩⟩
  · linarith
  · rw [skew_matrix, skew_stress]
    norm_num [skew, inv2, det2, kap, stressTensor, skewS, Fin.sum_univ_two]
  · rw [skew_matrix, skew_stress]
    have : (-41 - r) * (-41 + r) = 1681 - 4000000 / 3999 := by linear_combination -hr
    rw [this]
    norm_num [skew, inv2, det2, kap, stressTensor, skewS]
  · linarith
  · rw [skew_inv]
    have : (-41 / 2 - r) / 2 + (-41 / 2 + r) / 2 = -41 / 2 := by ring
    rw [this]
    norm_num [skew, kap, strainTensor, skewE, Fin.sum_univ_two]
  · have : (-41 / 2 - r) / 2 * ((-41 / 2 + r) / 2) = (1681 / 4 - 4000000 / 3999) / 4 := by
      linear_combination -hr / 4
    rw [this]
    norm_num [skew, inv2, det2, kap, strainTensor, skewE]
  · refine mixed_wrinkled ?_ (by linarith)
    rw [max_eq_right (by linarith)]
    linarith
  · rw [skew_matrix, skew_stress, C142_interval, skew_scan]
    norm_num [skewS, kap]
  · rw [skew_matrix, skew_stress, tension_iff]
    rintro ⟨_, h, _⟩
    norm_num [computeS, mulVec3, skewC, skewS, kap, gamma, quad, dotV, n1, Fin.sum_univ_three] at h

/-- Non-vacuity of the hypothesis of C142_accepted: the point in skew coordinates has an angle. -/
example : ∃ p : Pt, angle 0 (fun _ x => x) 0 p = .ok 0 := by
  obtain ⟨B, E, -, -, -, -, -, -, -, -, -, h⟩ := C142_skew_violated
  exact ⟨_, (h 0 (fun _ x => x) 0).1⟩

end Verif.TFTSearch
