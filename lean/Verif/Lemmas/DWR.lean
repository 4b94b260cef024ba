import Verif.Spec.DWR
import Verif.Props.StrainVariation

/-! # Helper lemmas for the goals and duals of the error estimator -/

set_option linter.unusedSimpArgs false

namespace Verif.DWR

open V3 Verif.Geometry Verif.Variation

theorem Em_eq (ori s : Surf) : Em ori s = voigtMembrane ori s := by
  funext k
  rcases fin3_cases k with rfl | rfl | rfl <;>
    simp [Em, flat, Acov, voigtMembrane, dot] <;> ring

theorem Ef_eq (ori s : Surf) : Ef ori s = voigtBending ori s := by
  funext k
  rcases fin3_cases k with rfl | rfl | rfl <;>
    simp [Ef, dbl3, deriv2dot, voigtBending, normal, unitNormal, normalized, V3.norm]

/-- Pointwise derivatives add up to derivatives of the sums. -/
theorem isDerivative_sum (R : Region) (g : Goal) (c : ℕ) (r : Rule)
    (h : ∀ q ∈ r, IsDerivative (fun t => goalAt R g c (q.2.1 t)) (dualAt R g c (q.2.1 0) q.2.2)) :
    IsDerivative (fun t => goal R g c (r.at t)) (dual R g c r.start) := by
  induction r with
  | nil => exact ⟨fun _ => 0, 0, fun _ => rfl, rfl, hasDerivAt_const _ _⟩
  | cons q r ih =>
    obtain ⟨f, d, hf, hd, hfd⟩ := ih fun q' hq' => h q' (List.mem_cons_of_mem _ hq')
    obtain ⟨f', d', hf', hd', hfd'⟩ := h q List.mem_cons_self
    refine ⟨fun t => q.1 * f' t + f t, q.1 * d' + d, fun t => ?_, ?_, (hfd'.const_mul q.1).add hfd⟩
    · have h1 := hf t
      have h2 := hf' t
      simp only [Rule.at] at h1
      simp only [Rule.at, List.map_cons, goal, h2, h1, Outcome.bind]
    · simp only [Rule.start] at hd
      simp only [Rule.start, List.map_cons, dual, hd', hd, Outcome.bind]

/-- Squared norm or component of a differentiable vector. -/
theorem isDerivative_select (c : ℕ) (hc : Comp3 c) (μ : ℝ → ℝ) (hμ : ∀ t, μ t = μ 0)
    (q : ℝ → Voigt) (q0 qd : Voigt) (h0 : q 0 = q0) (hq : ∀ i, HasDerivAt (fun t => q t i) (qd i) 0) :
    IsDerivative (fun t => select c (μ t) (q t)) (selectDer c (μ 0) q0 qd) := by
  subst h0
  by_cases h9 : c = 9
  · refine ⟨fun t => dotV (q t) (q t) * μ 0, 2 * dotV qd (q 0) * μ 0, fun t => ?_, ?_, ?_⟩
    · simp only [select, h9, if_true, hμ t]
    · simp only [selectDer, h9, if_true]
    · have hs := HasDerivAt.fun_sum (u := Finset.univ) fun i _ => (hq i).mul (hq i)
      refine (hs.mul_const (μ 0)).congr_deriv ?_
      simp only [dotV, Fin.sum_univ_three]; ring
  · have h3 : c < 3 := hc.resolve_left h9
    refine ⟨fun t => q t ⟨c, h3⟩ * μ 0, qd ⟨c, h3⟩ * μ 0, fun t => ?_, ?_,
      (hq ⟨c, h3⟩).mul_const _⟩
    · simp only [select, h9, if_false, h3, dif_pos, hμ t]
    · simp only [selectDer, h9, if_false, h3, dif_pos]

theorem Moves.measure_eq {P : ℝ → Pt} {v : Fld} (h : Moves P v) (t : ℝ) :
    Variation.measure (P t).ori = Variation.measure (P 0).ori := by rw [h.ori t]

theorem Moves.meas_eq {P : ℝ → Pt} {v : Fld} (h : Moves P v) (R : Region) (t : ℝ) :
    R.meas (P t).ori = R.meas (P 0).ori := by rw [h.ori t]

theorem Moves.membrane {P : ℝ → Pt} {v : Fld} (h : Moves P v) (i : Fin 3) :
    HasDerivAt (fun t => Em (P t).ori (P t).defo i) (EmDer (P 0).defo v.d i) 0 := by
  refine (C66_membrane (P 0).ori (P 0).defo v.d i).congr_of_eventuallyEq
    (Filter.Eventually.of_forall fun t => ?_)
  beta_reduce
  rw [Em_eq, h.ori t, h.defo t]

theorem Moves.bending {P : ℝ → Pt} {v : Fld} (h : Moves P v) (i : Fin 3) :
    HasDerivAt (fun t => Ef (P t).ori (P t).defo i) (EfDer (P 0).defo v.d i) 0 := by
  refine (C66_bending (P 0).ori (P 0).defo v.d h.indep i).congr_of_eventuallyEq
    (Filter.Eventually.of_forall fun t => ?_)
  beta_reduce
  rw [Ef_eq, h.ori t, h.defo t]

theorem Moves.position {P : ℝ → Pt} {v : Fld} (h : Moves P v) (i : Fin 3) :
    HasDerivAt (fun t => comps ((P t).x - (P t).X) i) (comps v.w i) 0 := by
  have key : ∀ a b x : ℝ, HasDerivAt (fun t => (a + t * b) - x) b 0 := by
    intro a b x
    refine ((((hasDerivAt_id (0 : ℝ)).mul_const b).const_add a).sub_const x).congr_deriv ?_
    simp
  rcases fin3_cases i with rfl | rfl | rfl
  · refine (key (P 0).x.x v.w.x (P 0).X.x).congr_of_eventuallyEq
      (Filter.Eventually.of_forall fun t => ?_)
    simp [comps, h.x t, h.X t]
  · refine (key (P 0).x.y v.w.y (P 0).X.y).congr_of_eventuallyEq
      (Filter.Eventually.of_forall fun t => ?_)
    simp [comps, h.x t, h.X t]
  · refine (key (P 0).x.z v.w.z (P 0).X.z).congr_of_eventuallyEq
      (Filter.Eventually.of_forall fun t => ?_)
    simp [comps, h.x t, h.X t]

/-- The coded variations of stresses and resultants are their derivatives. -/
theorem Tangent.stress {P : ℝ → Pt} {v : Fld} (h : Tangent P) (hm : Moves P v) :
    (∀ i, HasDerivAt (fun t => (P t).S0 i) (SmDer (P 0) v i) 0) ∧
    (∀ i, HasDerivAt (fun t => (P t).S1 i) (SfDer (P 0) v i) 0) ∧
    (∀ i, HasDerivAt (fun t => (P t).N i) (NDer (P 0) v i) 0) ∧
    (∀ i, HasDerivAt (fun t => (P t).M i) (MDer (P 0) v i) 0) := by
  obtain ⟨e, k, he, hk, hS0, hS1, hN, hM⟩ := h.rates
  have he' : e = EmDer (P 0).defo v.d := by
    funext i
    have h1 := hm.membrane i
    simp only [Em_eq] at h1
    exact (he i).unique h1
  have hk' : k = EfDer (P 0).defo v.d := by
    funext i
    have h1 := hm.bending i
    simp only [Ef_eq] at h1
    exact (hk i).unique h1
  subst he' hk'
  refine ⟨fun i => (hS0 i).congr_deriv ?_, fun i => (hS1 i).congr_deriv ?_,
    fun i => (hN i).congr_deriv ?_, fun i => (hM i).congr_deriv ?_⟩
  · simp only [SmDer, rowMul]
    exact Finset.sum_congr rfl fun j _ => by rw [h.symA i j]; ring
  · simp only [SfDer, rowMul]
    exact Finset.sum_congr rfl fun j _ => by rw [h.symD i j]; ring
  · simp only [NDer, rowMul]
    rw [← Finset.sum_add_distrib]
    exact Finset.sum_congr rfl fun j _ => by rw [h.symAi i j, ← h.symBC j i]; ring
  · simp only [MDer, rowMul]
    rw [← Finset.sum_add_distrib]
    exact Finset.sum_congr rfl fun j _ => by rw [h.symDi i j, h.symBC i j]; ring

end Verif.DWR
