import Verif.Spec.Dirichlet
import Mathlib.Analysis.Calculus.Deriv.Mul
import Mathlib.Analysis.Calculus.Deriv.Add
import Mathlib.Analysis.Calculus.Deriv.Pow
import Mathlib.Algebra.BigOperators.Ring.Finset
import Mathlib.Tactic.Ring
import Mathlib.Tactic.Linarith

/-! # Lemmas: prescribed displacements -/

namespace Verif.Dirichlet

variable {β : Type} {n b : ℕ}

theorem clears_restores (c : Call β) (h : clears c = true) : restores c = false := by
  match c with
  | .homogenizeDirichlet => rfl
  | .assembleMass => rfl
  | .assembleMatrix => rfl
  | .assembleVector true => rfl

theorem run_append (proj : β → Fin b → ℝ) (k : β) (l : List (Call β)) (c : Call β) :
    Values.run proj k (l ++ [c]) = (Values.run proj k l).call proj c := by
  simp [Values.run]

theorem current_append (k : β) (l : List (Call β)) (c : Call β) :
    current k (l ++ [c]) = match c with | .updateBCs k' => k' | _ => current k l := by
  induction l generalizing k with
  | nil => cases c <;> rfl
  | cons a l ih => cases a <;> simp only [List.cons_append, current, ih]

theorem run_bcs (proj : β → Fin b → ℝ) (k : β) (l : List (Call β)) :
    (Values.run proj k l).bcs = current k l ∧
      (Values.run proj k l).ddofs = proj (current k l) := by
  induction l using List.reverseRecOn with
  | nil => exact ⟨rfl, rfl⟩
  | append_singleton l c ih =>
    rw [run_append, current_append]
    obtain ⟨h1, h2⟩ := ih
    cases c with
    | assembleVector h => cases h <;> simp [Values.call, h1, h2]
    | _ => simp [Values.call, h1, h2]

theorem fresh_append (l : List (Call β)) (c : Call β) :
    Fresh (l ++ [c]) ↔ restores c = true ∨ (clears c = false ∧ Fresh l) := by
  constructor
  · rintro ⟨pre, post, e, h1, h2⟩
    rcases List.eq_nil_or_concat post with rfl | ⟨post, c', rfl⟩
    · rw [List.append_nil] at e
      rcases h2 with rfl | ⟨init, c', e', hc⟩
      · simp at e
      · rw [e'] at e
        have := (List.append_inj' e rfl).2
        left; simp only [List.cons.injEq, and_true] at this; rw [this]; exact hc
    · rw [List.concat_eq_append, ← List.append_assoc] at e
      have h := List.append_inj' e rfl
      have hc : c = c' := by simpa using h.2
      refine Or.inr ⟨?_, pre, post, h.1, fun d hd => h1 d (by simp [hd]), h2⟩
      rw [hc]; exact h1 c' (by simp)
  · rintro (h | ⟨h, pre, post, rfl, h1, h2⟩)
    · exact ⟨l ++ [c], [], by simp, by simp, Or.inr ⟨l, c, rfl, h⟩⟩
    · refine ⟨pre, post ++ [c], by simp, fun d hd => ?_, h2⟩
      rcases List.mem_append.1 hd with hd | hd
      · exact h1 d hd
      · rw [List.mem_singleton.1 hd]; exact h

theorem run_fixed (proj : β → Fin b → ℝ) (k : β) (l : List (Call β)) :
    (Fresh l → (Values.run proj k l).fixed = proj (current k l)) ∧
      (¬ Fresh l → (Values.run proj k l).fixed = fun _ => 0) := by
  induction l using List.reverseRecOn with
  | nil => exact ⟨fun _ => rfl, fun h => absurd ⟨[], [], rfl, by simp, Or.inl rfl⟩ h⟩
  | append_singleton l c ih =>
    rw [run_append, current_append, fresh_append]
    obtain ⟨h1, h2⟩ := ih
    obtain ⟨h3, h4⟩ := run_bcs proj k l
    cases c with
    | assembleVector h => cases h <;> simp [Values.call, h3, restores, clears]
    | assembleFoundation => simpa [Values.call, restores, clears] using ⟨h1, h2⟩
    | assemble => simpa [Values.call, restores, clears] using ⟨h1, h2⟩
    | _ => simp [Values.call, h3, h4, restores, clears]

theorem energy_deriv (P : Linear n b) (hK : ∀ i j, P.K i j = P.K j i) (x d : Fin n → ℝ)
    (y : Fin b → ℝ) :
    HasDerivAt (fun t : ℝ => energy P (fun i => x i + t * d i) y)
      (∑ i, d i * (∑ j, P.K i j * x j + ∑ j, P.A i j * y j - P.f i)) 0 := by
  have e : ∀ t : ℝ, energy P (fun i => x i + t * d i) y
      = energy P x y + t * (∑ i, d i * (∑ j, P.K i j * x j + ∑ j, P.A i j * y j - P.f i))
        + t ^ 2 * (1 / 2 * ∑ i, ∑ j, d i * P.K i j * d j) := by
    intro t
    have hs : (∑ i, ∑ j, x i * P.K i j * d j) = ∑ i, ∑ j, d i * P.K i j * x j := by
      rw [Finset.sum_comm]
      refine Finset.sum_congr rfl fun i _ => Finset.sum_congr rfl fun j _ => ?_
      rw [hK j i]; ring
    have h1 : (∑ i, ∑ j, (x i + t * d i) * P.K i j * (x j + t * d j))
        = (∑ i, ∑ j, x i * P.K i j * x j) + t * (∑ i, ∑ j, x i * P.K i j * d j)
          + t * (∑ i, ∑ j, d i * P.K i j * x j) + t ^ 2 * (∑ i, ∑ j, d i * P.K i j * d j) := by
      simp only [Finset.mul_sum, ← Finset.sum_add_distrib]
      exact Finset.sum_congr rfl fun i _ => Finset.sum_congr rfl fun j _ => by ring
    have h2 : (∑ i, ∑ j, (x i + t * d i) * P.A i j * y j)
        = (∑ i, ∑ j, x i * P.A i j * y j) + t * (∑ i, ∑ j, d i * P.A i j * y j) := by
      simp only [Finset.mul_sum, ← Finset.sum_add_distrib]
      exact Finset.sum_congr rfl fun i _ => Finset.sum_congr rfl fun j _ => by ring
    have h3 : (∑ i, P.f i * (x i + t * d i)) = (∑ i, P.f i * x i) + t * (∑ i, d i * P.f i) := by
      simp only [Finset.mul_sum, ← Finset.sum_add_distrib]
      exact Finset.sum_congr rfl fun i _ => by ring
    have h4 : (∑ i, d i * (∑ j, P.K i j * x j + ∑ j, P.A i j * y j - P.f i))
        = (∑ i, ∑ j, d i * P.K i j * x j) + (∑ i, ∑ j, d i * P.A i j * y j) - ∑ i, d i * P.f i := by
      rw [← Finset.sum_add_distrib, ← Finset.sum_sub_distrib]
      refine Finset.sum_congr rfl fun i _ => ?_
      rw [mul_sub, mul_add, Finset.mul_sum, Finset.mul_sum]
      simp only [mul_assoc]
    unfold energy
    rw [h1, h2, h3, h4, hs]
    ring
  have h : HasDerivAt (fun t : ℝ => energy P x y
      + t * (∑ i, d i * (∑ j, P.K i j * x j + ∑ j, P.A i j * y j - P.f i))
      + t ^ 2 * (1 / 2 * ∑ i, ∑ j, d i * P.K i j * d j))
      (∑ i, d i * (∑ j, P.K i j * x j + ∑ j, P.A i j * y j - P.f i)) 0 := by
    have h1 := ((hasDerivAt_id (0 : ℝ)).mul_const
      (∑ i, d i * (∑ j, P.K i j * x j + ∑ j, P.A i j * y j - P.f i))).const_add (energy P x y)
    have h2 := ((hasDerivAt_id (0 : ℝ)).pow 2).mul_const (1 / 2 * ∑ i, ∑ j, d i * P.K i j * d j)
    have h3 := h1.add h2
    simp only [Nat.cast_ofNat, id_eq, one_mul, mul_one] at h3
    refine h3.congr_deriv ?_
    simp
  exact h.congr_of_eventuallyEq (Filter.Eventually.of_forall e)

theorem equilibrium_iff (P : Linear n b) (hK : ∀ i j, P.K i j = P.K j i) (g : Fin b → ℝ)
    (x : Fin n → ℝ) (y : Fin b → ℝ) :
    Equilibrium P g x y ↔ y = g ∧ ∀ i, ∑ j, P.K i j * x j + ∑ j, P.A i j * y j = P.f i := by
  refine and_congr_right fun _ => ⟨fun h i => ?_, fun h d => ?_⟩
  · have h1 := (h fun k => if k = i then 1 else 0).unique
      (energy_deriv P hK x (fun k => if k = i then 1 else 0) y)
    simp only [ite_mul, one_mul, zero_mul, Finset.sum_ite_eq', Finset.mem_univ, if_true] at h1
    linarith
  · have h1 := energy_deriv P hK x d y
    rwa [Finset.sum_eq_zero fun i _ => by rw [h i, sub_self, mul_zero]] at h1

end Verif.Dirichlet
