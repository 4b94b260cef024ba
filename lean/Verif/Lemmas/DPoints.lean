import Verif.Model.DPoints
import Verif.Spec.DPoints

/-! # Helper lemmas: loops over heights and points -/

namespace Verif.DPoints

open Spec.DPoints

variable {P Z α : Type}

theorem heights_closed (f : P → Z → α) (k : Nat) (u : P) (zs : List Z) (c : Cache P)
    (hk : c[k]? = some u) (r : List α) :
    heights false f k u zs (c, r) = .ok (c, r ++ zs.map (f u)) := by
  induction zs generalizing r with
  | nil => simp [heights]
  | cons z zs ih =>
    simp only [heights, turn, hk, Outcome.bind, Bool.false_eq_true, if_false]
    rw [ih]
    simp

theorem points_closed (f : P → Z → α) (zs : P → List Z) (us pre : List P) (r : List α) :
    points false f zs pre.length us (pre ++ us, r)
      = .ok (pre ++ us, r ++ expected f zs us) := by
  induction us generalizing pre r with
  | nil => simp [points, expected]
  | cons u us ih =>
    have hk : (pre ++ u :: us)[pre.length]? = some u := by simp
    simp only [points]
    rw [heights_closed f pre.length u (zs u) _ hk]
    have e : pre ++ u :: us = (pre ++ [u]) ++ us := by simp
    have hl : pre.length + 1 = (pre ++ [u]).length := by simp
    simp only [Outcome.bind]
    rw [hl, e, ih]
    simp [expected]

theorem heights_zero (f : P → Z → α) (u : P) (zs : List Z) (c : List P) (r : List α) :
    ∃ c', heights true f 0 u zs (u :: c, r) = .ok (c', r ++ zs.map (f u)) ∧
      (zs ≠ [] → c' = [u]) ∧ (zs = [] → c' = u :: c) := by
  induction zs generalizing r c with
  | nil => exact ⟨u :: c, by simp [heights], by simp, by simp⟩
  | cons z zs ih =>
    obtain ⟨c', h1, h2, h3⟩ := ih [] (r ++ [f u z])
    refine ⟨c', ?_, fun _ => ?_, by simp⟩
    · simp only [heights, turn, List.getElem?_cons_zero, Outcome.bind, if_true, computePoints]
      rw [h1]; simp
    · cases zs with
      | nil => exact h3 rfl
      | cons a b => exact h2 (by simp)

theorem heights_ub (f : P → Z → α) (k : Nat) (u : P) (zs : List Z) (hz : zs ≠ []) (c : Cache P)
    (hk : c[k]? = none) (r : List α) : heights true f k u zs (c, r) = .ub := by
  cases zs with
  | nil => exact absurd rfl hz
  | cons z zs => simp [heights, turn, hk, Outcome.bind]

end Verif.DPoints
