import Verif.Spec.Loads
import Mathlib.Tactic.Ring
import Mathlib.Tactic.Linarith
import Mathlib.Algebra.BigOperators.Intervals
import Mathlib.Algebra.BigOperators.Ring.Finset

/-! # Closed forms of the load loops -/

namespace Verif.Loads

variable {P : Type}

theorem addActs_eq (m : Mapper) (p j : ℕ) (v : ℝ) (acts : List (ℕ × ℝ)) (r : Vec) (g : ℕ) :
    addActs m p j v acts r g = r g + v * shape m p j acts g := by
  induction acts generalizing r with
  | nil => simp [addActs, shape]
  | cons a rest ih =>
    obtain ⟨i, b⟩ := a
    rw [addActs, ih]
    unfold shape
    rw [List.map_cons, List.sum_cons]
    generalize (List.map (fun a => if m.glob p j a.1 = g ∧ g < m.freeSize then a.2 else 0)
      rest).sum = t
    dsimp only
    by_cases hg : g = m.glob p j i
    · subst hg
      by_cases hf : m.glob p j i < m.freeSize
      · rw [if_pos hf, if_pos rfl, if_pos ⟨rfl, hf⟩]; ring
      · rw [if_neg hf, if_neg (fun h => hf h.2)]; ring
    · have h1 : ¬(m.glob p j i = g ∧ g < m.freeSize) := fun h => hg h.1.symm
      rw [if_neg h1]
      by_cases hf : m.glob p j i < m.freeSize
      · rw [if_pos hf, if_neg hg]; ring
      · rw [if_neg hf]; ring

theorem addComps_eq (m : Mapper) (p : ℕ) (value : List ℝ) (acts : List (ℕ × ℝ)) (js : List ℕ)
    (hj : ∀ j ∈ js, j < value.length) (r : Vec) :
    ∃ r', addComps m p value acts js r = .ok r' ∧
      ∀ g, r' g = r g + (js.map (fun j => (value[j]?).getD 0 * shape m p j acts g)).sum := by
  induction js generalizing r with
  | nil => exact ⟨r, rfl, fun g => by simp⟩
  | cons j js ih =>
    have h0 : j < value.length := hj j (by simp)
    have h1 : value[j]? = some value[j] := List.getElem?_eq_getElem h0
    unfold addComps
    rw [h1]
    dsimp only
    obtain ⟨r', hr, hg⟩ := ih (fun k hk => hj k (by simp [hk]))
      (if value[j] ≠ 0 then addActs m p j value[j] acts r else r)
    refine ⟨r', hr, fun g => ?_⟩
    rw [hg g, List.map_cons, List.sum_cons, h1]
    by_cases hv : value[j] ≠ 0
    · rw [if_pos hv, addActs_eq]; simp only [Option.getD_some]; ring
    · rw [if_neg hv]
      have : value[j] = 0 := not_not.1 hv
      simp [this]

theorem list_range_sum (d : ℕ) (f : ℕ → ℝ) :
    ((List.range d).map f).sum = ∑ j ∈ Finset.range d, f j := by
  induction d with
  | zero => simp
  | succ d ih => rw [List.range_succ, Finset.sum_range_succ, ← ih]; simp

theorem applyLoads_eq (d : ℕ) (m : Mapper) (S : Space P) (hS : S.understood = true)
    (ls : List (PointLoad P)) (hl : ∀ l ∈ ls, d ≤ l.value.length) (r : Vec) :
    applyLoads d m S ls r = .ok (fun g => r g + nodalAll d m S ls g) := by
  induction ls generalizing r with
  | nil => simp [applyLoads, nodalAll]
  | cons l ls ih =>
    unfold applyLoads
    rw [if_pos hS]
    obtain ⟨r', hr, hg⟩ := addComps_eq m l.patch l.value (S.acts l) (List.range d)
      (fun j hj => lt_of_lt_of_le (List.mem_range.1 hj) (hl l (by simp))) r
    rw [hr]
    change applyLoads d m S ls r' = _
    rw [ih (fun k hk => hl k (by simp [hk]))]
    congr 1
    funext g
    rw [hg g, list_range_sum]
    unfold nodalAll nodal
    rw [List.map_cons, List.sum_cons]; ring

theorem addRow_eq (m : Mapper) (p j k : ℕ) (bk v : ℝ) (acts : List (ℕ × ℝ)) (M : Mat)
    (g h : ℕ) : addRow m p j k bk v acts M g h = M g h + v *
      ((if m.glob p j k = g ∧ g < m.freeSize then bk else 0) * shape m p j acts h) := by
  induction acts generalizing M with
  | nil => simp [addRow, shape]
  | cons a rest ih =>
    obtain ⟨i, b⟩ := a
    rw [addRow, ih]
    unfold shape
    rw [List.map_cons, List.sum_cons]
    generalize (List.map (fun a => if m.glob p j a.1 = h ∧ h < m.freeSize then a.2 else 0)
      rest).sum = t
    have e : (if m.glob p j k < m.freeSize ∧ m.glob p j i < m.freeSize then
        (fun g h => if g = m.glob p j k ∧ h = m.glob p j i then M g h + bk * b * v else M g h)
        else M) g h = M g h + v * ((if m.glob p j k = g ∧ g < m.freeSize then bk else 0)
          * (if m.glob p j i = h ∧ h < m.freeSize then b else 0)) := by
      by_cases h1 : m.glob p j k < m.freeSize ∧ m.glob p j i < m.freeSize
      · rw [if_pos h1]
        split_ifs <;> first | ring1 | (exfalso; omega)
      · rw [if_neg h1]
        split_ifs <;> first | ring1 | (exfalso; omega)
    rw [e]; ring

theorem addBlock_eq (m : Mapper) (p j : ℕ) (v : ℝ) (acts as : List (ℕ × ℝ)) (M : Mat) (g h : ℕ) :
    addBlock m p j v acts as M g h
      = M g h + v * (shape m p j as g * shape m p j acts h) := by
  induction as generalizing M with
  | nil => simp [addBlock, shape]
  | cons a rest ih =>
    obtain ⟨k, bk⟩ := a
    rw [addBlock, ih, addRow_eq]
    have : shape m p j ((k, bk) :: rest) g
        = (if m.glob p j k = g ∧ g < m.freeSize then bk else 0) + shape m p j rest g := by
      simp [shape]
    rw [this]; ring

theorem addMassComps_eq (m : Mapper) (p : ℕ) (v : ℝ) (acts : List (ℕ × ℝ)) (js : List ℕ) (M : Mat)
    (g h : ℕ) : addMassComps m p v acts js M g h
      = M g h + v * (js.map (fun j => shape m p j acts g * shape m p j acts h)).sum := by
  induction js generalizing M with
  | nil => simp [addMassComps]
  | cons j js ih =>
    unfold addMassComps
    rw [ih, List.map_cons, List.sum_cons]
    by_cases hv : v ≠ 0
    · rw [if_pos hv, addBlock_eq]; ring
    · rw [if_neg hv]
      have : v = 0 := not_not.1 hv
      simp [this]

theorem applyMass_eq (d : ℕ) (m : Mapper) (S : Space P) (ls : List (PointLoad P))
    (hl : ∀ l ∈ ls, 1 ≤ l.value.length) (M : Mat) :
    applyMass d m S ls M = .ok (fun g h => M g h + nodalMassAll d m S ls g h) := by
  induction ls generalizing M with
  | nil => simp [applyMass, nodalMassAll]
  | cons l ls ih =>
    unfold applyMass
    have h0 : 0 < l.value.length := hl l (by simp)
    have h1 : l.value[0]? = some l.value[0] := List.getElem?_eq_getElem h0
    rw [h1]
    dsimp only
    rw [ih (fun k hk => hl k (by simp [hk]))]
    congr 1
    funext g h
    rw [addMassComps_eq, list_range_sum]
    unfold nodalMassAll nodalMass
    rw [List.map_cons, List.sum_cons, h1]; simp only [Option.getD_some]; ring

end Verif.Loads
