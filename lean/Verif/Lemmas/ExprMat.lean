import Verif.Model.ExprMat
import Verif.Spec.ExprMat
import Verif.Lemmas.Tensor

/-! # Lemmas for the matrices of the expressions -/

namespace Verif.ExprMat

open V3 Verif.Geometry Verif.Variation Verif.Spec.ExprMat

/-- A sequence of writes inside the matrix succeeds; an entry written with one value only has that
value, an entry not written keeps its own. -/
theorem run_spec (L : List Write) : ∀ m : Mat, (∀ w ∈ L, w.row < m.rows ∧ w.col < m.cols) →
    ∃ m', run m L = .ok m' ∧ m'.rows = m.rows ∧ m'.cols = m.cols ∧
      ∀ i j, (∀ x, (∃ w ∈ L, w.row = i ∧ w.col = j) →
          (∀ w ∈ L, w.row = i → w.col = j → w.val = x) → m'.get i j = some x) ∧
        ((∀ w ∈ L, ¬(w.row = i ∧ w.col = j)) → m'.get i j = m.get i j) := by
  induction L with
  | nil => intro m _; exact ⟨m, rfl, rfl, rfl, fun i j => ⟨by simp, fun _ => rfl⟩⟩
  | cons w L ih =>
    intro m h
    have hw := h w (by simp)
    obtain ⟨m', hr, h1, h2, h3⟩ := ih
      ⟨m.rows, m.cols, fun i j => if i = w.row ∧ j = w.col then some w.val else m.get i j⟩
      (fun v hv => h v (by simp [hv]))
    refine ⟨m', ?_, h1, h2, fun i j => ⟨?_, ?_⟩⟩
    · simp only [run, Mat.put, if_pos hw, Outcome.bind]; exact hr
    · intro x hex hall
      by_cases hl : ∃ v ∈ L, v.row = i ∧ v.col = j
      · exact (h3 i j).1 x hl fun v hv => hall v (by simp [hv])
      · have hn : ∀ v ∈ L, ¬(v.row = i ∧ v.col = j) := fun v hv hh => hl ⟨v, hv, hh⟩
        rw [(h3 i j).2 hn]
        obtain ⟨v, hv, hh⟩ := hex
        rcases List.mem_cons.mp hv with rfl | hv
        · have := hall v (by simp) hh.1 hh.2
          simp [hh.1, hh.2, this]
        · exact absurd hh (hn v hv)
    · intro hn
      rw [(h3 i j).2 fun v hv => hn v (by simp [hv])]
      have := hn w (by simp)
      have h' : ¬(i = w.row ∧ j = w.col) := fun hh => this ⟨hh.1.symm, hh.2.symm⟩
      simp [h']

/-- A sequence with a write outside is undefined behaviour. -/
theorem run_ub (L : List Write) : ∀ m : Mat, (∃ w ∈ L, ¬(w.row < m.rows ∧ w.col < m.cols)) →
    run m L = .ub := by
  induction L with
  | nil => intro m h; simp at h
  | cons w L ih =>
    intro m h
    by_cases hw : w.row < m.rows ∧ w.col < m.cols
    · simp only [run, Mat.put, if_pos hw, Outcome.bind]
      apply ih
      obtain ⟨v, hv, hh⟩ := h
      rcases List.mem_cons.mp hv with rfl | hv
      · exact absurd hw hh
      · exact ⟨v, hv, hh⟩
    · simp only [run, Mat.put, if_neg hw, Outcome.bind]

theorem number_lt (n : ℕ) (d : Fin 3) (j : ℕ) (h : j < n) : (d : ℕ) * n + j < 3 * n := by
  rcases fin3_cases d with rfl | rfl | rfl <;> simp <;> omega

theorem number_inj (n : ℕ) (d d' : Fin 3) (j j' : ℕ) (h : j < n) (h' : j' < n)
    (he : (d : ℕ) * n + j = (d' : ℕ) * n + j') : d = d' ∧ j = j' := by
  rcases fin3_cases d with rfl | rfl | rfl <;> rcases fin3_cases d' with rfl | rfl | rfl <;>
    simp at he ⊢ <;> omega

theorem number_surj (n a : ℕ) (h : a < 3 * n) :
    ∃ (d : Fin 3) (j : ℕ), j < n ∧ a = (d : ℕ) * n + j := by
  rcases Nat.lt_or_ge a n with h1 | h1
  · exact ⟨0, a, h1, by simp⟩
  rcases Nat.lt_or_ge a (2 * n) with h2 | h2
  · exact ⟨1, a - n, by omega, by simp; omega⟩
  · exact ⟨2, a - 2 * n, by omega, by simp; omega⟩

theorem readField_eq (n : ℕ) (g h : Col) (grad : ℕ → Fin 2 → ℝ) (hess : ℕ → Voigt)
    (hs : Stores n g h grad hess) (d : Fin 3) (j : ℕ) (hj : j < n) :
    readField g h d j = basisField d (grad j) (hess j) := by
  unfold readField
  congr 1
  · funext c; exact (hs j hj).1 c
  · funext c; exact (hs j hj).2 c

theorem read3_ok (f : ℕ → Outcome ℝ) (a b c : ℝ) (h0 : f 0 = .ok a) (h1 : f 1 = .ok b)
    (h2 : f 2 = .ok c) : read3 f = .ok (vec3 a b c) := by
  simp [read3, h0, h1, h2, Outcome.bind]

theorem read_ok (m : Mat) (i j : ℕ) (x : ℝ) (hi : i < m.rows) (hj : j < m.cols)
    (h : m.get i j = some x) : m.read i j = .ok x := by
  simp [Mat.read, hi, hj, h]

end Verif.ExprMat
