import Verif.Model.DMatrix
import Verif.Spec.DMatrix
import Verif.Lemmas.Tensor

/-! # Helper lemmas: positions of the 27 numbers -/

namespace Verif.DMatrix

open Verif.Hyper Spec.DMatrix Verif.Geometry

theorem embed_symm {C : T2} (h : C 0 1 = C 1 0) (i j : Fin 3) : embed C i j = embed C j i := by
  rcases fin3_cases i with rfl | rfl | rfl <;> rcases fin3_cases j with rfl | rfl | rfl <;>
    simp [embed, h]

/-- What is read at (`i`, `j`) for direction `d` is twice the derivative of entry (`d`, `j`)
with respect to component `i`. -/
theorem read_index (f : Fin 3 → Fin 3 → Fin 3 → ℝ) (v : ℕ → ℝ)
    (hv : ∀ I K m : Fin 3, v (3 * (3 * (I : ℕ) + K) + m) = f I K m) (d i j : Fin 3) :
    readTft v d i j = 2 * f d j i := by
  rw [← hv d j i, readTft]
  congr 2
  ring

theorem storeNH_index (p : Par) (D : Data) (I K m : Fin 3) :
    storeNH p D (3 * (3 * (I : ℕ) + K) + m)
      = dCNH p D (up (fst I)) (up (snd I)) (up (fst K)) (up (snd K)) (up (fst m)) (up (snd m)) := by
  have hI := I.2
  have hK := K.2
  have hm := m.2
  have e1 : (3 * (3 * (I : ℕ) + K) + m) / 3 = 3 * (I : ℕ) + K := by omega
  have e2 : (3 * (3 * (I : ℕ) + K) + m) % 3 = m := by omega
  have e3 : (3 * (I : ℕ) + (K : ℕ)) / 3 = I := by omega
  have e4 : (3 * (I : ℕ) + (K : ℕ)) % 3 = K := by omega
  unfold storeNH
  rw [e1, e2, e3, e4]

theorem rate_sum (X : Fin 2 → Fin 2 → ℝ) (hX : X 1 0 = X 0 1) (d : Fin 3) :
    ∑ m, ∑ n, X m n * strainRate d m n = 2 * X (fst d) (snd d) := by
  rcases fin3_cases d with rfl | rfl | rfl
  · simp [strainRate, Fin.sum_univ_two, fst, snd]; ring
  · simp [strainRate, Fin.sum_univ_two, fst, snd]; ring
  · simp [strainRate, Fin.sum_univ_two, fst, snd, hX]; ring

theorem fin_ofNat (k : Fin 3) : Fin.ofNat 3 (k : ℕ) = k := by
  rcases fin3_cases k with rfl | rfl | rfl <;> rfl

end Verif.DMatrix
