import Verif.Model.DWRThreads
import Verif.Lemmas.DWRError
import Mathlib.Algebra.BigOperators.Fin
import Mathlib.Algebra.Order.Group.Multiset
import Mathlib.Algebra.BigOperators.Pi

/-! # Lemmas on the distribution of point loads with several threads -/

namespace Verif.DWR

open V3

open Classical in
/-- Number of the element at position `n`, if it contains the point. -/
noncomputable def headHit (x : Fin 2 → ℝ) (c n : ℕ) (P : List Box) : List ℕ :=
  match P.drop n with
  | [] => []
  | b :: _ => if b.has x then [c + n] else []

theorem hits_append (x : Fin 2 → ℝ) (P Q : List Box) (c : ℕ) :
    hits x c (P ++ Q) = hits x c P ++ hits x (c + P.length) Q := by
  induction P generalizing c with
  | nil => simp [hits]
  | cons b bs ih =>
    simp only [List.cons_append, hits, ih, List.length_cons]
    rw [show c + 1 + bs.length = c + (bs.length + 1) by omega]
    split_ifs <;> rfl

theorem hits_take_succ (x : Fin 2 → ℝ) (c n : ℕ) (P : List Box) :
    hits x c (P.take (n + 1)) = hits x c (P.take n) ++ headHit x c n P := by
  induction n generalizing c P with
  | zero =>
    cases P with
    | nil => simp [hits, headHit]
    | cons b bs => simp [hits, headHit]
  | succ n ih =>
    cases P with
    | nil => simp [hits, headHit]
    | cons b bs =>
      have := ih (c + 1) bs
      have e : headHit x (c + 1) n bs = headHit x c (n + 1) (b :: bs) := by
        simp only [headHit, List.drop_succ_cons, show c + 1 + n = c + (n + 1) by omega]
      rw [e] at this
      simp only [List.take_succ_cons, hits] at this ⊢
      rw [this]
      split_ifs <;> rfl

theorem heads_sum (x : Fin 2 → ℝ) (c n : ℕ) (P : List Box) :
    ∑ t ∈ Finset.range n, (headHit x c t P : Multiset ℕ) = (hits x c (P.take n) : Multiset ℕ) := by
  induction n with
  | zero => simp [hits]
  | succ n ih => rw [Finset.sum_range_succ, ih, hits_take_succ, ← Multiset.coe_add]

theorem visit_unfold (x : Fin 2 → ℝ) (nt : ℕ) (hn : 0 < nt) (c t : ℕ) (P : List Box) :
    visit x nt (c + t) (P.drop t) = headHit x c t P ++ visit x nt (c + nt + t) ((P.drop nt).drop t) := by
  cases h : P.drop t with
  | nil =>
    have : (P.drop nt).drop t = [] := by
      rw [List.drop_drop, Nat.add_comm, ← List.drop_drop, h, List.drop_nil]
    simp [headHit, h, this, visit]
  | cons b bs =>
    have : (P.drop nt).drop t = bs.drop (nt - 1) := by
      rw [List.drop_drop, Nat.add_comm nt t, ← List.drop_drop, h]
      obtain ⟨m, rfl⟩ : ∃ m, nt = m + 1 := ⟨nt - 1, by omega⟩
      simp
    simp only [headHit, h, visit, this, show c + t + nt = c + nt + t by omega]
    split_ifs <;> rfl

/-- All threads together visit every element of a patch once. -/
theorem visit_sum (x : Fin 2 → ℝ) (nt : ℕ) (hn : 0 < nt) : ∀ (n c : ℕ) (P : List Box), P.length = n →
    ∑ t ∈ Finset.range nt, (visit x nt (c + t) (P.drop t) : Multiset ℕ) = (hits x c P : Multiset ℕ) := by
  intro n
  induction n using Nat.strong_induction_on with
  | _ n ih =>
    intro c P hP
    cases P with
    | nil => simp [hits, visit]
    | cons b bs =>
      have h1 := ih ((b :: bs).drop nt).length (by
        simp only [List.length_drop, ← hP, List.length_cons]; omega) (c + nt) _ rfl
      simp only [visit_unfold x nt hn c, ← Multiset.coe_add, Finset.sum_add_distrib]
      rw [heads_sum, h1, Multiset.coe_add]
      conv_rhs => rw [← List.take_append_drop nt (b :: bs), hits_append]
      by_cases hl : nt ≤ (b :: bs).length
      · rw [List.length_take_of_le hl]
      · rw [List.drop_eq_nil_of_le (by omega)]
        simp [hits]

/-- All blocks of all threads together are the list of the serial version. -/
theorem blocks_sum (x : Fin 2 → ℝ) (nt : ℕ) (hn : 0 < nt) (Ps : List (List Box)) :
    ∀ (c : ℕ) (priv : ℕ → List ℕ) (p : List ℕ),
      ∑ t ∈ Finset.range nt, (priv t : Multiset ℕ) = (p : Multiset ℕ) →
      ∑ t ∈ Finset.range nt, ((blocks x nt t c (priv t) Ps).flatten : Multiset ℕ)
        = (found x c p Ps : Multiset ℕ) := by
  induction Ps with
  | nil => intro c priv p _; simp [blocks, found]
  | cons P Ps ih =>
    intro c priv p hp
    have h1 : ∑ t ∈ Finset.range nt, ((priv t ++ visit x nt (c + t) (P.drop t) : List ℕ) : Multiset ℕ)
        = ((p ++ hits x c P : List ℕ) : Multiset ℕ) := by
      simp only [← Multiset.coe_add, Finset.sum_add_distrib, hp, visit_sum x nt hn _ c P rfl]
    have h2 := ih (c + P.length) (fun t => priv t ++ visit x nt (c + t) (P.drop t))
      (p ++ hits x c P) h1
    calc ∑ t ∈ Finset.range nt, ((blocks x nt t c (priv t) (P :: Ps)).flatten : Multiset ℕ)
        = ∑ t ∈ Finset.range nt, (((priv t ++ visit x nt (c + t) (P.drop t) : List ℕ) : Multiset ℕ)
          + ((blocks x nt t (c + P.length) (priv t ++ visit x nt (c + t) (P.drop t)) Ps).flatten :
            Multiset ℕ)) := Finset.sum_congr rfl fun t _ => by
          rw [Multiset.coe_add]; rfl
      _ = _ := by
          rw [Finset.sum_add_distrib, h1, h2, Multiset.coe_add]; rfl

theorem arrives_sum {nt : ℕ} {q : Fin nt → List (List ℕ)} {l : List (List ℕ)} (h : Arrives q l) :
    (l.flatten : Multiset ℕ) = ∑ t, ((q t).flatten : Multiset ℕ) := by
  induction h with
  | done q h => simp [h]
  | step q t b bs l hq _ ih =>
    rw [List.flatten_cons, ← Multiset.coe_add, ih,
      ← Finset.add_sum_erase Finset.univ _ (Finset.mem_univ t),
      ← Finset.add_sum_erase Finset.univ (fun t => ((q t).flatten : Multiset ℕ)) (Finset.mem_univ t),
      hq, Function.update_self, List.flatten_cons, ← Multiset.coe_add, add_assoc]
    congr 2
    refine Finset.sum_congr rfl fun s hs => ?_
    rw [Function.update_of_ne (Finset.ne_of_mem_erase hs)]

/-- An order of arrival always exists. -/
theorem arrives_exists {nt : ℕ} {β : Type} : ∀ (n : ℕ) (q : Fin nt → List β),
    ∑ t, (q t).length = n → ∃ l, Arrives q l := by
  intro n
  induction n with
  | zero =>
    intro q h
    exact ⟨[], .done q fun t => List.length_eq_zero_iff.1
      ((Finset.sum_eq_zero_iff.1 h) t (Finset.mem_univ t))⟩
  | succ n ih =>
    intro q h
    obtain ⟨t, ht⟩ : ∃ t, q t ≠ [] := by
      by_contra hc
      push Not at hc
      simp [hc] at h
    obtain ⟨b, bs, hq⟩ := List.exists_cons_of_ne_nil ht
    obtain ⟨l, hl⟩ := ih (Function.update q t bs) (by
      rw [← Finset.add_sum_erase Finset.univ _ (Finset.mem_univ t)] at h ⊢
      rw [hq] at h
      rw [Function.update_self]
      have : ∑ s ∈ Finset.univ.erase t, (Function.update q t bs s).length
          = ∑ s ∈ Finset.univ.erase t, (q s).length :=
        Finset.sum_congr rfl fun s hs => by rw [Function.update_of_ne (Finset.ne_of_mem_erase hs)]
      rw [this]
      simp only [List.length_cons] at h
      omega)
    exact ⟨b :: l, .step q t b bs l hq hl⟩

/-- Adding to a list of entries does not depend on their order. -/
theorem addAll_perm (v : ℝ) {l l' : List ℕ} (h : l.Perm l') : ∀ e, addAll v l e = addAll v l' e := by
  induction h with
  | nil => intro e; rfl
  | cons k _ ih =>
    intro e
    simp only [addAll]
    split_ifs
    · exact ih _
    · rfl
  | swap k j l =>
    intro e
    by_cases h1 : j < e.length <;> by_cases h2 : k < e.length
    · simp only [addAll, h1, h2, dif_pos, List.length_set]
      congr 1
      apply List.ext_getElem
      · simp
      · intro i hi hi'
        simp only [List.getElem_set]
        by_cases hj : j = i <;> by_cases hk : k = i
        · subst hj; subst hk; simp
        · subst hj; simp [hk]
        · subst hk; simp [hj]
        · simp [hj, hk]
    all_goals simp [addAll, h1, h2]
  | trans _ _ ih ih' => intro e; rw [ih, ih']

/-- Whatever the order of arrival, the entries found are those of the serial version. -/
theorem arrives_perm {nt : ℕ} (hn : 0 < nt) (x : Fin 2 → ℝ) (Ps : List (List Box)) {l : List (List ℕ)}
    (h : Arrives (fun t : Fin nt => blocks x nt t 0 [] Ps) l) : l.flatten.Perm (found x 0 [] Ps) := by
  rw [← Multiset.coe_eq_coe, arrives_sum h,
    Fin.sum_univ_eq_sum_range (fun t => ((blocks x nt t 0 [] Ps).flatten : Multiset ℕ))]
  exact blocks_sum x nt hn Ps 0 (fun _ => []) [] (by simp)

end Verif.DWR
