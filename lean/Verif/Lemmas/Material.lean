import Verif.Model.Material

/-! # Helper lemmas for the material state -/

namespace Verif.Material

theorem setParameterRef_getElem? {F : Type} (pars : List (Option F)) (i j : Nat) (f : F) :
    (setParameterRef pars i f)[j]?.join = if j = i then some f else pars[j]?.join := by
  unfold setParameterRef
  by_cases hji : j = i
  · subst hji
    by_cases h : pars.length < j + 1
    · simp only [h, if_true]
      rw [List.getElem?_set_self]
      · simp
      · simp; omega
    · simp only [h, if_false]
      rw [List.getElem?_set_self]
      · simp
      · omega
  · simp only [hji, if_false]
    rw [List.getElem?_set_ne (by omega)]
    by_cases h : pars.length < i + 1
    · simp only [h, if_true]
      by_cases hj : j < pars.length
      · rw [List.getElem?_append_left hj]
      · rw [List.getElem?_append_right (by omega)]
        have : pars[j]? = none := by simp; omega
        rw [this]
        by_cases h2 : j - pars.length < i + 1 - pars.length
        · simp [h2]
        · simp [h2]
    · simp [h]

theorem setParameterRef_length {F : Type} (pars : List (Option F)) (i : Nat) (f : F) :
    (setParameterRef pars i f).length = max pars.length (i + 1) := by
  unfold setParameterRef
  by_cases h : pars.length < i + 1
  · simp only [h, if_true]; simp; omega
  · simp only [h, if_false]; simp; omega

theorem slot_inj (m : Model) (n n' : Name) (i : Nat) (h : slot m n = some i)
    (h' : slot m n' = some i) : n = n' := by
  cases m <;> cases n <;> cases n' <;> simp_all [slot] <;> omega

theorem makePieces_foldr {M : Type} (c : List (Option M)) (l : List Nat) (m : M)
    (h : ∀ q ∈ l, c[q]? = some (some m)) :
    l.foldr (fun q acc => consPiece c[q]? acc) (.ok []) =
      .ok (List.replicate l.length m) := by
  induction l with
  | nil => rfl
  | cons q r ih =>
    simp only [List.foldr_cons]
    rw [h q (by simp), ih (fun q hq => h q (by simp [hq]))]
    simp [consPiece, Outcome.bind, List.replicate_succ]

theorem fill_getElem? {M : Type} (m : M) (k : Nat) (c : List (Option M)) (hk : k ≤ c.length)
    (q : Nat) :
    ((List.range k).foldl (fun c p => c.set p (some m)) c)[q]? =
      if q < k then some (some m) else c[q]? := by
  induction k generalizing q with
  | zero => simp
  | succ k ih =>
    rw [List.range_succ, List.foldl_append]
    simp only [List.foldl_cons, List.foldl_nil]
    have hl : ∀ j, ((List.range j).foldl (fun c p => c.set p (some m)) c).length = c.length := by
      intro j
      induction j with
      | zero => simp
      | succ j ihj => rw [List.range_succ, List.foldl_append]; simp [ihj]
    by_cases hq : q = k
    · subst hq
      rw [List.getElem?_set_self (by rw [hl]; omega)]
      simp
    · rw [List.getElem?_set_ne (by omega), ih (by omega)]
      by_cases h1 : q < k
      · have : q < k + 1 := by omega
        simp [h1, this]
      · have : ¬ q < k + 1 := by omega
        simp [h1, this]

theorem makePieces_cons {M : Type} (n : Nat) (a : Option M) (c : List (Option M)) :
    makePieces (n + 1) (a :: c) = consPiece (some a) (makePieces n c) := by
  unfold makePieces
  rw [List.range_succ_eq_map]
  simp only [List.foldr_cons, List.foldr_map, List.getElem?_cons_zero, Nat.succ_eq_add_one,
    List.getElem?_cons_succ]

end Verif.Material
