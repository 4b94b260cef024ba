import Verif.Lemmas.DWRThreads
import Verif.Spec.DWRError

/-!
# Point loads and threads

C132: the distribution of point loads over the elements does not depend on the number of threads and
their order.
-/

namespace Verif.DWR

open V3

variable {α β γ : Type}

/-- **C132** With any positive number of threads, whatever the order in which they reach their
critical sections, the element errors (or the exception) are those of the serial program; and every
run ends. -/
theorem C132_serial (D : Setup α β γ) (zL zH : Disc α β γ) (nt : ℕ) (hn : 0 < nt) (ks : List γ)
    (e : List ℝ) (o : Outcome (List ℝ)) :
    SpreadThreads D zL zH nt ks e o ↔ o = spread D zL zH ks e := by
  have key : ∀ k l, Arrives (fun t : Fin nt => blocks (D.load k).pt nt t 0 [] D.boxes) l → ∀ e,
      addAll (loadVal D zL zH k / l.flatten.length) l.flatten e
        = addAll (loadVal D zL zH k / (found (D.load k).pt 0 [] D.boxes).length)
          (found (D.load k).pt 0 [] D.boxes) e := by
    intro k l hl e
    have hp := arrives_perm hn _ _ hl
    rw [hp.length_eq, addAll_perm _ hp]
  constructor
  · intro h
    induction h with
    | nil e => rfl
    | cons k ks e l e' o hl ha _ ih =>
      rw [key k l hl] at ha
      simp only [spread, ha, Outcome.bind]
      exact ih
    | fail k ks e l o hl ha ho =>
      rw [key k l hl] at ha
      simp only [spread, ha]
      cases o with
      | ok e' => exact absurd rfl (ho e')
      | _ => rfl
  · rintro rfl
    induction ks generalizing e with
    | nil => exact .nil e
    | cons k ks ih =>
      obtain ⟨l, hl⟩ := arrives_exists _ (fun t : Fin nt => blocks (D.load k).pt nt t 0 [] D.boxes) rfl
      cases ha : addAll (loadVal D zL zH k / l.flatten.length) l.flatten e with
      | ok e' =>
        refine .cons k ks e l e' _ hl ha ?_
        have := ih e'
        rw [key k l hl] at ha
        simpa only [spread, ha, Outcome.bind] using this
      | _ =>
        refine .fail k ks e l _ hl ?_ ?_
        · rw [key k l hl] at ha ⊢
          simp only [spread, ha, Outcome.bind]
        · intro e' h
          rw [key k l hl] at ha
          simp [spread, ha, Outcome.bind] at h

/-- Non-vacuity: two threads, one patch with three elements of which the first and the last contain
the point. -/
example : SpreadThreads (ex1 0 0 1 0 0 [[unitBox, ⟨fun _ => 2, fun _ => 3⟩, unitBox]]) (const1 0)
    (const1 1) 2 [()] [0, 0, 0] (.ok [1 / 2, 0, 1 / 2]) := by
  refine (C132_serial _ _ _ 2 (by norm_num) _ _ _).2 ?_
  have h2 : ¬ (⟨fun _ => 2, fun _ => 3⟩ : Box).has (fun _ => (1 / 2 : ℝ)) := by
    intro h
    have := (h 0).1
    norm_num at this
  have hf : found (fun _ => (1 / 2 : ℝ)) 0 [] [[unitBox, ⟨fun _ => 2, fun _ => 3⟩, unitBox]] = [0, 2] := by
    simp only [found, hits, if_pos unitBox_mid, if_neg h2]; rfl
  have hv : loadVal (ex1 0 0 1 0 0 [[unitBox, ⟨fun _ => 2, fun _ => 3⟩, unitBox]]) (const1 0) (const1 1)
      () = 1 := by
    simp [loadVal, ex1, const1, up, dot]
  simp only [spread, hv]
  rw [show (ex1 0 0 1 0 0 [[unitBox, ⟨fun _ => 2, fun _ => 3⟩, unitBox]]).boxes
      = [[unitBox, ⟨fun _ => 2, fun _ => 3⟩, unitBox]] from rfl,
    show ((ex1 0 0 1 0 0 [[unitBox, ⟨fun _ => 2, fun _ => 3⟩, unitBox]]).load ()).pt
      = fun _ => (1 / 2 : ℝ) from rfl, hf]
  simp [addAll, Outcome.bind]

/-- **C132** The threads share the elements of a patch: element `i` is looked at by thread
`i mod nt` and by no other, under its number in the serial program. -/
theorem C132_share (x : Fin 2 → ℝ) (nt : ℕ) (hn : 0 < nt) (t : ℕ) (ht : t < nt) (c i : ℕ)
    (P : List Box) :
    c + i ∈ visit x nt (c + t) (P.drop t) ↔ i % nt = t ∧ ∃ h : i < P.length, Covers P[i] x := by
  suffices h : ∀ n c i (P : List Box), P.length = n → (c + i ∈ visit x nt (c + t) (P.drop t) ↔
      i % nt = t ∧ ∃ h : i < P.length, Covers P[i] x) from h _ c i P rfl
  intro n
  induction n using Nat.strong_induction_on with
  | _ n ih =>
    intro c i P hP
    cases P with
    | nil => simp [visit]
    | cons b bs =>
      have hlen : ((b :: bs).drop nt).length < n := by
        simp only [List.length_drop, ← hP, List.length_cons]; omega
      rw [visit_unfold x nt hn c, List.mem_append]
      have hhead : c + i ∈ headHit x c t (b :: bs) ↔
          i = t ∧ ∃ h : i < (b :: bs).length, Covers (b :: bs)[i] x := by
        simp only [headHit]
        by_cases hl : t < (b :: bs).length
        · rw [List.drop_eq_getElem_cons hl]
          simp only
          constructor
          · split_ifs with h
            · intro hm
              have : i = t := by have := List.mem_singleton.1 hm; omega
              subst this
              exact ⟨rfl, hl, h⟩
            · intro hm; cases hm
          · rintro ⟨rfl, _, h⟩
            rw [if_pos (show (b :: bs)[i].has x from h)]
            exact List.mem_singleton.2 rfl
        · rw [List.drop_eq_nil_of_le (by omega)]
          constructor
          · intro h; cases h
          · rintro ⟨rfl, h, -⟩; omega
      rw [hhead]
      by_cases hi : i < nt
      · have hno : c + i ∉ visit x nt (c + nt + t) (((b :: bs).drop nt).drop t) := by
          intro hm
          have : ∀ (k : ℕ) (Q : List Box) d, Q.length = k → ∀ y ∈ visit x nt d Q, d ≤ y := by
            intro k
            induction k using Nat.strong_induction_on with
            | _ k ihk =>
              intro Q d hQ y hy
              cases Q with
              | nil => simp [visit] at hy
              | cons q qs =>
                have := ihk (qs.drop (nt - 1)).length (by
                  simp only [List.length_drop, ← hQ, List.length_cons]; omega) _ (d + nt) rfl y
                rw [visit] at hy
                split_ifs at hy
                · rcases List.mem_cons.1 hy with rfl | hy
                  · exact le_rfl
                  · have := this hy; omega
                · have := this hy; omega
          have := this _ _ _ rfl _ hm
          omega
        rw [Nat.mod_eq_of_lt hi]
        constructor
        · rintro (h | h)
          · exact ⟨h.1, h.2⟩
          · exact absurd h hno
        · intro h; exact Or.inl h
      · have e : c + i = c + nt + (i - nt) := by omega
        rw [e, ih _ hlen (c + nt) (i - nt) _ rfl, ← Nat.mod_eq_sub_mod (by omega)]
        constructor
        · rintro (⟨h, -⟩ | ⟨h, h1, h2⟩)
          · omega
          · simp only [List.length_drop] at h1
            refine ⟨h, by omega, ?_⟩
            rw [List.getElem_drop] at h2
            have : nt + (i - nt) = i := by omega
            simpa only [this] using h2
        · rintro ⟨h, h1, h2⟩
          right
          refine ⟨h, by simp only [List.length_drop]; omega, ?_⟩
          rw [List.getElem_drop]
          have : nt + (i - nt) = i := by omega
          simpa only [this] using h2

/-- Non-vacuity: the third of three elements is looked at by thread 0 of two. -/
example : 7 ∈ visit (fun _ => (1 / 2 : ℝ)) 2 (5 + 0) ([unitBox, unitBox, unitBox].drop 0) :=
  (C132_share _ 2 (by norm_num) 0 (by norm_num) 5 2 _).2 ⟨rfl, by norm_num, unitBox_mid⟩

end Verif.DWR
