import Verif.Spec.DWRObject
import Verif.Lemmas.DWRError
import Verif.Props.DWRError
import Verif.Props.Variation
import Mathlib.Algebra.BigOperators.Fin
import Mathlib.Tactic.Ring
import Mathlib.Tactic.NormNum

/-! # Lemmas for the error estimator as an object -/

namespace Verif.DWR

open V3 Verif.Geometry Verif.Variation
open Verif.Assembler (upd)

variable {α β γ : Type}

/-! ## Lifetime -/

/-- Every object owns two allocated assemblers, objects share none, and nothing else is allocated. -/
structure Mem.Wf (m : Mem) : Prop where
  own : ∀ i p, m.ptr i = some p → ∃ l h, p = some (l, h) ∧ l ≠ h ∧ l < m.next ∧ h < m.next ∧
    m.live l = true ∧ m.live h = true
  disj : ∀ i j l h l' h', m.ptr i = some (some (l, h)) → m.ptr j = some (some (l', h')) → i ≠ j →
    l ≠ l' ∧ l ≠ h' ∧ h ≠ l' ∧ h ≠ h'
  leak : ∀ p, m.live p = true → ∃ i l h, m.ptr i = some (some (l, h)) ∧ (p = l ∨ p = h)

theorem upd_same {A : Type} (f : ℕ → A) (k : ℕ) (a : A) : upd f k a k = a := by simp [upd]

theorem upd_other {A : Type} (f : ℕ → A) (k i : ℕ) (a : A) (h : i ≠ k) : upd f k a i = f i := by
  simp [upd, h]

theorem Mem.Wf.start : Mem.start.Wf :=
  ⟨fun i p h => by simp [Mem.start] at h, fun i j l h l' h' e => by simp [Mem.start] at e,
    fun p h => by simp [Mem.start] at h⟩

theorem Mem.Wf.step {m : Mem} (w : m.Wf) (o : LifeOp) (ho : o.plain) :
    ∃ m', m.step o = .ok m' ∧ m'.Wf := by
  cases o with
  | empty i => exact absurd ho (by simp [LifeOp.plain])
  | copy i j => exact absurd ho (by simp [LifeOp.plain])
  | construct i =>
    by_cases hs : (m.ptr i).isSome
    · exact ⟨m, by simp [Mem.step, hs], w⟩
    have hi : m.ptr i = none := by simpa using hs
    refine ⟨_, by simp only [Mem.step, hi]; rfl, ?_, ?_, ?_⟩
    · intro k p hp
      by_cases hk : k = i
      · subst hk
        simp only [upd_same] at hp
        refine ⟨m.next, m.next + 1, (Option.some.inj hp).symm, by omega, by simp, by simp, ?_, ?_⟩
        · show upd (upd m.live m.next true) (m.next + 1) true m.next = true
          rw [upd_other _ _ _ _ (by omega), upd_same]
        · exact upd_same _ _ _
      · simp only [upd_other _ _ _ _ hk] at hp
        obtain ⟨l, h, e, h1, h2, h3, h4, h5⟩ := w.own k p hp
        refine ⟨l, h, e, h1, Nat.lt_add_right 2 h2, Nat.lt_add_right 2 h3, ?_, ?_⟩
        · show upd (upd m.live m.next true) (m.next + 1) true l = true
          rw [upd_other _ _ _ _ (by omega), upd_other _ _ _ _ (by omega), h4]
        · show upd (upd m.live m.next true) (m.next + 1) true h = true
          rw [upd_other _ _ _ _ (by omega), upd_other _ _ _ _ (by omega), h5]
    · intro a b l h l' h' ha hb hab
      have key : ∀ k x y, k ≠ i → m.ptr k = some (some (x, y)) → x < m.next ∧ y < m.next := by
        intro k x y _ e
        obtain ⟨l, h, e', _, h2, h3, _⟩ := w.own k _ e
        obtain ⟨rfl, rfl⟩ := Prod.mk.inj (Option.some.inj e')
        exact ⟨h2, h3⟩
      by_cases hai : a = i
      · subst hai
        simp only [upd_same] at ha
        simp only [upd_other _ _ _ _ (Ne.symm hab)] at hb
        obtain ⟨rfl, rfl⟩ := Prod.mk.inj (Option.some.inj (Option.some.inj ha))
        obtain ⟨h1, h2⟩ := key b l' h' (Ne.symm hab) hb
        omega
      · simp only [upd_other _ _ _ _ hai] at ha
        by_cases hbi : b = i
        · subst hbi
          simp only [upd_same] at hb
          obtain ⟨rfl, rfl⟩ := Prod.mk.inj (Option.some.inj (Option.some.inj hb))
          obtain ⟨h1, h2⟩ := key a l h hai ha
          omega
        · simp only [upd_other _ _ _ _ hbi] at hb
          exact w.disj a b l h l' h' ha hb hab
    · intro p hp
      by_cases h1 : p = m.next + 1
      · exact ⟨i, m.next, m.next + 1, upd_same _ _ _, Or.inr h1⟩
      by_cases h2 : p = m.next
      · exact ⟨i, m.next, m.next + 1, upd_same _ _ _, Or.inl h2⟩
      simp only [upd_other _ _ _ _ h1, upd_other _ _ _ _ h2] at hp
      obtain ⟨k, l, h, e, he⟩ := w.leak p hp
      refine ⟨k, l, h, ?_, he⟩
      have : k ≠ i := by rintro rfl; rw [hi] at e; cases e
      simp only [upd_other _ _ _ _ this, e]
  | destroy i =>
    cases hi : m.ptr i with
    | none => exact ⟨m, by simp [Mem.step, hi], w⟩
    | some p =>
      obtain ⟨l, h, rfl, hlh, -, -, h4, h5⟩ := w.own i p hi
      refine ⟨{ m with live := upd (upd m.live l false) h false, ptr := upd m.ptr i none }, ?_, ?_, ?_, ?_⟩
      · simp only [Mem.step, hi, Mem.delete, h4, if_true, Outcome.bind]
        rw [if_pos (by rw [upd_other _ _ _ _ (Ne.symm hlh), h5])]
        rfl
      · intro k p hp
        have hk : k ≠ i := by rintro rfl; simp [upd] at hp
        simp only [upd_other _ _ _ _ hk] at hp
        obtain ⟨l', h', rfl, e1, e2, e3, e4, e5⟩ := w.own k p hp
        obtain ⟨d1, d2, d3, d4⟩ := w.disj k i l' h' l h hp hi hk
        refine ⟨l', h', rfl, e1, e2, e3, ?_, ?_⟩
        · simp only [upd_other _ _ _ _ d2, upd_other _ _ _ _ d1, e4]
        · simp only [upd_other _ _ _ _ d4, upd_other _ _ _ _ d3, e5]
      · intro a b x y x' y' ha hb hab
        have h1 : a ≠ i := by rintro rfl; simp [upd] at ha
        have h2 : b ≠ i := by rintro rfl; simp [upd] at hb
        simp only [upd_other _ _ _ _ h1] at ha
        simp only [upd_other _ _ _ _ h2] at hb
        exact w.disj a b x y x' y' ha hb hab
      · intro p hp
        have h1 : p ≠ h := by rintro rfl; simp [upd] at hp
        simp only [upd_other _ _ _ _ h1] at hp
        have h2 : p ≠ l := by rintro rfl; simp [upd] at hp
        simp only [upd_other _ _ _ _ h2] at hp
        obtain ⟨k, x, y, e, he⟩ := w.leak p hp
        refine ⟨k, x, y, ?_, he⟩
        have hk : k ≠ i := by
          rintro rfl
          rw [hi] at e
          obtain ⟨rfl, rfl⟩ := Prod.mk.inj (Option.some.inj (Option.some.inj e))
          rcases he with rfl | rfl
          · exact h2 rfl
          · exact h1 rfl
        simp only [upd_other _ _ _ _ hk, e]

theorem Mem.Wf.exec {m : Mem} (w : m.Wf) (ops : List LifeOp) (h : ∀ o ∈ ops, o.plain) :
    ∃ m', Mem.exec ops m = .ok m' ∧ m'.Wf := by
  induction ops generalizing m with
  | nil => exact ⟨m, rfl, w⟩
  | cons o os ih =>
    obtain ⟨m1, e1, w1⟩ := w.step o (h o (by simp))
    obtain ⟨m2, e2, w2⟩ := ih w1 fun o' ho => h o' (by simp [ho])
    exact ⟨m2, by simp [Mem.exec, e1, Outcome.bind, e2], w2⟩

/-! ## Dual numbering -/

theorem scatter_spec (N : Numbering) (rows : ℕ) (hr : N.size ≤ rows) (c : List (ℕ × ℝ)) (v : ℕ → ℝ) :
    ∃ v', scatter N rows c v = .ok v' ∧
      ∀ g, v' g = v g + if g < N.size then collected N.glob c g else 0 := by
  induction c generalizing v with
  | nil => exact ⟨v, rfl, fun g => by simp [collected]⟩
  | cons p c ih =>
    obtain ⟨i, x⟩ := p
    by_cases h : N.glob i < N.size
    · obtain ⟨v', e, hv⟩ := ih (upd v (N.glob i) (v (N.glob i) + x))
      refine ⟨v', by simp only [scatter, if_pos h, if_pos (lt_of_lt_of_le h hr), e], fun g => ?_⟩
      rw [hv]
      by_cases hg : g = N.glob i
      · subst hg
        simp [upd, collected, h]; ring
      · rw [upd_other _ _ _ _ hg]
        simp [collected, Ne.symm hg]
    · obtain ⟨v', e, hv⟩ := ih v
      refine ⟨v', by simp only [scatter, if_neg h, e], fun g => ?_⟩
      rw [hv]
      by_cases hg : N.glob i = g
      · subst hg; simp [h]
      · simp [collected, hg]

/-! ## Linearity of the residual -/

/-- Combination of surfaces. -/
noncomputable def surfComb {n : ℕ} (c : Fin n → ℝ) (v : Fin n → Surf) : Surf where
  a j := ⟨∑ i, c i * ((v i).a j).x, ∑ i, c i * ((v i).a j).y, ∑ i, c i * ((v i).a j).z⟩
  d11 := ⟨∑ i, c i * (v i).d11.x, ∑ i, c i * (v i).d11.y, ∑ i, c i * (v i).d11.z⟩
  d22 := ⟨∑ i, c i * (v i).d22.x, ∑ i, c i * (v i).d22.y, ∑ i, c i * (v i).d22.z⟩
  d12 := ⟨∑ i, c i * (v i).d12.x, ∑ i, c i * (v i).d12.y, ∑ i, c i * (v i).d12.z⟩

theorem surfComb_zero (c : Fin 0 → ℝ) (v : Fin 0 → Surf) :
    surfComb c v = fieldSmul 0 ⟨fun _ => 0, 0, 0, 0⟩ := by
  unfold surfComb fieldSmul
  congr 1
  · funext j; ext <;> simp
  all_goals ext <;> simp

theorem surfComb_succ {n : ℕ} (c : Fin (n + 1) → ℝ) (v : Fin (n + 1) → Surf) :
    surfComb c v
      = fieldAdd (fieldSmul (c 0) (v 0)) (surfComb (fun i => c i.succ) fun i => v i.succ) := by
  unfold surfComb fieldSmul fieldAdd
  congr 1
  · funext j; ext <;> simp [Fin.sum_univ_succ]
  all_goals ext <;> simp [Fin.sum_univ_succ]

theorem EmDer_lin (s u v : Surf) (c : ℝ) (k : Fin 3) :
    EmDer s (fieldAdd (fieldSmul c u) v) k = c * EmDer s u k + EmDer s v k := by
  rcases fin3_cases k with rfl | rfl | rfl <;> simp [EmDer, fieldAdd, fieldSmul, dot] <;> ring

theorem EfDer_lin (s u v : Surf) (c : ℝ) (k : Fin 3) :
    EfDer s (fieldAdd (fieldSmul c u) v) k = c * EfDer s u k + EfDer s v k := by
  simp only [EfDer, C63_linear]
  rcases fin3_cases k with rfl | rfl | rfl <;>
    simp [dbl3, deriv2dot, fieldAdd, fieldSmul, dot] <;> ring

theorem EmDer_comb {n : ℕ} (s : Surf) (c : Fin n → ℝ) (v : Fin n → Surf) (k : Fin 3) :
    EmDer s (surfComb c v) k = ∑ i, c i * EmDer s (v i) k := by
  induction n with
  | zero =>
    rw [surfComb_zero]
    rcases fin3_cases k with rfl | rfl | rfl <;> simp [EmDer, fieldSmul, dot]
  | succ n ih => rw [surfComb_succ, EmDer_lin, ih, Fin.sum_univ_succ]

theorem EfDer_comb {n : ℕ} (s : Surf) (c : Fin n → ℝ) (v : Fin n → Surf) (k : Fin 3) :
    EfDer s (surfComb c v) k = ∑ i, c i * EfDer s (v i) k := by
  induction n with
  | zero =>
    rw [surfComb_zero]
    have : var1 s (fieldSmul 0 ⟨fun _ => 0, 0, 0, 0⟩) = 0 := by
      ext <;> simp [var1, mvec, fieldSmul, cross, dot]
    simp only [EfDer, this]
    rcases fin3_cases k with rfl | rfl | rfl <;> simp [dbl3, deriv2dot, fieldSmul, dot]
  | succ n ih => rw [surfComb_succ, EfDer_lin, ih, Fin.sum_univ_succ]

theorem dotV_comb {n : ℕ} (N : Voigt) (c : Fin n → ℝ) (v : Fin n → Voigt) :
    dotV N (fun k => ∑ i, c i * v i k) = ∑ i, c i * dotV N (v i) := by
  simp only [dotV, Finset.mul_sum]
  rw [Finset.sum_comm]
  refine Finset.sum_congr rfl fun i _ => Finset.sum_congr rfl fun k _ => ?_
  ring

theorem resAt_comb (f : Form) (D : Setup α β γ) {n : ℕ} (c : Fin n → ℝ) (φ : Fin n → Disc α β γ)
    (q : α) : resAt f D (comb c φ) q = ∑ i, c i * resAt f D (φ i) q := by
  have hw : dot ((comb c φ).w q) (D.F q) = ∑ i, c i * dot ((φ i).w q) (D.F q) := comb_dot _ _ _
  have hd : (comb c φ).d q = surfComb c fun i => (φ i).d q := rfl
  have hm : dotV (D.N q) (EmDer (D.defo q) ((comb c φ).d q))
      = ∑ i, c i * dotV (D.N q) (EmDer (D.defo q) ((φ i).d q)) := by
    rw [← dotV_comb, hd]; congr 1; funext k; exact EmDer_comb _ _ _ _
  have hf : dotV (D.M q) (EfDer (D.defo q) ((comb c φ).d q))
      = ∑ i, c i * dotV (D.M q) (EfDer (D.defo q) ((φ i).d q)) := by
    rw [← dotV_comb, hd]; congr 1; funext k; exact EfDer_comb _ _ _ _
  cases f <;> simp only [resAt, hw, hm, hf, mul_sub, mul_add, Finset.sum_sub_distrib,
    Finset.sum_add_distrib, mul_zero, Finset.sum_const_zero]

theorem residual_eq (f : Form) (D : Setup α β γ) (hp : DeadLoads D) (hr : f = .shell → RegularDef D)
    (z : Disc α β γ) :
    residual f D z = total D (resAt f D z)
      + (D.bdr.map fun q => D.bwt q * dot (z.b q) (D.gN q) * D.tv q).sum
      + (D.loads.map fun k => dot (z.l k) (D.load k).value).sum := by
  rw [← intWork_eq f D hr z, residual, otherWork_zero D hp, deadWork]
  ring

theorem residual_comb (f : Form) (D : Setup α β γ) (hp : DeadLoads D)
    (hr : f = .shell → RegularDef D) {n : ℕ} (c : Fin n → ℝ) (φ : Fin n → Disc α β γ) :
    residual f D (comb c φ) = ∑ i, c i * residual f D (φ i) := by
  simp only [residual_eq f D hp hr, mul_add, Finset.sum_add_distrib]
  congr 1
  · congr 1
    · simp only [total]
      rw [← list_sum_comb]
      congr 1
      apply List.map_congr_left
      intro q _
      rw [resAt_comb, Finset.mul_sum, Finset.sum_mul]
      refine Finset.sum_congr rfl fun i _ => ?_
      ring
    · rw [← list_sum_comb]
      congr 1
      apply List.map_congr_left
      intro q _
      have : dot ((comb c φ).b q) (D.gN q) = ∑ i, c i * dot ((φ i).b q) (D.gN q) := comb_dot _ _ _
      rw [this, Finset.mul_sum, Finset.sum_mul]
      refine Finset.sum_congr rfl fun i _ => ?_
      ring
  · rw [← list_sum_comb]
    congr 1
    apply List.map_congr_left
    intro k _
    exact comb_dot _ _ _

theorem newton_work {f : Form} {D : Setup α β γ} (hp : DeadLoads D)
    (hr : f = .shell → RegularDef D) {n : ℕ} (N : NewtonStep f D n) :
    residual f D (comb N.z N.φ) = N.gain := by
  rw [residual_comb f D hp hr, NewtonStep.gain]
  simp only [← N.step, ← N.dual, Finset.mul_sum, Finset.sum_mul]
  rw [Finset.sum_comm]
  refine Finset.sum_congr rfl fun i _ => Finset.sum_congr rfl fun j _ => ?_
  rw [N.symm j i]; ring

end Verif.DWR
