import Verif.Lemmas.Dirichlet
import Mathlib.Tactic.NormNum
import Mathlib.Data.Fin.VecNotation
import Mathlib.Algebra.BigOperators.Fin

/-!
# Prescribed displacements and sizes of the systems

C104: the linear system and the constructed displacement under prescribed displacements.
C105: matrices and vectors have the size of the numbering in use.
-/

namespace Verif.Dirichlet

variable {β : Type} {n b : ℕ}

/-! ## C104 -/

/-- A spring between a free and a fixed end. -/
def spring : Linear 1 1 := ⟨fun _ _ => 1, fun _ _ => -1, fun _ _ => 1, fun _ => 0, fun _ => 0⟩

/-- **C104** Whatever was called before, the constructed displacement has the values prescribed by the
boundary conditions given last. -/
theorem C104_shown (proj : β → Fin b → ℝ) (k : β) (l : List (Call β)) :
    shown (Values.run proj k l) = proj (current k l) := (run_bcs proj k l).2

/-- Non-vacuity: new boundary conditions, mass matrix, vector. -/
example : shown (Values.run (fun k (_ : Fin 1) => (k : ℝ)) (1 : ℝ)
    [.updateBCs 3, .assembleMass, .assembleVector true]) = fun _ => 3 :=
  C104_shown _ _ _

/-- **C104** A solution of the linear system, completed with the prescribed displacements, is in
equilibrium exactly if no call has cleared the values of the space since they were last restored, or
the prescribed displacements do not load the free functions. -/
theorem C104_linear_partial (P : Linear n b) (hK : ∀ i j, P.K i j = P.K j i) (proj : β → Fin b → ℝ)
    (k : β) (l : List (Call β)) (x : Fin n → ℝ)
    (hx : ∀ i, ∑ j, P.K i j * x j = linearRhs P (Values.run proj k l) i) :
    Equilibrium P (proj (current k l)) x (shown (Values.run proj k l)) ↔
      (Fresh l ∨ ∀ i, ∑ j, P.A i j * proj (current k l) j = 0) := by
  rw [equilibrium_iff P hK, C104_shown]
  simp only [true_and]
  by_cases hf : Fresh l
  · have h := (run_fixed proj k l).1 hf
    refine ⟨fun _ => Or.inl hf, fun _ i => ?_⟩
    rw [hx i, linearRhs, h]; ring
  · have h := (run_fixed proj k l).2 hf
    have h' : ∀ i, ∑ j, P.K i j * x j = P.f i := fun i => by rw [hx i, linearRhs, h]; simp
    constructor
    · intro he
      exact Or.inr fun i => by have := he i; rw [h' i] at this; linarith
    · rintro (h0 | h0) i
      · exact absurd h0 hf
      · rw [h' i, h0 i, add_zero]

/-- Non-vacuity: the right-hand end of a spring is moved by 1, after a mass matrix and a vector. -/
example : Equilibrium spring (fun _ => 1) (fun _ => 1)
    (shown (Values.run (fun (_ : Unit) _ => 1) () [.assembleMass, .assembleVector false])) := by
  refine (C104_linear_partial spring (fun _ _ => rfl) (fun (_ : Unit) _ => 1) ()
    [.assembleMass, .assembleVector false] (fun _ => 1) ?_).2 (Or.inl ?_)
  · intro i; simp [spring, linearRhs, Values.run, Values.call, Values.new]
  · exact ⟨[.assembleMass, .assembleVector false], [], rfl, by simp,
      Or.inr ⟨[.assembleMass], _, rfl, rfl⟩⟩

/-- **C104** One Newton step from any start, with the deformed geometry built by the assembler, gives
equilibrium under the prescribed displacements whatever was called before. -/
theorem C104_newton (P : Linear n b) (hK : ∀ i j, P.K i j = P.K j i) (proj : β → Fin b → ℝ)
    (k : β) (l : List (Call β)) (x d : Fin n → ℝ)
    (hd : ∀ i, ∑ j, P.K i j * d j = residualRhs P x (shown (Values.run proj k l)) i) :
    Equilibrium P (proj (current k l)) (fun i => x i + d i) (shown (Values.run proj k l)) := by
  rw [equilibrium_iff P hK]
  refine ⟨C104_shown proj k l, fun i => ?_⟩
  have h : ∑ j, P.K i j * (x j + d j) = (∑ j, P.K i j * x j) + ∑ j, P.K i j * d j := by
    rw [← Finset.sum_add_distrib]; exact Finset.sum_congr rfl fun j _ => by ring
  rw [h, hd i, residualRhs]; ring

/-- Non-vacuity: the spring after a mass matrix. -/
example : Equilibrium spring (fun _ => 1) (fun _ => 0 + 1)
    (shown (Values.run (fun (_ : Unit) _ => 1) () [.assembleMass])) :=
  C104_newton spring (fun _ _ => rfl) (fun (_ : Unit) _ => 1) () [.assembleMass] (fun _ => 0)
    (fun _ => 1) (by intro i; simp [spring, residualRhs, C104_shown])

/-- **C104** After the mass matrix, a tangent matrix, a homogenised vector or `homogenizeDirichlet`,
the linear system lacks the prescribed displacements: a spring whose other end is moved by 1 has the
only solution 0, while only 1 is in equilibrium. -/
theorem C104_cleared_violated (c : Call Unit) (hc : clears c = true) :
    let s := Values.run (b := 1) (fun _ _ => 1) () [c]
    (∀ x : Fin 1 → ℝ, (∀ i, ∑ j, spring.K i j * x j = linearRhs spring s i) ↔ x 0 = 0) ∧
      (∀ x : Fin 1 → ℝ, Equilibrium spring (fun _ => 1) x (shown s) ↔ x 0 = 1) := by
  have hs := C104_shown (b := 1) (fun (_ : Unit) _ => (1 : ℝ)) () [c]
  have hf : ¬ Fresh [c] := by
    have h := fresh_append [] c
    rw [List.nil_append] at h
    rw [h]
    rintro (h' | ⟨h', -⟩)
    · rw [clears_restores c hc] at h'; cases h'
    · rw [hc] at h'; cases h'
  have h0 := (run_fixed (b := 1) (fun (_ : Unit) _ => (1 : ℝ)) () [c]).2 hf
  refine ⟨fun x => ?_, fun x => ?_⟩
  · simp [linearRhs, h0, spring]
  · rw [equilibrium_iff spring (fun _ _ => rfl), hs]
    simp only [true_and, spring, Finset.univ_unique, Fin.default_eq_zero, Finset.sum_singleton, one_mul,
      mul_one]
    exact ⟨fun h => by linarith [h 0], fun h _ => by rw [h]; norm_num⟩

/-- Non-vacuity: the mass matrix clears. -/
example : clears (.assembleMass : Call Unit) = true := rfl

/-! ## C105 -/

/-- **C105** If after every direct change of the option "Continuity" the first call that assembles
is `assemble()`, or the space is set up before, no entry is written outside the systems, and every
system has as many rows as there are functions with the continuity in force. -/
theorem C105_ordered_partial (num : ℤ → ℕ) (l : List SizeCall) (h : Ordered false l) :
    (Sizes.new num).run num l = .ok (expected num (-1) l) := by
  have key : ∀ (p : Bool) (s : Sizes), s.space = num s.cont → (p = false → s.cont = s.opt) →
      Ordered p l → s.run num l = .ok (expected num s.opt l) := by
    clear h
    induction l with
    | nil => exact fun p s _ _ _ => rfl
    | cons c l ih =>
      intro p s hs hp ho
      cases c with
      | option c => exact ih true { s with opt := c } hs (by simp) ho
      | setOptions c =>
        by_cases hc : s.opt = c
        · have := ih p { s with opt := c } hs (fun h => by rw [hp h, hc]) ho
          simpa [Sizes.run, Sizes.call, hc, expected] using this
        · have := ih p ⟨c, c, num c⟩ rfl (fun _ => rfl) ho
          simpa [Sizes.run, Sizes.call, hc, expected, Sizes.getOptions] using this
      | refresh => exact ih false ⟨s.opt, s.opt, num s.opt⟩ rfl (fun _ => rfl) ho
      | assemble =>
        have e : s.getOptions' num = ⟨s.opt, s.opt, num s.opt⟩ := by
          obtain ⟨o, c, sp⟩ := s
          simp only at hs
          by_cases hc : c = o
          · subst hc hs; simp [Sizes.getOptions']
          · simp [Sizes.getOptions', hc]
        have := ih false ⟨s.opt, s.opt, num s.opt⟩ rfl (fun _ => rfl) ho
        simp [Sizes.run, Sizes.call, expected, fillSystem, e, this, Outcome.map]
      | assembleMatrix =>
        have e : s.space = num s.opt := by rw [hs, hp ho.1]
        have := ih false ⟨s.opt, s.opt, num s.opt⟩ rfl (fun _ => rfl) ho.2
        simp [Sizes.run, Sizes.call, expected, fillSystem, Sizes.getOptions, e, this, Outcome.map]
      | assembleVector =>
        have e : s.space = num s.opt := by rw [hs, hp ho.1]
        have := ih false ⟨s.opt, s.opt, num s.opt⟩ rfl (fun _ => rfl) ho.2
        simp [Sizes.run, Sizes.call, expected, fillSystem, Sizes.getOptions, e, this, Outcome.map]
      | assembleMass =>
        have e : s.space = num s.opt := by rw [hs, hp ho.1]
        have e' : num s.cont = num s.opt := by rw [hp ho.1]
        have := ih false { s with space := num s.cont } rfl (fun _ => hp ho.1) ho.2
        rw [e'] at this
        simp [Sizes.run, Sizes.call, expected, fillSystem, e, e', this, Outcome.map]
  exact key false _ rfl (fun _ => rfl) h

/-- Numbers of two patches with three functions each, of which one is matched. -/
def twoPatch (c : ℤ) : ℕ := if c = 0 then 5 else 6

/-- Non-vacuity: strong coupling through the option, `assemble()` first. -/
example : (Sizes.new twoPatch).run twoPatch [.assembleMass, .option 0, .assemble, .assembleMatrix]
    = .ok [(6, 6), (5, 5), (5, 5)] := C105_ordered_partial twoPatch _ ⟨rfl, ⟨rfl, trivial⟩⟩

/-- **C105** A direct change to a continuity with more functions: the tangent matrix and the vector
are written outside their bounds. -/
theorem C105_more_violated (num : ℤ → ℕ) (c c' : ℤ) (h : num c < num c') :
    (Sizes.new num).run num [.option c, .assemble, .option c', .assembleMatrix] = .ub ∧
      (Sizes.new num).run num [.option c, .assemble, .option c', .assembleVector] = .ub := by
  have h' : ¬ num c' ≤ num c := by omega
  by_cases hc : (-1 : ℤ) = c
  · subst hc
    simp [Sizes.run, Sizes.call, Sizes.new, Sizes.getOptions', Sizes.getOptions, fillSystem, h',
      Outcome.map]
  · simp [Sizes.run, Sizes.call, Sizes.new, Sizes.getOptions', Sizes.getOptions, fillSystem, h', hc,
      Outcome.map]

/-- Non-vacuity: from coupled to uncoupled patches. -/
example : (Sizes.new twoPatch).run twoPatch [.option 0, .assemble, .option (-1), .assembleMatrix] = .ub :=
  (C105_more_violated twoPatch 0 (-1) (by decide)).1

/-- **C105** A direct change to a continuity with fewer functions: the first tangent matrix has rows
without any function, so it is singular. -/
theorem C105_fewer_violated (num : ℤ → ℕ) (h : num 0 < num (-1)) :
    (Sizes.new num).run num [.option 0, .assembleMatrix] = .ok [(num (-1), num 0)] ∧
      expected num (-1) [.option 0, .assembleMatrix] = [(num 0, num 0)] := by
  have h' : num 0 ≤ num (-1) := by omega
  simp [Sizes.run, Sizes.call, Sizes.new, Sizes.getOptions, fillSystem, h', Outcome.map, expected]

/-- Non-vacuity: six rows, five functions. -/
example : (Sizes.new twoPatch).run twoPatch [.option 0, .assembleMatrix] = .ok [(6, 5)] :=
  (C105_fewer_violated twoPatch (by decide)).1

/-- **C105** After a direct change the mass matrix is still numbered by the old continuity, so it does
not fit the stiffness matrix assembled next. -/
theorem C105_mass_violated (num : ℤ → ℕ) (h : num 0 < num (-1)) :
    (Sizes.new num).run num [.option 0, .assembleMass, .assemble]
        = .ok [(num (-1), num (-1)), (num 0, num 0)] ∧ num (-1) ≠ num 0 ∧
      expected num (-1) [.option 0, .assembleMass, .assemble] = [(num 0, num 0), (num 0, num 0)] := by
  have h' : num (-1) ≠ num 0 := by omega
  refine ⟨?_, h', rfl⟩
  simp [Sizes.run, Sizes.call, Sizes.new, Sizes.getOptions', fillSystem, Outcome.map]

/-- Non-vacuity: six against five rows. -/
example : (Sizes.new twoPatch).run twoPatch [.option 0, .assembleMass, .assemble]
    = .ok [(6, 6), (5, 5)] := (C105_mass_violated twoPatch (by decide)).1

end Verif.Dirichlet
