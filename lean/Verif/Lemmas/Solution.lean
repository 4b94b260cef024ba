import Verif.Spec.Solution
import Verif.Lemmas.Variation
import Mathlib.Tactic.Ring
import Mathlib.Algebra.BigOperators.Group.Finset.Basic
import Mathlib.Algebra.BigOperators.Ring.Finset

/-! # Lemmas on solution vectors and boundary forces -/

set_option linter.unusedSimpArgs false

namespace Verif.Solution

theorem mem_triples (m : Mapper) (n d p c k : ℕ) :
    (p, c, k) ∈ triples m n d ↔ p < n ∧ c < d ∧ k < m.size p c := by
  unfold triples
  simp only [List.mem_flatMap, List.mem_range, List.mem_map, Prod.mk.injEq]
  constructor
  · rintro ⟨p', hp, c', hc, k', hk, rfl, rfl, rfl⟩
    exact ⟨hp, hc, hk⟩
  · rintro ⟨hp, hc, hk⟩
    exact ⟨p, hp, c, hc, k, hk, rfl, rfl, rfl⟩

theorem fill_ok (m : Mapper) (ddofs sol : List ℝ) (v : ℕ → ℝ) (l : List (ℕ × ℕ × ℕ))
    (h : ∀ t ∈ l, dofValue m ddofs sol (m.glob t.1 t.2.1 t.2.2) = .ok (v (m.glob t.1 t.2.1 t.2.2)))
    (f : Field) : ∃ f', fill m ddofs sol l f = .ok f' ∧
      ∀ p c k, f' p c k = if (p, c, k) ∈ l then v (m.glob p c k) else f p c k := by
  induction l generalizing f with
  | nil => exact ⟨f, rfl, by simp⟩
  | cons t ts ih =>
    obtain ⟨f', hf, hv⟩ := ih (fun t' ht' => h t' (List.mem_cons_of_mem _ ht'))
      (setCoef f t (v (m.glob t.1 t.2.1 t.2.2)))
    refine ⟨f', ?_, fun p c k => ?_⟩
    · unfold fill
      rw [h t List.mem_cons_self]
      exact hf
    · rw [hv]
      by_cases h1 : (p, c, k) ∈ ts
      · simp [h1]
      · by_cases h2 : (p, c, k) = t
        · subst h2; simp [setCoef]
        · simp [h1, h2, setCoef]

theorem collect_ok (m : Mapper) (u : MultiPatch) (v : ℕ → ℝ) (l : List (ℕ × ℕ × ℕ))
    (hr : ∀ t ∈ l, t.2.2 < u.rows t.1)
    (h : ∀ t ∈ l, m.glob t.1 t.2.1 t.2.2 < m.freeSize →
      u.coef t.1 t.2.1 t.2.2 = v (m.glob t.1 t.2.1 t.2.2))
    (r : ℕ → Option ℝ) : ∃ r', collect m u l r = .ok r' ∧
      ∀ g, g < m.freeSize → (∃ t ∈ l, m.glob t.1 t.2.1 t.2.2 = g) → r' g = some (v g) := by
  suffices hs : ∃ r', collect m u l r = .ok r' ∧ ∀ g, g < m.freeSize →
      ((∃ t ∈ l, m.glob t.1 t.2.1 t.2.2 = g) ∨ r g = some (v g)) → r' g = some (v g) by
    obtain ⟨r', h1, h2⟩ := hs
    exact ⟨r', h1, fun g hg ht => h2 g hg (.inl ht)⟩
  induction l generalizing r with
  | nil => exact ⟨r, rfl, fun g _ hh => by simpa using hh⟩
  | cons t ts ih =>
    have hr' : ∀ t' ∈ ts, t'.2.2 < u.rows t'.1 := fun t' ht' => hr t' (List.mem_cons_of_mem _ ht')
    have h' := fun t' ht' => h t' (List.mem_cons_of_mem t ht')
    unfold collect
    by_cases hf : m.glob t.1 t.2.1 t.2.2 < m.freeSize
    · rw [if_pos hf, if_pos (hr t List.mem_cons_self)]
      obtain ⟨r', h1, h2⟩ := ih hr' h' (fun g => if g = m.glob t.1 t.2.1 t.2.2
        then some (u.coef t.1 t.2.1 t.2.2) else r g)
      refine ⟨r', h1, fun g hg hh => h2 g hg ?_⟩
      by_cases he : g = m.glob t.1 t.2.1 t.2.2
      · right; beta_reduce; rw [if_pos he, h t List.mem_cons_self hf, he]
      · rcases hh with ⟨t', ht', e⟩ | hh
        · rcases List.mem_cons.1 ht' with rfl | ht''
          · exact absurd e.symm he
          · exact .inl ⟨t', ht'', e⟩
        · right; beta_reduce; rw [if_neg he]; exact hh
    · rw [if_neg hf]
      obtain ⟨r', h1, h2⟩ := ih hr' h' r
      refine ⟨r', h1, fun g hg hh => h2 g hg ?_⟩
      rcases hh with ⟨t', ht', e⟩ | hh
      · rcases List.mem_cons.1 ht' with rfl | ht''
        · exact absurd (e ▸ hg) hf
        · exact .inl ⟨t', ht'', e⟩
      · exact .inr hh

/-- Value of a global index of a complete numbering. -/
noncomputable def valueOf (m : Mapper) (ddofs sol : List ℝ) (g : ℕ) : ℝ :=
  if g < m.freeSize then (sol[g]?).getD 0 else (ddofs[g - m.freeSize]?).getD 0

theorem dofValue_ok (m : Mapper) (ddofs sol : List ℝ) (g : ℕ) (h1 : sol.length = m.freeSize)
    (h2 : g < m.freeSize + ddofs.length) :
    dofValue m ddofs sol g = .ok (valueOf m ddofs sol g) := by
  unfold dofValue valueOf readAt
  by_cases h : g < m.freeSize
  · rw [if_pos h, if_pos h, List.getElem?_eq_getElem (h1 ▸ h)]; rfl
  · have : g - m.freeSize < ddofs.length := by omega
    rw [if_neg h, if_neg h, List.getElem?_eq_getElem this]; rfl

theorem displacement_ok (m : Mapper) (d : ℕ) (ddofs sol : List ℝ)
    (h : Complete m d ddofs sol.length) : ∃ f, constructDisplacement m d ddofs sol
      = .ok ⟨m.nPatches, fun p => m.size p 0, f⟩ ∧
      ∀ p c k, IsDof m d p c k → f p c k = valueOf m ddofs sol (m.glob p c k) := by
  obtain ⟨f, hf, hv⟩ := fill_ok m ddofs sol (valueOf m ddofs sol) (triples m m.nPatches d)
    (fun t ht => dofValue_ok m ddofs sol _ h.length
      (h.bound t.1 t.2.1 t.2.2 ((mem_triples m _ d _ _ _).1 ht))) (fun _ _ _ => 0)
  refine ⟨f, ?_, fun p c k hd => ?_⟩
  · unfold constructDisplacement; rw [hf]; rfl
  · rw [hv, if_pos ((mem_triples m _ d _ _ _).2 hd)]

theorem mem_indices (glob : ℕ → ℕ → ℕ → ℕ) (c : ℕ) (sides : List Side) (g : ℕ) :
    g ∈ indices glob c sides ↔ OnSides glob c sides g := by
  induction sides with
  | nil => simp [indices, OnSides]
  | cons s ss ih =>
    simp only [indices, Finset.mem_union, List.mem_toFinset, List.mem_map, ih, OnSides,
      List.mem_cons, exists_eq_or_imp]

open Variation Geometry V3 in
/-- The internal force is linear in the derivatives of a basis function. -/
theorem internalForce_basis (s : Surf) (N M : Voigt) (c : Fin 3) :
    ∃ K : Fin 5 → ℝ, ∀ (g : Fin 2 → ℝ) (h : Voigt),
      internalForce s (basisField c g h) N M
        = K 0 * g 0 + K 1 * g 1 + K 2 * h 0 + K 3 * h 1 + K 4 * h 2 := by
  have key : ∀ (g : Fin 2 → ℝ) (h : Voigt), internalForce s (basisField c g h) N M
      = internalForce s (basisField c ![1, 0] (vec3 0 0 0)) N M * g 0
        + internalForce s (basisField c ![0, 1] (vec3 0 0 0)) N M * g 1
        + internalForce s (basisField c ![0, 0] (vec3 1 0 0)) N M * h 0
        + internalForce s (basisField c ![0, 0] (vec3 0 1 0)) N M * h 1
        + internalForce s (basisField c ![0, 0] (vec3 0 0 1)) N M * h 2 := by
    intro g h
    generalize hn : normal s = n
    rcases fin3_cases c with rfl | rfl | rfl <;>
      simp [internalForce, EmDer, EfDer, dotV, dbl3, deriv2dot, basisField, vecFun, var1, mvec,
        hn, Fin.sum_univ_three, vec3, dot, cross] <;> ring
  refine ⟨fun i => match i with
    | 0 => internalForce s (basisField c ![1, 0] (vec3 0 0 0)) N M
    | 1 => internalForce s (basisField c ![0, 1] (vec3 0 0 0)) N M
    | 2 => internalForce s (basisField c ![0, 0] (vec3 1 0 0)) N M
    | 3 => internalForce s (basisField c ![0, 0] (vec3 0 1 0)) N M
    | 4 => internalForce s (basisField c ![0, 0] (vec3 0 0 1)) N M, fun g h => key g h⟩

open Variation Geometry in
theorem internalForce_sum (s : Surf) (N M : Voigt) (c : Fin 3) (G : Finset ℕ)
    (gr : ℕ → Fin 2 → ℝ) (he : ℕ → Voigt) (h1 : ∀ i, ∑ g ∈ G, gr g i = 0)
    (h2 : ∀ k, ∑ g ∈ G, he g k = 0) :
    ∑ g ∈ G, internalForce s (basisField c (gr g) (he g)) N M = 0 := by
  obtain ⟨K, hK⟩ := internalForce_basis s N M c
  simp only [hK, Finset.sum_add_distrib, ← Finset.mul_sum, h1, h2, mul_zero, add_zero]

end Verif.Solution
