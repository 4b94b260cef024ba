import Verif.Lemmas.Variation
import Mathlib.Analysis.Calculus.FDeriv.Basic
import Mathlib.Analysis.Calculus.Deriv.Comp
import Mathlib.Analysis.Calculus.Deriv.Prod
import Mathlib.Analysis.Calculus.Deriv.Pi

/-! # Property C66: variations of the strains, internal force and stiffness -/

set_option linter.unusedSimpArgs false

namespace Verif.Variation

open V3 Verif.Geometry

/-- **C66** The first variation of the membrane strain is its exact derivative. -/
theorem C66_membrane (ori s u : Surf) (k : Fin 3) :
    HasDerivAt (fun t => voigtMembrane ori (shift s u t) k) (EmDer s u k) 0 := by
  have h0 := HasVDeriv.line (s.a 0) (u.a 0) 0
  have h1 := HasVDeriv.line (s.a 1) (u.a 1) 0
  rcases fin3_cases k with rfl | rfl | rfl
  · refine (((h0.dot h0).sub_const (dot (ori.a 0) (ori.a 0))).div_const 2).congr_deriv ?_
    simp [EmDer, dot]; ring
  · refine (((h1.dot h1).sub_const (dot (ori.a 1) (ori.a 1))).div_const 2).congr_deriv ?_
    simp [EmDer, dot]; ring
  · refine ((h0.dot h1).sub_const (dot (ori.a 0) (ori.a 1))).congr_deriv ?_
    simp [EmDer, dot]; ring

/-- **C66** The first variation of the bending strain is its exact derivative. -/
theorem C66_bending (ori s u : Surf) (h : Indep (s.a 0) (s.a 1)) (k : Fin 3) :
    HasDerivAt (fun t => voigtBending ori (shift s u t) k) (EfDer s u k) 0 := by
  have hn := hasVDeriv_normal s u h
  have key : ∀ d w : V3, HasDerivAt (fun t => dot (d + t • w) (normal (shift s u t)))
      (dot w (normal s) + dot d (var1 s u)) 0 := by
    intro d w
    refine ((HasVDeriv.line d w 0).dot hn).congr_deriv ?_
    rw [shift_zero]; simp [dot]
  rcases fin3_cases k with rfl | rfl | rfl
  · refine ((key s.d11 u.d11).const_sub _).congr_deriv ?_
    simp [EfDer, dbl3, deriv2dot]
  · refine ((key s.d22 u.d22).const_sub _).congr_deriv ?_
    simp [EfDer, dbl3, deriv2dot]
  · refine (((key s.d12 u.d12).const_sub _).const_mul 2).congr_deriv ?_
    simp [EfDer, dbl3, deriv2dot]; ring

/-- **C66** The second variation of the membrane strain, contracted with the resultant. -/
theorem C66_membrane2 (s u v : Surf) (N : Voigt) :
    HasDerivAt (fun t => dotV N (EmDer (shift s v t) u)) (EmDer2 u v N) 0 := by
  have h00 := (HasVDeriv.line (s.a 0) (v.a 0) 0).dot_const (u.a 0)
  have h11 := (HasVDeriv.line (s.a 1) (v.a 1) 0).dot_const (u.a 1)
  have h01 := (HasVDeriv.line (s.a 0) (v.a 0) 0).dot_const (u.a 1)
  have h10 := (HasVDeriv.line (s.a 1) (v.a 1) 0).dot_const (u.a 0)
  have h := ((h00.const_mul (N 0)).add (h11.const_mul (N 1))).add
    ((h01.add h10).const_mul (N 2))
  refine (h.congr_of_eventuallyEq (Filter.Eventually.of_forall fun t => ?_)).congr_deriv ?_
  · simp [dotV, EmDer, Fin.sum_univ_three]
  · simp only [EmDer2, dot_comm (v.a _)]; ring

/-- **C66** The second variation of the bending strain, contracted with the resultant. -/
theorem C66_bending2 (s u v : Surf) (h : Indep (s.a 0) (s.a 1)) (M : Voigt) :
    HasDerivAt (fun t => dotV M (EfDer (shift s v t) u)) (EfDer2 s u v M) 0 := by
  have hn := hasVDeriv_normal s v h
  have hv := hasVDeriv_var1 s u v h
  have key : ∀ d w e : V3, HasDerivAt
      (fun t => dot e (normal (shift s v t)) + dot (d + t • w) (var1 (shift s v t) u))
      (dot e (var1 s v) + (dot w (var1 s u) + dot d (var2 s u v))) 0 := by
    intro d w e
    refine ((hn.const_dot e).add ((HasVDeriv.line d w 0).dot hv)).congr_deriv ?_
    rw [shift_zero]; simp [dot]
  have h0 := (key s.d11 v.d11 u.d11).const_mul (M 0)
  have h1 := (key s.d22 v.d22 u.d22).const_mul (M 1)
  have h2 := (key s.d12 v.d12 u.d12).const_mul (2 * M 2)
  have hh := ((h0.add h1).add h2).neg
  refine (hh.congr_of_eventuallyEq (Filter.Eventually.of_forall fun t => ?_)).congr_deriv ?_
  · simp [dotV, EfDer, dbl3, deriv2dot, Fin.sum_univ_three, shift]; ring
  · simp [EfDer2, flatdot2, var2deriv2, dotV, dbl3, deriv2dot, Fin.sum_univ_three]; ring

/-- **C66** If the resultants are the derivatives of an energy density of the two strains, the
internal force is minus the derivative of the energy along every field; summed over any quadrature
rule. -/
theorem C66_force {Q : Type} [Fintype Q] (w : Q → ℝ) (ori s u : Q → Surf)
    (h : ∀ q, Indep ((s q).a 0) ((s q).a 1))
    (ψ : Q → (Fin 3 → ℝ) × (Fin 3 → ℝ) → ℝ)
    (L : Q → ((Fin 3 → ℝ) × (Fin 3 → ℝ)) →L[ℝ] ℝ)
    (N M : Q → Voigt)
    (hψ : ∀ q, HasFDerivAt (ψ q) (L q) (voigtMembrane (ori q) (s q), voigtBending (ori q) (s q)))
    (hL : ∀ q e k, L q (e, k) = ∑ i, (N q i * e i + M q i * k i)) :
    HasDerivAt (fun t => ∑ q, w q * ψ q (voigtMembrane (ori q) (shift (s q) (u q) t),
        voigtBending (ori q) (shift (s q) (u q) t)))
      (-∑ q, w q * internalForce (s q) (u q) (N q) (M q)) 0 := by
  have hq : ∀ q, HasDerivAt (fun t => ψ q (voigtMembrane (ori q) (shift (s q) (u q) t),
      voigtBending (ori q) (shift (s q) (u q) t)))
      (-internalForce (s q) (u q) (N q) (M q)) 0 := by
    intro q
    have h1 : HasDerivAt (fun t => voigtMembrane (ori q) (shift (s q) (u q) t))
        (EmDer (s q) (u q)) 0 := hasDerivAt_pi.2 (C66_membrane (ori q) (s q) (u q))
    have h2 : HasDerivAt (fun t => voigtBending (ori q) (shift (s q) (u q) t))
        (EfDer (s q) (u q)) 0 := hasDerivAt_pi.2 (C66_bending (ori q) (s q) (u q) (h q))
    have h3 := h1.prodMk h2
    have hψ' : HasFDerivAt (ψ q) (L q) (voigtMembrane (ori q) (shift (s q) (u q) 0),
        voigtBending (ori q) (shift (s q) (u q) 0)) := by rw [shift_zero]; exact hψ q
    refine (hψ'.comp_hasDerivAt 0 h3).congr_deriv ?_
    rw [hL]
    simp [internalForce, dotV, Fin.sum_univ_three]; ring
  have hs := HasDerivAt.fun_sum (u := Finset.univ) fun q _ => (hq q).const_mul (w q)
  refine hs.congr_deriv ?_
  rw [← Finset.sum_neg_distrib]
  exact Finset.sum_congr rfl fun q _ => by ring

/-- **C66** If the resultants change with the strains by the four moduli (`dN = A dE + C dK`,
`dM = B dE + D dK`), the stiffness is minus the derivative of the internal force along every field;
summed over any quadrature rule. -/
theorem C66_stiffness {Q : Type} [Fintype Q] (w : Q → ℝ) (s u v : Q → Surf)
    (h : ∀ q, Indep ((s q).a 0) ((s q).a 1)) (A B C D : Q → T3) (N M : Q → ℝ → Voigt)
    (hN : ∀ q i, HasDerivAt (fun t => N q t i)
      (∑ j, (A q i j * EmDer (s q) (v q) j + C q i j * EfDer (s q) (v q) j)) 0)
    (hM : ∀ q i, HasDerivAt (fun t => M q t i)
      (∑ j, (B q i j * EmDer (s q) (v q) j + D q i j * EfDer (s q) (v q) j)) 0) :
    HasDerivAt (fun t => ∑ q, w q * internalForce (shift (s q) (v q) t) (u q) (N q t) (M q t))
      (-∑ q, w q * stiffness (s q) (u q) (v q) (A q) (B q) (C q) (D q) (N q 0) (M q 0)) 0 := by
  have hq : ∀ q, HasDerivAt
      (fun t => internalForce (shift (s q) (v q) t) (u q) (N q t) (M q t))
      (-stiffness (s q) (u q) (v q) (A q) (B q) (C q) (D q) (N q 0) (M q 0)) 0 := by
    intro q
    have e1 := C66_membrane2 (s q) (u q) (v q)
    have e2 := C66_bending2 (s q) (u q) (v q) (h q)
    have hE : ∀ i, HasDerivAt (fun t => EmDer (shift (s q) (v q) t) (u q) i)
        (EmDer2 (u q) (v q) (fun j => if j = i then 1 else 0)) 0 := by
      intro i
      refine (e1 (fun j => if j = i then 1 else 0)).congr_of_eventuallyEq
        (Filter.Eventually.of_forall fun t => ?_)
      simp [dotV]
    have hK : ∀ i, HasDerivAt (fun t => EfDer (shift (s q) (v q) t) (u q) i)
        (EfDer2 (s q) (u q) (v q) (fun j => if j = i then 1 else 0)) 0 := by
      intro i
      refine (e2 (fun j => if j = i then 1 else 0)).congr_of_eventuallyEq
        (Filter.Eventually.of_forall fun t => ?_)
      simp [dotV]
    have hs := (HasDerivAt.fun_sum (u := Finset.univ)
      fun i _ => (hN q i).mul (hE i)).add (HasDerivAt.fun_sum (u := Finset.univ)
      fun i _ => (hM q i).mul (hK i))
    refine (hs.neg.congr_of_eventuallyEq (Filter.Eventually.of_forall fun t => ?_)).congr_deriv ?_
    · simp [internalForce, dotV]
    · simp only [shift_zero]
      simp [stiffness, dotV, rowMul, EmDer2, EfDer2, flatdot2, var2deriv2, dbl3,
        Fin.sum_univ_three]
      ring
  have hs := HasDerivAt.fun_sum (u := Finset.univ) fun q _ => (hq q).const_mul (w q)
  refine hs.congr_deriv ?_
  rw [← Finset.sum_neg_distrib]
  exact Finset.sum_congr rfl fun q _ => by ring

/-- Non-vacuity of both derivative theorems: the energy `½ |E|² + ½ |K|²` has the resultants
`N = E`, `M = K`. -/
example (E K : Fin 3 → ℝ) : ∃ L : ((Fin 3 → ℝ) × (Fin 3 → ℝ)) →L[ℝ] ℝ,
    HasFDerivAt (fun p : (Fin 3 → ℝ) × (Fin 3 → ℝ) => (p.1 0 ^ 2 + p.2 0 ^ 2) / 2) L (E, K) ∧
      ∀ e k, L (e, k) = ∑ i : Fin 3, ((if i = 0 then E 0 else 0) * e i
        + (if i = 0 then K 0 else 0) * k i) := by
  let p1 : ((Fin 3 → ℝ) × (Fin 3 → ℝ)) →L[ℝ] ℝ :=
    (ContinuousLinearMap.proj 0).comp (ContinuousLinearMap.fst ℝ _ _)
  let p2 : ((Fin 3 → ℝ) × (Fin 3 → ℝ)) →L[ℝ] ℝ :=
    (ContinuousLinearMap.proj 0).comp (ContinuousLinearMap.snd ℝ _ _)
  have h1 : HasFDerivAt (fun p : (Fin 3 → ℝ) × (Fin 3 → ℝ) => p.1 0) p1 (E, K) := p1.hasFDerivAt
  have h2 : HasFDerivAt (fun p : (Fin 3 → ℝ) × (Fin 3 → ℝ) => p.2 0) p2 (E, K) := p2.hasFDerivAt
  have h := ((h1.mul h1).add (h2.mul h2)).const_mul (1 / 2 : ℝ)
  refine ⟨_, h.congr_of_eventuallyEq (Filter.Eventually.of_forall fun p => ?_), ?_⟩
  · simp; ring
  · intro e k
    simp [p1, p2, Fin.sum_univ_three]; ring

/-- **C66** The stiffness is symmetric if the moduli are (`A`, `D` symmetric, `C` the transpose of
`B`). -/
theorem C66_symmetric (s u v : Surf) (A B C D : T3) (N M : Voigt)
    (hA : ∀ i j, A i j = A j i) (hD : ∀ i j, D i j = D j i) (hB : ∀ i j, C i j = B j i) :
    stiffness s u v A B C D N M = stiffness s v u A B C D N M := by
  have hm : muv s u v = muv s v u := by
    unfold muv; congr 1; ext <;> simp [cross] <;> ring
  have hv : var2 s u v = var2 s v u := by
    unfold var2 var2From
    rw [hm]
    unfold var1
    simp only [dot_sub_right, dot_smul_right, dot_comm (mvec s v) (normal s),
      dot_comm (mvec s u) (normal s), dot_comm (mvec s v) (mvec s u)]
    ext <;> simp <;> ring
  unfold stiffness EfDer2 var2deriv2
  rw [hv]
  simp only [EmDer2, dotV, rowMul, Fin.sum_univ_three, hB, hA 1 0, hA 2 0, hA 2 1, hD 1 0, hD 2 0,
    hD 2 1, dot_comm (v.a 0) (u.a 0), dot_comm (v.a 0) (u.a 1), dot_comm (v.a 1) (u.a 0),
    dot_comm (v.a 1) (u.a 1)]
  ring

/-- Non-vacuity: the identity moduli. -/
example : ∀ i j : Fin 3, (if i = j then (1 : ℝ) else 0) = if j = i then 1 else 0 := by
  intro i j; simp [eq_comm]

/-- **C66** The linear stiffness is the tangent stiffness of the stress-free undeformed state, and
it is positive semi-definite if the section moduli are. -/
theorem C66_linear (s u v : Surf) (A B C D : T3) :
    linStiffness s u v A B C D = stiffness s u v A B C D (fun _ => 0) (fun _ => 0) ∧
    ((∀ e k : Voigt, 0 ≤ ∑ i, ∑ j, (e i * A i j * e j + k i * B i j * e j + e i * C i j * k j
        + k i * D i j * k j)) → 0 ≤ linStiffness s u u A B C D) := by
  constructor
  · simp [linStiffness, stiffness, EmDer2, EfDer2, flatdot2, var2deriv2, dotV]
  · intro h
    have := h (EmDer s u) (EfDer s u)
    refine this.trans (le_of_eq ?_)
    simp only [linStiffness, dotV, rowMul, Fin.sum_univ_three]; ring

/-- **C66** An infinitesimal rigid rotation causes no strain variation, so the linear stiffness
annihilates it. -/
theorem C66_rigid (s : Surf) (h : Indep (s.a 0) (s.a 1)) (ω : V3) (v : Surf) (A B C D : T3) :
    let r : Surf := ⟨fun i => cross ω (s.a i), cross ω s.d11, cross ω s.d22, cross ω s.d12⟩
    (∀ k, EmDer s r k = 0) ∧ (∀ k, EfDer s r k = 0) ∧ linStiffness s v r A B C D = 0 := by
  intro r
  have h1 : ∀ k, EmDer s r k = 0 := by
    intro k
    rcases fin3_cases k with rfl | rfl | rfl <;> simp [EmDer, r, dot, cross] <;> ring
  have hm := measure_ne s h
  have hv : var1 s r = cross ω (normal s) := by
    have hmv : mvec s r = cross ω (normal s) := by
      unfold mvec normal normalized measure r
      generalize 1 / V3.norm (cross (s.a 0) (s.a 1)) = k
      ext <;> simp [cross] <;> ring
    unfold var1
    rw [hmv]
    have : dot (cross ω (normal s)) (normal s) = 0 := by
      simp [dot, cross]; ring
    rw [this]; ext <;> simp
  have h2 : ∀ k, EfDer s r k = 0 := by
    intro k
    unfold EfDer
    rw [hv]
    rcases fin3_cases k with rfl | rfl | rfl <;>
      simp [dbl3, deriv2dot, r, dot, cross] <;> ring
  refine ⟨h1, h2, ?_⟩
  simp [linStiffness, dotV, h1, h2]

/-- **C66** The versions without bending: the force is the derivative of a membrane energy and the
stiffness is minus the derivative of the force. -/
theorem C66_membrane_only (ori s u v : Surf) (ψ : (Fin 3 → ℝ) → ℝ) (L : (Fin 3 → ℝ) →L[ℝ] ℝ)
    (N : Voigt) (hψ : HasFDerivAt ψ L (voigtMembrane ori s)) (hL : ∀ e, L e = ∑ i, N i * e i)
    (A : T3) (Nt : ℝ → Voigt) (hN : ∀ i, HasDerivAt (fun t => Nt t i)
      (∑ j, A i j * EmDer s v j) 0) :
    HasDerivAt (fun t => ψ (voigtMembrane ori (shift s u t))) (-internalForceMembrane s u N) 0 ∧
    HasDerivAt (fun t => internalForceMembrane (shift s v t) u (Nt t))
      (-stiffnessMembrane s u v A (Nt 0)) 0 := by
  constructor
  · have h1 : HasDerivAt (fun t => voigtMembrane ori (shift s u t)) (EmDer s u) 0 :=
      hasDerivAt_pi.2 (C66_membrane ori s u)
    have hψ' : HasFDerivAt ψ L (voigtMembrane ori (shift s u 0)) := by rw [shift_zero]; exact hψ
    refine (hψ'.comp_hasDerivAt 0 h1).congr_deriv ?_
    rw [hL]; simp [internalForceMembrane, dotV]
  · have hE : ∀ i, HasDerivAt (fun t => EmDer (shift s v t) u i)
        (EmDer2 u v (fun j => if j = i then 1 else 0)) 0 := by
      intro i
      refine (C66_membrane2 s u v (fun j => if j = i then 1 else 0)).congr_of_eventuallyEq
        (Filter.Eventually.of_forall fun t => ?_)
      simp [dotV]
    have hs := HasDerivAt.fun_sum (u := Finset.univ) fun i _ => (hN i).mul (hE i)
    refine (hs.neg.congr_of_eventuallyEq (Filter.Eventually.of_forall fun t => ?_)).congr_deriv ?_
    · simp [internalForceMembrane, dotV]
    · simp only [shift_zero]
      simp [stiffnessMembrane, dotV, rowMul, EmDer2, Fin.sum_univ_three]
      ring

end Verif.Variation
