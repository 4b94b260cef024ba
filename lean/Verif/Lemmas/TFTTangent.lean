import Mathlib.Tactic.FieldSimp
import Mathlib.Tactic.LinearCombination
import Verif.Lemmas.TFT

/-! # Derivative of the wrinkled stress along a path -/

namespace Verif.TFT

theorem hasDerivAt_dotV {u v : ℝ → Voigt} {u' v' : Voigt} {x : ℝ}
    (hu : ∀ i, HasDerivAt (fun t => u t i) (u' i) x)
    (hv : ∀ i, HasDerivAt (fun t => v t i) (v' i) x) :
    HasDerivAt (fun t => dotV (u t) (v t)) (dotV u' (v x) + dotV (u x) v') x := by
  have h := (((hu 0).mul (hv 0)).add ((hu 1).mul (hv 1))).add ((hu 2).mul (hv 2))
  have e : (fun t => dotV (u t) (v t))
      = fun t => u t 0 * v t 0 + u t 1 * v t 1 + u t 2 * v t 2 := by
    funext t; simp only [dotV, Fin.sum_univ_three]
  rw [e]
  refine h.congr_deriv ?_
  simp only [dotV, Fin.sum_univ_three]
  ring

theorem hasDerivAt_mulVec {C : ℝ → T3} {v : ℝ → Voigt} {C' : T3} {v' : Voigt} {x : ℝ}
    (hC : ∀ i j, HasDerivAt (fun t => C t i j) (C' i j) x)
    (hv : ∀ i, HasDerivAt (fun t => v t i) (v' i) x) (i : Fin 3) :
    HasDerivAt (fun t => mulVec3 (C t) (v t) i) (mulVec3 C' (v x) i + mulVec3 (C x) v' i) x :=
  hasDerivAt_dotV (u := fun t => C t i) (u' := C' i) (hC i) hv

theorem hasDerivAt_quad {u v : ℝ → Voigt} {C : ℝ → T3} {u' v' : Voigt} {C' : T3} {x : ℝ}
    (hu : ∀ i, HasDerivAt (fun t => u t i) (u' i) x)
    (hC : ∀ i j, HasDerivAt (fun t => C t i j) (C' i j) x)
    (hv : ∀ i, HasDerivAt (fun t => v t i) (v' i) x) :
    HasDerivAt (fun t => quad (u t) (C t) (v t))
      (quad u' (C x) (v x) + quad (u x) C' (v x) + quad (u x) (C x) v') x := by
  have h := hasDerivAt_dotV hu (fun i => hasDerivAt_mulVec hC hv i)
  refine h.congr_deriv ?_
  simp only [quad, dotV, Fin.sum_univ_three]
  ring

theorem hasDerivAt_n1 {θ : ℝ → ℝ} {θ' x : ℝ} (h : HasDerivAt θ θ' x) (i : Fin 3) :
    HasDerivAt (fun t => n1 (θ t) i) (2 * θ' * n2 (θ x) i) x := by
  have hc := h.cos
  have hs := h.sin
  rcases fin3_cases i with rfl | rfl | rfl
  · simp only [n1, n2, vec3_zero]
    exact (hc.mul hc).congr_deriv (by ring)
  · simp only [n1, n2, vec3_one]
    exact (hs.mul hs).congr_deriv (by ring)
  · simp only [n1, n2, vec3_two]
    exact ((hc.const_mul 2).mul hs).congr_deriv (by ring)

theorem hasDerivAt_n2 {θ : ℝ → ℝ} {θ' x : ℝ} (h : HasDerivAt θ θ' x) (i : Fin 3) :
    HasDerivAt (fun t => n2 (θ t) i) (θ' * (n4 (θ x) i - n1 (θ x) i)) x := by
  have hc := h.cos
  have hs := h.sin
  rcases fin3_cases i with rfl | rfl | rfl
  · simp only [n1, n2, n4, vec3_zero]
    exact (hs.neg.mul hc).congr_deriv (by simp only [Pi.neg_apply]; ring)
  · simp only [n1, n2, n4, vec3_one]
    exact (hc.mul hs).congr_deriv (by ring)
  · simp only [n1, n2, n4, vec3_two]
    exact ((hs.neg.mul hs).add (hc.mul hc)).congr_deriv (by simp only [Pi.neg_apply]; ring)

theorem quad_smul_left (k : ℝ) (u : Voigt) (C : T3) (v : Voigt) :
    quad (fun i => k * u i) C v = k * quad u C v := by
  simp only [quad, dotV, Fin.sum_univ_three]; ring

theorem quad_smul_right (k : ℝ) (u : Voigt) (C : T3) (v : Voigt) :
    quad u C (fun i => k * v i) = k * quad u C v := by
  simp only [quad, dotV, mulVec3, Fin.sum_univ_three]; ring

/-- The correct material tangent at a wrinkling angle (elasticity matrix times the derivative
of the wrinkling strain, plus the change of the matrix). -/
noncomputable def trueTangent (θ : ℝ) (C : T3) (S : Voigt) (dC : Fin 3 → T3) : T3 := fun i j =>
  C i j + (∑ k, C i k * dgamman1dE θ C S dC k j) + gamma θ C S * dCN1 θ dC i j

theorem tangent_mulVec (C : T3) (a b x y d : Voigt) (Z : T3) (γ t F : ℝ) (i : Fin 3) :
    mulVec3 (fun i j => C i j
      + (∑ k, C i k * (a k * x j + t * a k * (-(y j) / F) + 2 * γ * b k * (-(y j) / F)))
      + γ * Z i j) d i
      = mulVec3 C d i + mulVec3 C a i * dotV x d
        + (t * mulVec3 C a i + 2 * γ * mulVec3 C b i) * (-(dotV y d) / F)
        + γ * mulVec3 Z d i := by
  simp only [mulVec3, dotV, Fin.sum_univ_three]
  ring

theorem rowMul_dot (u : Voigt) (C : T3) (d : Voigt) : dotV (rowMul u C) d = quad u C d := by
  simp only [rowMul, quad, dotV, mulVec3, Fin.sum_univ_three]
  ring

/-- The velocity of the elasticity matrix. -/
def matVel (dC : Fin 3 → T3) (d : Voigt) : T3 := fun i j => ∑ k, dC k i j * d k

theorem dCN1_mulVec (θ : ℝ) (dC : Fin 3 → T3) (d : Voigt) (i : Fin 3) :
    mulVec3 (dCN1 θ dC) d i = mulVec3 (matVel dC d) (n1 θ) i := by
  simp only [mulVec3, dCN1, matVel, Fin.sum_univ_three]
  ring

theorem dCN1_quad (u : Voigt) (θ : ℝ) (dC : Fin 3 → T3) (d : Voigt) :
    quad u (dCN1 θ dC) d = quad u (matVel dC d) (n1 θ) := by
  simp only [quad, dotV, dCN1_mulVec]

theorem dgammadENl_dot (θ : ℝ) (C : T3) (S : Voigt) (dC : Fin 3 → T3) (d : Voigt) :
    dotV (dgammadENl θ C S dC) d = -(quad (n1 θ) C d
      + gamma θ C S * quad (n1 θ) (matVel dC d) (n1 θ)) / quad (n1 θ) C (n1 θ) := by
  rw [← dCN1_quad, ← rowMul_dot, ← rowMul_dot (n1 θ) (dCN1 θ dC)]
  unfold dgammadENl
  simp only [dotV, Fin.sum_univ_three]
  ring

theorem dfdENl_dot (θ : ℝ) (C : T3) (S : Voigt) (dC : Fin 3 → T3) (d : Voigt) :
    dotV (dfdENl θ C S dC) d = quad (n2 θ) C d
      + dotV (dgammadENl θ C S dC) d * quad (n2 θ) C (n1 θ)
      + gamma θ C S * quad (n2 θ) (matVel dC d) (n1 θ) := by
  rw [← dCN1_quad, ← rowMul_dot (n2 θ) C d, ← rowMul_dot (n2 θ) (dCN1 θ dC)]
  unfold dfdENl
  simp only [dotV, Fin.sum_univ_three]
  ring

/-- Along every path the wrinkled stress changes by the correct tangent. -/
theorem WrinklePath.velocity (P : WrinklePath)
    (hf : dfdT (P.θ 0) (P.C 0) (P.S 0) ≠ 0) :
    P.StressVelocity (mulVec3 (trueTangent (P.θ 0) (P.C 0) (P.S 0) P.dC) P.d) := by
  obtain ⟨S, C, θ, d, dC, θ', hS, hC, hθ, root, symm, stiff⟩ := P
  dsimp only at hf stiff symm ⊢
  intro i
  dsimp only
  have hC2 : ∀ i j, HasDerivAt (fun t => C t i j) (matVel dC d i j) 0 := hC
  have hn1 := fun i => hasDerivAt_n1 hθ i
  have hn2 := fun i => hasDerivAt_n2 hθ i
  have hS2 : ∀ i, HasDerivAt (fun t => S t i) (mulVec3 (C 0) d i) 0 := hS
  have hroot : dotV (n2 (θ 0)) (S 0)
      = -(gamma (θ 0) (C 0) (S 0) * quad (n2 (θ 0)) (C 0) (n1 (θ 0))) := by
    have := root 0
    unfold objective at this
    linarith
  have hγ0 : dotV (n1 (θ 0)) (S 0)
      = -(gamma (θ 0) (C 0) (S 0) * quad (n1 (θ 0)) (C 0) (n1 (θ 0))) := by
    unfold gamma
    field_simp
  have hcomm : quad (n1 (θ 0)) (C 0) (n2 (θ 0)) = quad (n2 (θ 0)) (C 0) (n1 (θ 0)) :=
    quad_comm _ symm _ _
  have hsmul : ∀ k : ℝ, ∀ u : Voigt, dotV (fun i => k * u i) (S 0) = k * dotV u (S 0) := by
    intro k u; simp only [dotV, Fin.sum_univ_three]; ring
  have ha : HasDerivAt (fun t => -dotV (n1 (θ t)) (S t))
      (2 * θ' * (gamma (θ 0) (C 0) (S 0) * quad (n2 (θ 0)) (C 0) (n1 (θ 0)))
        - quad (n1 (θ 0)) (C 0) d) 0 := by
    refine (hasDerivAt_dotV hn1 hS2).neg.congr_deriv ?_
    rw [hsmul, hroot]
    unfold quad
    ring
  have hb : HasDerivAt (fun t => dotV (n2 (θ t)) (S t))
      (θ' * (dotV (n4 (θ 0)) (S 0)
        + gamma (θ 0) (C 0) (S 0) * quad (n1 (θ 0)) (C 0) (n1 (θ 0)))
        + quad (n2 (θ 0)) (C 0) d) 0 := by
    refine (hasDerivAt_dotV hn2 hS2).congr_deriv ?_
    have hsub : dotV (fun i => θ' * (n4 (θ 0) i - n1 (θ 0) i)) (S 0)
        = θ' * (dotV (n4 (θ 0)) (S 0) - dotV (n1 (θ 0)) (S 0)) := by
      simp only [dotV, Fin.sum_univ_three]; ring
    rw [hsub, hγ0]
    unfold quad
    ring
  have hD : HasDerivAt (fun t => quad (n1 (θ t)) (C t) (n1 (θ t)))
      (4 * θ' * quad (n2 (θ 0)) (C 0) (n1 (θ 0))
        + quad (n1 (θ 0)) (matVel dC d) (n1 (θ 0))) 0 := by
    refine (hasDerivAt_quad hn1 hC2 hn1).congr_deriv ?_
    rw [quad_smul_left, quad_smul_right, hcomm]
    ring
  have hg : HasDerivAt (fun t => quad (n2 (θ t)) (C t) (n1 (θ t)))
      (θ' * (quad (n4 (θ 0)) (C 0) (n1 (θ 0)) - quad (n1 (θ 0)) (C 0) (n1 (θ 0)))
        + 2 * θ' * quad (n2 (θ 0)) (C 0) (n2 (θ 0))
        + quad (n2 (θ 0)) (matVel dC d) (n1 (θ 0))) 0 := by
    refine (hasDerivAt_quad hn2 hC2 hn1).congr_deriv ?_
    have hsubq : quad (fun i => θ' * (n4 (θ 0) i - n1 (θ 0) i)) (C 0) (n1 (θ 0))
        = θ' * (quad (n4 (θ 0)) (C 0) (n1 (θ 0)) - quad (n1 (θ 0)) (C 0) (n1 (θ 0))) := by
      simp only [quad, dotV, Fin.sum_univ_three]; ring
    rw [hsubq, quad_smul_right]
    ring
  have hw : HasDerivAt (fun t => mulVec3 (C t) (n1 (θ t)) i)
      (mulVec3 (matVel dC d) (n1 (θ 0)) i + 2 * θ' * mulVec3 (C 0) (n2 (θ 0)) i) 0 := by
    refine (hasDerivAt_mulVec hC2 hn1 i).congr_deriv ?_
    simp only [mulVec3, Fin.sum_univ_three]; ring
  have hγ : HasDerivAt (fun t => gamma (θ t) (C t) (S t))
      (dotV (dgammadENl (θ 0) (C 0) (S 0) dC) d + θ' * dgammadT (θ 0) (C 0) (S 0)) 0 := by
    refine (ha.div hD stiff).congr_deriv ?_
    rw [dgammadENl_dot, hγ0, dgammadT, tmp]
    field_simp
    ring
  have hobj := hb.add (hγ.mul hg)
  have hobj0 : HasDerivAt (fun _ : ℝ => (0 : ℝ)) 0 0 := hasDerivAt_const 0 0
  have heq : (fun t => dotV (n2 (θ t)) (S t)) + (fun t => gamma (θ t) (C t) (S t))
      * (fun t => quad (n2 (θ t)) (C t) (n1 (θ t))) = fun _ : ℝ => (0 : ℝ) := by
    funext t; exact root t
  rw [heq] at hobj
  have hzero := hobj.unique hobj0
  have hθ' : θ' = -(dotV (dfdENl (θ 0) (C 0) (S 0) dC) d) / dfdT (θ 0) (C 0) (S 0) := by
    rw [eq_div_iff hf, dfdENl_dot, dfdT]
    linear_combination hzero
  have hfun : (fun t => computeS (θ t) (C t) (S t) i) = (fun t => S t i)
      + (fun t => gamma (θ t) (C t) (S t)) * (fun t => mulVec3 (C t) (n1 (θ t)) i) := by
    funext t
    simp only [computeS, mulVec3, Fin.sum_univ_three, Pi.add_apply, Pi.mul_apply]
    ring
  rw [hfun]
  refine ((hS2 i).add (hγ.mul hw)).congr_deriv ?_
  have hR := tangent_mulVec (C 0) (n1 (θ 0)) (n2 (θ 0)) (dgammadENl (θ 0) (C 0) (S 0) dC)
    (dfdENl (θ 0) (C 0) (S 0) dC) d (dCN1 (θ 0) dC) (gamma (θ 0) (C 0) (S 0))
    (dgammadT (θ 0) (C 0) (S 0)) (dfdT (θ 0) (C 0) (S 0)) i
  rw [← hθ', dCN1_mulVec] at hR
  refine Eq.trans ?_ hR.symm
  ring

/-- With a constant symmetric matrix the correct tangent in closed form. -/
theorem trueTangent_const (θ : ℝ) (C : T3) (S : Voigt) (hC : Symm C) (i j : Fin 3) :
    trueTangent θ C S (fun _ _ _ => 0) i j
      = C i j - mulVec3 C (n1 θ) i * mulVec3 C (n1 θ) j / quad (n1 θ) C (n1 θ)
        - 2 * gamma θ C S / dfdT θ C S
          * (mulVec3 C (n2 θ) i - tmp θ C * mulVec3 C (n1 θ) i)
          * (mulVec3 C (n2 θ) j - tmp θ C * mulVec3 C (n1 θ) j) := by
  have hr : ∀ u : Voigt, ∀ j, rowMul u C j = mulVec3 C u j := by
    intro u j
    simp only [rowMul, mulVec3, Fin.sum_univ_three]
    rw [hC 0 j, hC 1 j, hC 2 j]
    ring
  have hz : dCN1 θ (fun _ _ _ => 0) = fun _ _ => 0 := by
    funext i j
    simp [dCN1, mulVec3]
  have hz2 : ∀ u j, rowMul u (fun _ _ => (0 : ℝ)) j = 0 := by
    intro u j; simp [rowMul]
  have hx : ∀ j, dgammadENl θ C S (fun _ _ _ => 0) j
      = -(mulVec3 C (n1 θ) j) / quad (n1 θ) C (n1 θ) := by
    intro j
    unfold dgammadENl
    rw [hz, hz2, hr, mul_zero, add_zero]
  have hy : ∀ j, dfdENl θ C S (fun _ _ _ => 0) j
      = mulVec3 C (n2 θ) j - tmp θ C * mulVec3 C (n1 θ) j := by
    intro j
    unfold dfdENl
    rw [hz, hz2, hr, mul_zero, add_zero, hx, tmp]
    ring
  have hk : (∑ k, C i k * dgamman1dE θ C S (fun _ _ _ => 0) k j)
      = mulVec3 C (n1 θ) i * dgammadENl θ C S (fun _ _ _ => 0) j
        + (dgammadT θ C S * mulVec3 C (n1 θ) i + 2 * gamma θ C S * mulVec3 C (n2 θ) i)
          * (-(dfdENl θ C S (fun _ _ _ => 0) j) / dfdT θ C S) := by
    simp only [dgamman1dE, mulVec3, Fin.sum_univ_three]
    ring
  unfold trueTangent
  rw [hk, hz, hx, hy, dgammadT]
  ring

/-- The nonlinear variant is the transpose construction: for a constant symmetric matrix it
is the correct tangent. -/
theorem computeCNl_const (θ : ℝ) (C : T3) (S : Voigt) (hC : Symm C) (i j : Fin 3) :
    computeCNl θ C S (fun _ _ _ => 0) i j = trueTangent θ C S (fun _ _ _ => 0) i j := by
  have h1 : computeCNl θ C S (fun _ _ _ => 0) i j
      = trueTangent θ C S (fun _ _ _ => 0) j i := by
    unfold computeCNl trueTangent
    have hz : ∀ i j, dCN1 θ (fun _ _ _ => 0) i j = 0 := by
      intro i j
      simp [dCN1, mulVec3]
    rw [hz, hz, hC i j]
    congr 2
    refine Finset.sum_congr rfl fun k _ => ?_
    rw [hC k j, mul_comm]
  rw [h1, trueTangent_const θ C S hC, trueTangent_const θ C S hC, hC j i]
  ring

end Verif.TFT
