import Verif.Lemmas.ShellTangent

/-! # Property C123: the tangent of a hyperelastic shell and its internal force -/

set_option linter.unusedSimpArgs false

namespace Verif.ShellTangent

open V3 Verif.Geometry Verif.Hyper Verif.Integrate Verif.Variation
open Spec.ShellTangent

/-- **C123** What the tangent matrix leaves out, for both incompressible materials: the derivative
of the internal force is minus the tangent matrix minus the products of the test strains with the
moduli of orders two and three and half the rate of the third fundamental form. -/
theorem C123_rest (p : Par) (ori s u v : Surf) (r : Rule) (t : ℝ) (h : Indep (s.a 0) (s.a 1))
    (hr : Regular r t ori s) (T : T2) (hT : IsThirdRate s v T) :
    ∀ L, L = nh p ori ∨ L = mr p ori →
    HasDerivAt (fun τ => force L r t (shift s v τ) u)
      (-(tangentStiffness L r t s u v
        + ∑ k, ∑ j, EmDer s u k * modulus L r t 2 s k j * half T j
        + ∑ k, ∑ j, EfDer s u k * modulus L r t 3 s k j * half T j)) 0 := by
  rintro L (rfl | rfl)
  · refine (force_deriv _ r t s u v h T hT (nh_good p ori s r t hr)).congr_deriv ?_
    simp only [internalForce, dotV, defect, Fin.sum_univ_three]
    ring
  · refine (force_deriv _ r t s u v h T hT (mr_good p ori s r t hr)).congr_deriv ?_
    simp only [internalForce, dotV, defect, Fin.sum_univ_three]
    ring

/-- **C123** (missing: deformed shells with curvature at a quadrature point) At quadrature points
where the deformed shell has no curvature the tangent matrix is minus the derivative of the
residual, summed over all quadrature points of the mid-surface. -/
theorem C123_flat_partial {Q : Type} [Fintype Q] (w : Q → ℝ) (p : Q → Par) (ori s u v : Q → Surf)
    (r : Rule) (t : Q → ℝ) (h : ∀ q, Indep ((s q).a 0) ((s q).a 1)) (hf : ∀ q, Flat (s q))
    (hr : ∀ q, Regular r (t q) (ori q) (s q)) :
    HasDerivAt (fun τ => ∑ q, w q * force (nh (p q) (ori q)) r (t q) (shift (s q) (v q) τ) (u q))
      (-∑ q, w q * tangentStiffness (nh (p q) (ori q)) r (t q) (s q) (u q) (v q)) 0 ∧
    HasDerivAt (fun τ => ∑ q, w q * force (mr (p q) (ori q)) r (t q) (shift (s q) (v q) τ) (u q))
      (-∑ q, w q * tangentStiffness (mr (p q) (ori q)) r (t q) (s q) (u q) (v q)) 0 := by
  have key : ∀ L : Q → Law, (∀ q, L q = nh (p q) (ori q) ∨ L q = mr (p q) (ori q)) →
      HasDerivAt (fun τ => ∑ q, w q * force (L q) r (t q) (shift (s q) (v q) τ) (u q))
        (-∑ q, w q * tangentStiffness (L q) r (t q) (s q) (u q) (v q)) 0 := by
    intro L hL
    refine (HasDerivAt.fun_sum (u := Finset.univ) fun q _ =>
      (C123_rest (p q) (ori q) (s q) (u q) (v q) r (t q) (h q) (hr q) 0
        (flat_third (s q) (v q) (h q) (hf q)) (L q) (hL q)).const_mul (w q)).congr_deriv ?_
    simp [half, Fin.sum_univ_three]
  exact ⟨key _ fun q => Or.inl rfl, key _ fun q => Or.inr rfl⟩

/-- **C123 violated** A plate bent to unit curvature, with the two-point rule over a thickness 1
and any neo-Hookean material with non-zero shear modulus: the residual is differentiable in the
direction of further bending, and its derivative is not minus the entry of the tangent. -/
theorem C123_tangent_violated (p : Par) (hp : p.mu ≠ 0) :
    ∃ d, HasDerivAt (fun τ => force (nh p (curved 0)) two 1 (shift (curved 1) bending τ) bending)
      d 0 ∧ d ≠ -tangentStiffness (nh p (curved 0)) two 1 (curved 1) bending bending := by
  refine ⟨_, C123_rest p (curved 0) (curved 1) bending bending two 1 (curved_indep 1)
    curved_regular _ (curved_third 1) _ (Or.inl rfl), ?_⟩
  intro he
  have h0 : ∑ k, ∑ j, EmDer (curved 1) bending k * modulus (nh p (curved 0)) two 1 2 (curved 1) k j
      * half (![![2 * 1, 0], ![0, 0]] : T2) j
      + ∑ k, ∑ j, EfDer (curved 1) bending k * modulus (nh p (curved 0)) two 1 3 (curved 1) k j
      * half (![![2 * 1, 0], ![0, 0]] : T2) j = 0 := by linarith
  have h1 : modulus (nh p (curved 0)) two 1 3 (curved 1) 0 0 = 0 := by
    simp only [curved_em, curved_ef, Fin.sum_univ_three] at h0
    simpa [half] using h0
  have h2 : modulus (nh p (curved 0)) two 1 3 (curved 1) 0 0
      = p.mu * (1 / 16 * (4 * 64 - 4 * 64 / 729)) := by
    simp only [modulus, two_integrate, nh, cNH, fillMatrix, curved_G]
    simp [data, embed, inv2, det2, mk3, vec3]
    ring
  rw [h2] at h1
  have : p.mu = 0 := by linarith
  exact hp this

/-- **C123** The stored energy and the internal force: the derivative of the energy is minus the
internal force plus the second-order stress resultant times half the rate of the third fundamental
form. -/
theorem C123_energy_rest (p : Par) (ori s v : Surf) (r : Rule) (t : ℝ)
    (h : Indep (s.a 0) (s.a 1)) (hr : Regular r t ori s) (T : T2) (hT : IsThirdRate s v T) :
    HasDerivAt (fun τ => stored (energyNH p.mu) r t ori (shift s v τ))
      (-force (nh p ori) r t s v + ∑ k, resultant (nh p ori) r t 2 s k * half T k) 0 ∧
    HasDerivAt (fun τ => stored (energyMR p.c1 p.c2) r t ori (shift s v τ))
      (-force (mr p ori) r t s v + ∑ k, resultant (mr p ori) r t 2 s k * half T k) 0 :=
  ⟨nh_stored p r t ori s v h T hT hr, mr_stored p r t ori s v h T hT hr⟩

/-- **C123** (missing: deformed shells with curvature) Without curvature of the deformed shell the
internal force is minus the derivative of the stored energy, summed over all quadrature points. -/
theorem C123_energy_partial {Q : Type} [Fintype Q] (w : Q → ℝ) (p : Q → Par) (ori s v : Q → Surf)
    (r : Rule) (t : Q → ℝ) (h : ∀ q, Indep ((s q).a 0) ((s q).a 1)) (hf : ∀ q, Flat (s q))
    (hr : ∀ q, Regular r (t q) (ori q) (s q)) :
    HasDerivAt (fun τ => ∑ q, w q * stored (energyNH (p q).mu) r (t q) (ori q)
        (shift (s q) (v q) τ))
      (-∑ q, w q * force (nh (p q) (ori q)) r (t q) (s q) (v q)) 0 ∧
    HasDerivAt (fun τ => ∑ q, w q * stored (energyMR (p q).c1 (p q).c2) r (t q) (ori q)
        (shift (s q) (v q) τ))
      (-∑ q, w q * force (mr (p q) (ori q)) r (t q) (s q) (v q)) 0 := by
  have key := fun q => C123_energy_rest (p q) (ori q) (s q) (v q) r (t q) (h q) (hr q) 0
    (flat_third (s q) (v q) (h q) (hf q))
  constructor
  · refine (HasDerivAt.fun_sum (u := Finset.univ) fun q _ =>
      (key q).1.const_mul (w q)).congr_deriv ?_
    simp [half, Fin.sum_univ_three]
  · refine (HasDerivAt.fun_sum (u := Finset.univ) fun q _ =>
      (key q).2.const_mul (w q)).congr_deriv ?_
    simp [half, Fin.sum_univ_three]

/-- **C123 violated** At the bent plate the internal force is not minus the derivative of the
stored energy in the direction of further bending. -/
theorem C123_energy_violated (p : Par) (hp : p.mu ≠ 0) :
    ∃ d, HasDerivAt (fun τ => stored (energyNH p.mu) two 1 (curved 0)
      (shift (curved 1) bending τ)) d 0 ∧ d ≠ -force (nh p (curved 0)) two 1 (curved 1) bending := by
  refine ⟨_, (C123_energy_rest p (curved 0) (curved 1) bending two 1 (curved_indep 1)
    curved_regular _ (curved_third 1)).1, ?_⟩
  intro he
  have h0 : ∑ k, resultant (nh p (curved 0)) two 1 2 (curved 1) k
      * half (![![2 * 1, 0], ![0, 0]] : T2) k = 0 := by linarith
  have h1 : resultant (nh p (curved 0)) two 1 2 (curved 1) 0 = 0 := by
    simp only [Fin.sum_univ_three] at h0
    simpa [half] using h0
  have h2 : resultant (nh p (curved 0)) two 1 2 (curved 1) 0
      = p.mu * (1 / 8 * (-15 + 65 / 81)) := by
    simp only [resultant, two_integrate, nh, sNH, stressV, curved_G]
    simp [data, embed, inv2, det2, mk3, vec3]
    ring
  rw [h2] at h1
  have : p.mu = 0 := by linarith
  exact hp this

/-- Non-vacuity: a stretched flat square over a curved undeformed shell meets the hypotheses of the
partial statements. -/
example : ∃ s : Surf, Indep (s.a 0) (s.a 1) ∧ Flat s ∧ Regular two 1 (curved 1) s ∧
    Acov s 0 0 = 4 := by
  let s : Surf := ⟨fun i => if i = 0 then ⟨2, 0, 0⟩ else ⟨0, 1, 0⟩, 0, 0, 0⟩
  have hB : Flat s := by
    intro i j
    rcases fin2_cases i with rfl | rfl <;> rcases fin2_cases j with rfl | rfl <;>
      simp [Bcov, s, dot]
  have hn : ∀ i, ncov s i = 0 := by
    intro i
    have h1 := hB 0 i
    have h2 := hB 1 i
    ext <;> simp [ncov, mixedB, h1, h2]
  refine ⟨s, ?_, hB, ?_, by simp [Acov, s, dot]; norm_num⟩
  · intro c d h
    have hx := congrArg V3.x h
    have hy := congrArg V3.y h
    simp [s] at hx hy
    exact ⟨hx, hy⟩
  · intro j
    have hG : ∀ z, Gblock s z = Acov s := by
      intro z; funext i j; simp [Gblock, hB i j, hn, dot]
    refine ⟨(curved_one_det j), ?_⟩
    rw [hG]
    simp [det2, Acov, s, dot]

/-- Non-vacuity: a material meeting the hypothesis of the violations. -/
example : (⟨3, 1 / 2, 1⟩ : Par).mu = 1 := by simp [Par.mu]; norm_num

end Verif.ShellTangent
