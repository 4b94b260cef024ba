import Verif.Model.ShellTangent
import Verif.Spec.ShellTangent
import Verif.Props.StrainVariation
import Verif.Props.HyperReference
import Verif.Props.HyperIncompressible

/-! # Helper lemmas: rate of the metric at a height, of stresses and of resultants -/

set_option linter.unusedSimpArgs false

namespace Verif.ShellTangent

open V3 Verif.Geometry Verif.Hyper Verif.Integrate Verif.Variation
open Spec.ShellTangent Spec.Hyper

/-- Rate of the metric at height `z` along `v`, given the rate `T` of the third fundamental form. -/
noncomputable def metricRate (s v : Surf) (T : T2) (z : ℝ) : T2 := fun i j =>
  (dot (v.a i) (s.a j) + dot (s.a i) (v.a j))
    - 2 * z * (if i = j then (if i = 0 then dot v.d11 (normal s) + dot s.d11 (var1 s v)
        else dot v.d22 (normal s) + dot s.d22 (var1 s v))
        else dot v.d12 (normal s) + dot s.d12 (var1 s v))
    + z * z * T i j

theorem metric_deriv (s v : Surf) (h : Indep (s.a 0) (s.a 1)) (T : T2) (hT : IsThirdRate s v T)
    (z : ℝ) (i j : Fin 2) :
    HasDerivAt (fun τ => Gblock (shift s v τ) z i j) (metricRate s v T z i j) 0 := by
  have hn := hasVDeriv_normal s v h
  have hb : ∀ d w : V3, HasDerivAt (fun t => dot (d + t • w) (normal (shift s v t)))
      (dot w (normal s) + dot d (var1 s v)) 0 := by
    intro d w
    refine ((HasVDeriv.line d w 0).dot hn).congr_deriv ?_
    rw [shift_zero]; simp [dot]
  have hA : HasDerivAt (fun τ => Acov (shift s v τ) i j)
      (dot (v.a i) (s.a j) + dot (s.a i) (v.a j)) 0 := by
    refine ((HasVDeriv.line (s.a i) (v.a i) 0).dot
      (HasVDeriv.line (s.a j) (v.a j) 0)).congr_deriv ?_
    simp [dot]
  have hB : HasDerivAt (fun τ => Bcov (shift s v τ) i j)
      (if i = j then (if i = 0 then dot v.d11 (normal s) + dot s.d11 (var1 s v)
        else dot v.d22 (normal s) + dot s.d22 (var1 s v))
        else dot v.d12 (normal s) + dot s.d12 (var1 s v)) 0 := by
    rcases fin2_cases i with rfl | rfl <;> rcases fin2_cases j with rfl | rfl
    · exact hb s.d11 v.d11
    · exact hb s.d12 v.d12
    · exact hb s.d12 v.d12
    · exact hb s.d22 v.d22
  exact (hA.sub (hB.const_mul (2 * z))).add ((hT i j).const_mul (z * z))

theorem third_symm (s v : Surf) (T : T2) (hT : IsThirdRate s v T) : T 0 1 = T 1 0 := by
  have h := hT 1 0
  have e : (fun τ => dot (ncov (shift s v τ) 1) (ncov (shift s v τ) 0))
      = fun τ => dot (ncov (shift s v τ) 0) (ncov (shift s v τ) 1) := by
    funext τ; exact dot_comm _ _
  rw [e] at h
  exact (hT 0 1).unique h

theorem metric_curve (s v : Surf) (h : Indep (s.a 0) (s.a 1)) (T : T2) (hT : IsThirdRate s v T)
    (z : ℝ) : Curve (fun τ => Gblock (shift s v τ) z) (metricRate s v T z) 0 where
  deriv i j := metric_deriv s v h T hT z i j
  symm := by
    simp only [Gblock, Acov, Bcov, dot_comm ((shift s v 0).a 0) ((shift s v 0).a 1),
      dot_comm (ncov (shift s v 0) 0) (ncov (shift s v 0) 1)]
    simp
  symmH := by
    have := third_symm s v T hT
    simp only [metricRate, dot_comm (v.a 0) (s.a 1), dot_comm (s.a 0) (v.a 1), this]
    simp; ring

/-- Half of the rate in Voigt form: membrane part, bending part, third fundamental form. -/
theorem half_rate (s v : Surf) (T : T2) (z : ℝ) (k : Fin 3) :
    half (metricRate s v T z) k = EmDer s v k + z * EfDer s v k + z ^ 2 * half T k := by
  rcases fin3_cases k with rfl | rfl | rfl
  · simp [half, metricRate, EmDer, EfDer, dbl3, deriv2dot, dot_comm (v.a 0) (s.a 0)]; ring
  · simp [half, metricRate, EmDer, EfDer, dbl3, deriv2dot, dot_comm (v.a 1) (s.a 1)]; ring
  · simp [half, metricRate, EmDer, EfDer, dbl3, deriv2dot, dot_comm (v.a 0) (s.a 1)]; ring

/-- Rate of the stress column for a tangent with the elastic symmetries. -/
theorem stress_deriv (S : T2 → Fin 3 → Fin 3 → ℝ) (T4 : Fin 3 → Fin 3 → Fin 3 → Fin 3 → ℝ)
    (hs : ElasticSymm T4) (C : ℝ → T2) (H : T2) (hc : Curve C H 0)
    (ht : IsTangent (fun G i j => S G (up i) (up j))
      (fun i j k l => T4 (up i) (up j) (up k) (up l)) (C 0)) (k : Fin 3) :
    HasDerivAt (fun τ => stressV (S (C τ)) k) (∑ j, fillMatrix T4 k j * half H j) 0 := by
  have hm := C48_matrix T4 hs (fun i j => H i j / 2) (by simp [hc.symmH])
  have e : vec3 (H 0 0 / 2) (H 1 1 / 2) (2 * (H 0 1 / 2)) = half H := by
    funext k
    rcases fin3_cases k with rfl | rfl | rfl <;> simp [half]; ring
  have hcon : ∀ i j, contract (fun i j k l => T4 (up i) (up j) (up k) (up l))
      (fun i j => H i j / 2) i j
      = 1 / 2 * contract (fun i j k l => T4 (up i) (up j) (up k) (up l)) H i j := by
    intro i j; simp only [contract, Fin.sum_univ_two]; ring
  rw [e, hcon, hcon, hcon] at hm
  have hk := congrFun hm k
  simp only [mulVec3] at hk
  rw [hk]
  have d := ht C H hc rfl
  rcases fin3_cases k with rfl | rfl | rfl
  · exact d 0 0
  · exact d 1 1
  · exact d 0 1

/-- What a law has to satisfy at the heights of the rule. -/
def Good (L : Law) (r : Rule) (t : ℝ) (s : Surf) : Prop :=
  ∀ j : Fin r.n, ElasticSymm (L.tangent (r.ξ j * t) (Gblock s (r.ξ j * t))) ∧
    IsTangent (fun G a b => L.stress (r.ξ j * t) G (up a) (up b))
      (fun a b c d => L.tangent (r.ξ j * t) (Gblock s (r.ξ j * t)) (up a) (up b) (up c) (up d))
      (Gblock s (r.ξ j * t))

/-- Part of the rate of a resultant that comes from the third fundamental form. -/
noncomputable def defect (L : Law) (r : Rule) (t : ℝ) (m : Nat) (s : Surf) (T : T2) : Voigt :=
  fun k => ∑ j, modulus L r t (m + 2) s k j * half T j

theorem resultant_deriv (L : Law) (r : Rule) (t : ℝ) (m : Nat) (s v : Surf)
    (h : Indep (s.a 0) (s.a 1)) (T : T2) (hT : IsThirdRate s v T) (hg : Good L r t s) (k : Fin 3) :
    HasDerivAt (fun τ => resultant L r t m (shift s v τ) k)
      (∑ j, (modulus L r t m s k j * EmDer s v j + modulus L r t (m + 1) s k j * EfDer s v j)
        + defect L r t m s T k) 0 := by
  have hj : ∀ j : Fin r.n, HasDerivAt
      (fun τ => stressV (L.stress (r.ξ j * t) (Gblock (shift s v τ) (r.ξ j * t))) k)
      (∑ i, fillMatrix (L.tangent (r.ξ j * t) (Gblock s (r.ξ j * t))) k i
        * half (metricRate s v T (r.ξ j * t)) i) 0 := by
    intro j
    have hc := metric_curve s v h T hT (r.ξ j * t)
    refine stress_deriv (L.stress (r.ξ j * t)) _ (hg j).1 _ _ hc ?_ k
    rw [shift_zero]
    exact (hg j).2
  have hs := HasDerivAt.fun_sum (u := Finset.univ) fun j _ =>
    ((hj j).const_mul (r.w j * (r.ξ j * t) ^ m)).mul_const t
  refine hs.congr_deriv ?_
  simp only [half_rate, Fin.sum_univ_three, defect, modulus, integrateZ]
  simp only [Finset.sum_mul, ← Finset.sum_add_distrib]
  refine Finset.sum_congr rfl fun j _ => ?_
  ring

theorem force_deriv (L : Law) (r : Rule) (t : ℝ) (s u v : Surf)
    (h : Indep (s.a 0) (s.a 1)) (T : T2) (hT : IsThirdRate s v T) (hg : Good L r t s) :
    HasDerivAt (fun τ => force L r t (shift s v τ) u)
      (-tangentStiffness L r t s u v
        + internalForce s u (defect L r t 0 s T) (defect L r t 1 s T)) 0 := by
  have hN : ∀ i, HasDerivAt (fun τ => resultant L r t 0 (shift s v τ) i
      - τ * defect L r t 0 s T i)
      (∑ j, (modulus L r t 0 s i j * EmDer s v j + modulus L r t 1 s i j * EfDer s v j)) 0 := by
    intro i
    refine ((resultant_deriv L r t 0 s v h T hT hg i).sub
      ((hasDerivAt_id' (0 : ℝ)).mul_const (defect L r t 0 s T i))).congr_deriv ?_
    ring
  have hM : ∀ i, HasDerivAt (fun τ => resultant L r t 1 (shift s v τ) i
      - τ * defect L r t 1 s T i)
      (∑ j, (modulus L r t 1 s i j * EmDer s v j + modulus L r t 2 s i j * EfDer s v j)) 0 := by
    intro i
    refine ((resultant_deriv L r t 1 s v h T hT hg i).sub
      ((hasDerivAt_id' (0 : ℝ)).mul_const (defect L r t 1 s T i))).congr_deriv ?_
    ring
  have h1 := C66_stiffness (Q := Unit) (fun _ => 1) (fun _ => s) (fun _ => u) (fun _ => v)
    (fun _ => h) (fun _ => modulus L r t 0 s) (fun _ => modulus L r t 1 s)
    (fun _ => modulus L r t 1 s) (fun _ => modulus L r t 2 s)
    (fun _ τ i => resultant L r t 0 (shift s v τ) i - τ * defect L r t 0 s T i)
    (fun _ τ i => resultant L r t 1 (shift s v τ) i - τ * defect L r t 1 s T i)
    (fun _ => hN) (fun _ => hM)
  have h2 : HasDerivAt (fun τ => internalForce (shift s v τ) u (defect L r t 0 s T)
      (defect L r t 1 s T))
      (-(EmDer2 u v (defect L r t 0 s T) + EfDer2 s u v (defect L r t 1 s T))) 0 :=
    ((C66_membrane2 s u v (defect L r t 0 s T)).add
      (C66_bending2 s u v h (defect L r t 1 s T))).neg
  have h3 := h1.add ((hasDerivAt_id' (0 : ℝ)).mul h2)
  refine (h3.congr_of_eventuallyEq (Filter.Eventually.of_forall fun τ => ?_)).congr_deriv ?_
  · simp only [force, internalForce, dotV, Fin.sum_univ_three, Finset.univ_unique,
      Finset.sum_singleton, Pi.add_apply, Pi.mul_apply]
    ring
  · simp [shift_zero, tangentStiffness]

/-- The derivatives of the normal are differentiable along every motion. -/
theorem ncov_deriv (s v : Surf) (h : Indep (s.a 0) (s.a 1)) (i : Fin 2) :
    ∃ d, HasVDeriv (fun τ => ncov (shift s v τ) i) d 0 := by
  have hn := hasVDeriv_normal s v h
  have hA : ∀ i j, HasDerivAt (fun τ => Acov (shift s v τ) i j)
      (dot (v.a i) (s.a j) + dot (s.a i) (v.a j)) 0 := by
    intro i j
    refine ((HasVDeriv.line (s.a i) (v.a i) 0).dot
      (HasVDeriv.line (s.a j) (v.a j) 0)).congr_deriv ?_
    simp [dot]
  have hdet : det2 (Acov (shift s v 0)) ≠ 0 := by
    rw [shift_zero]
    have h1 := dot_self_pos h.cross_ne
    have h2 : det2 (Acov s) = dot (cross (s.a 0) (s.a 1)) (cross (s.a 0) (s.a 1)) := by
      simp [det2, Acov, dot, cross]; ring
    rw [h2]; exact h1.ne'
  have hI : ∀ i j, ∃ d, HasDerivAt (fun τ => Acon (shift s v τ) i j) d 0 := by
    intro i j
    exact ⟨_, hasDerivAt_inv2 (C := fun τ => Acov (shift s v τ)) hA hdet i j⟩
  have hB : ∀ i j, ∃ d, HasDerivAt (fun τ => Bcov (shift s v τ) i j) d 0 := by
    intro i j
    have hb : ∀ d w : V3, HasDerivAt (fun t => dot (d + t • w) (normal (shift s v t)))
        (dot w (normal s) + dot d (var1 s v)) 0 := by
      intro d w
      refine ((HasVDeriv.line d w 0).dot hn).congr_deriv ?_
      rw [shift_zero]; simp [dot]
    rcases fin2_cases i with rfl | rfl <;> rcases fin2_cases j with rfl | rfl
    · exact ⟨_, hb s.d11 v.d11⟩
    · exact ⟨_, hb s.d12 v.d12⟩
    · exact ⟨_, hb s.d12 v.d12⟩
    · exact ⟨_, hb s.d22 v.d22⟩
  have hX : ∀ i j, ∃ d, HasDerivAt (fun τ => mixedB (shift s v τ) i j) d 0 := by
    intro i j
    obtain ⟨d1, h1⟩ := hI i 0
    obtain ⟨d2, h2⟩ := hI i 1
    obtain ⟨d3, h3⟩ := hB 0 j
    obtain ⟨d4, h4⟩ := hB 1 j
    exact ⟨_, (h1.mul h3).add (h2.mul h4)⟩
  obtain ⟨d1, h1⟩ := hX 0 i
  obtain ⟨d2, h2⟩ := hX 1 i
  exact ⟨_, (HasVDeriv.smul h1.neg (HasVDeriv.line (s.a 0) (v.a 0) 0)).sub
      (HasVDeriv.smul h2 (HasVDeriv.line (s.a 1) (v.a 1) 0))⟩

/-- The third fundamental form has a rate along every motion. -/
theorem third_exists (s v : Surf) (h : Indep (s.a 0) (s.a 1)) : ∃ T, IsThirdRate s v T := by
  have hd : ∀ i, ∃ d, HasVDeriv (fun τ => ncov (shift s v τ) i) d 0 := ncov_deriv s v h
  choose d hd using hd
  exact ⟨_, fun i j => (hd i).dot (hd j)⟩

/-- Without curvature the third fundamental form does not change to first order. -/
theorem flat_third (s v : Surf) (h : Indep (s.a 0) (s.a 1)) (hf : Flat s) :
    IsThirdRate s v 0 := by
  have hz : ∀ i, ncov s i = 0 := by
    intro i
    have hm : ∀ j, mixedB s j i = 0 := by
      intro j; have := hf 0 i; have := hf 1 i; simp_all [mixedB]
    ext <;> simp [ncov, hm]
  intro i j
  obtain ⟨d1, h1⟩ := ncov_deriv s v h i
  obtain ⟨d2, h2⟩ := ncov_deriv s v h j
  refine (h1.dot h2).congr_deriv ?_
  rw [shift_zero, hz, hz]
  simp [dot]

theorem metric_symm (s : Surf) (z : ℝ) : Gblock s z 0 1 = Gblock s z 1 0 := by
  simp only [Gblock, Acov, Bcov, dot_comm (s.a 0) (s.a 1), dot_comm (ncov s 0) (ncov s 1)]
  simp

theorem embed_symm (G : T2) (h : G 0 1 = G 1 0) (i j : Fin 3) : embed G i j = embed G j i := by
  rcases fin3_cases i with rfl | rfl | rfl <;> rcases fin3_cases j with rfl | rfl | rfl <;>
    simp [embed, h]

theorem data_symm (A C : T2) (hA : A 0 1 = A 1 0) (hC : C 0 1 = C 1 0) :
    (∀ i j, (data A C).gcon i j = (data A C).gcon j i) ∧
    (∀ i j, (data A C).Gori i j = (data A C).Gori j i) :=
  ⟨embed_symm _ (inv2_symm C hC 0 1), embed_symm _ (inv2_symm A hA 0 1)⟩

theorem nh_good (p : Par) (ori s : Surf) (r : Rule) (t : ℝ) (h : Regular r t ori s) :
    Good (nh p ori) r t s := by
  intro j
  have hs := data_symm _ _ (metric_symm ori (r.ξ j * t)) (metric_symm s (r.ξ j * t))
  refine ⟨(C48_incompressible p _ hs.1 hs.2).1, ?_⟩
  rintro C H hc h0 a b
  have := C45_NH p _ (h j).1 hc (by rw [h0]; exact (h j).2) a b
  rw [h0] at this
  exact this

theorem mr_good (p : Par) (ori s : Surf) (r : Rule) (t : ℝ) (h : Regular r t ori s) :
    Good (mr p ori) r t s := by
  intro j
  have hs := data_symm _ _ (metric_symm ori (r.ξ j * t)) (metric_symm s (r.ξ j * t))
  refine ⟨(C48_incompressible p _ hs.1 hs.2).2, ?_⟩
  rintro C H hc h0 a b
  have := C45_MR p _ (h j).1 (metric_symm ori _) hc (by rw [h0]; exact (h j).2) a b
  rw [h0] at this
  exact this

/-! ## Stored energy -/

theorem nh_energy (p : Par) (A G : T2) (_hA : det2 A ≠ 0) (hG : det2 G ≠ 0) :
    IsStress (energyNH p.mu A) (fun i j => sNH p (data A G) (up i) (up j)) G := by
  rintro C H hc rfl
  have hd := hasDerivAt_det2 hc.deriv hG
  have htr := ((((hc.deriv 0 0).mul_const (inv2 A 0 0)).add
    ((hc.deriv 0 1).mul_const (inv2 A 0 1))).add
    ((hc.deriv 1 0).mul_const (inv2 A 1 0))).add ((hc.deriv 1 1).mul_const (inv2 A 1 1))
  have h := ((htr.add ((hd.inv hG).const_mul (det2 A))).sub_const 3).const_mul (p.mu / 2)
  refine deriv_conv h (fun s => ?_) ?_
  · simp only [energyNH, Fin.sum_univ_two, Pi.add_apply, Pi.inv_apply, div_eq_mul_inv]; ring
  have s := inv2_symm (C 0) hc.symm
  simp only [sNH, data, embed_up, Fin.sum_univ_two, s 1 0]
  generalize inv2 (C 0) = g at *
  field_simp
  ring

theorem mr_energy (p : Par) (A G : T2) (hA : det2 A ≠ 0) (hG : det2 G ≠ 0) :
    IsStress (energyMR p.c1 p.c2 A) (fun i j => sMR p (data A G) (up i) (up j)) G := by
  rintro C H hc rfl
  have hd := hasDerivAt_det2 hc.deriv hG
  have htr := ((((hc.deriv 0 0).mul_const (inv2 A 0 0)).add
    ((hc.deriv 0 1).mul_const (inv2 A 0 1))).add
    ((hc.deriv 1 0).mul_const (inv2 A 1 0))).add ((hc.deriv 1 1).mul_const (inv2 A 1 1))
  have hi := (hd.inv hG).const_mul (det2 A)
  have h := ((((htr.add hi).sub_const 3).const_mul (p.c1 / 2)).add
    ((((hi.mul htr).add (hd.div_const (det2 A))).sub_const 3).const_mul (p.c2 / 2)))
  refine deriv_conv h (fun s => ?_) ?_
  · simp only [energyMR, Fin.sum_univ_two, Pi.add_apply, Pi.mul_apply, Pi.inv_apply,
      div_eq_mul_inv]
    ring
  have s := inv2_symm (C 0) hc.symm
  simp only [sMR, traceCt, data, embed_up, embed_00, embed_01, embed_10, embed_11,
    Fin.sum_univ_two, Pi.add_apply, Pi.mul_apply, Pi.inv_apply, s 1 0]
  generalize inv2 (C 0) = g at *
  generalize inv2 A = G at *
  field_simp
  ring

theorem stored_deriv (L : Law) (ψ : T2 → T2 → ℝ) (r : Rule) (t : ℝ) (ori s v : Surf)
    (h : Indep (s.a 0) (s.a 1)) (T : T2) (hT : IsThirdRate s v T)
    (hg : ∀ j : Fin r.n, IsStress (ψ (Gblock ori (r.ξ j * t)))
      (fun a b => L.stress (r.ξ j * t) (Gblock s (r.ξ j * t)) (up a) (up b))
      (Gblock s (r.ξ j * t)) ∧
      L.stress (r.ξ j * t) (Gblock s (r.ξ j * t)) 0 1
        = L.stress (r.ξ j * t) (Gblock s (r.ξ j * t)) 1 0) :
    HasDerivAt (fun τ => stored ψ r t ori (shift s v τ))
      (-force L r t s v + dotV (resultant L r t 2 s) (half T)) 0 := by
  have hj : ∀ j : Fin r.n, HasDerivAt
      (fun τ => ψ (Gblock ori (r.ξ j * t)) (Gblock (shift s v τ) (r.ξ j * t)))
      (∑ k, stressV (L.stress (r.ξ j * t) (Gblock s (r.ξ j * t))) k
        * half (metricRate s v T (r.ξ j * t)) k) 0 := by
    intro j
    have hc := metric_curve s v h T hT (r.ξ j * t)
    refine ((hg j).1 _ _ hc (by simp only [shift_zero])).congr_deriv ?_
    have e1 := (hg j).2
    have e2 := hc.symmH
    simp only [Fin.sum_univ_two, Fin.sum_univ_three, up_zero, up_one, stressV, half, ← e1, ← e2]
    simp; ring
  have hs := HasDerivAt.fun_sum (u := Finset.univ) fun j _ =>
    ((hj j).const_mul (r.w j)).mul_const t
  refine hs.congr_deriv ?_
  simp only [half_rate, Fin.sum_univ_three, force, internalForce, dotV, resultant, integrateZ,
    neg_neg]
  simp only [Finset.sum_mul, ← Finset.sum_add_distrib]
  refine Finset.sum_congr rfl fun j _ => ?_
  ring

theorem nh_stored (p : Par) (r : Rule) (t : ℝ) (ori s v : Surf) (h : Indep (s.a 0) (s.a 1))
    (T : T2) (hT : IsThirdRate s v T) (hr : Regular r t ori s) :
    HasDerivAt (fun τ => stored (energyNH p.mu) r t ori (shift s v τ))
      (-force (nh p ori) r t s v + dotV (resultant (nh p ori) r t 2 s) (half T)) 0 := by
  refine stored_deriv (nh p ori) _ r t ori s v h T hT fun j =>
    ⟨nh_energy p _ _ (hr j).1 (hr j).2, ?_⟩
  have hs := data_symm _ _ (metric_symm ori (r.ξ j * t)) (metric_symm s (r.ξ j * t))
  simp only [nh, sNH, hs.1 0 1, hs.2 0 1]

theorem mr_stored (p : Par) (r : Rule) (t : ℝ) (ori s v : Surf) (h : Indep (s.a 0) (s.a 1))
    (T : T2) (hT : IsThirdRate s v T) (hr : Regular r t ori s) :
    HasDerivAt (fun τ => stored (energyMR p.c1 p.c2) r t ori (shift s v τ))
      (-force (mr p ori) r t s v + dotV (resultant (mr p ori) r t 2 s) (half T)) 0 := by
  refine stored_deriv (mr p ori) _ r t ori s v h T hT fun j =>
    ⟨mr_energy p _ _ (hr j).1 (hr j).2, ?_⟩
  have hs := data_symm _ _ (metric_symm ori (r.ξ j * t)) (metric_symm s (r.ξ j * t))
  simp only [mr, sMR, hs.1 0 1, hs.2 0 1]

/-! ## A curved example -/

/-- Unit square with curvature `κ` in the first direction. -/
def curved (κ : ℝ) : Surf :=
  ⟨fun i => if i = 0 then ⟨1, 0, 0⟩ else ⟨0, 1, 0⟩, ⟨0, 0, κ⟩, ⟨0, 0, 0⟩, ⟨0, 0, 0⟩⟩

/-- The field that bends in the first direction. -/
def bending : Surf := ⟨fun _ => ⟨0, 0, 0⟩, ⟨0, 0, 1⟩, ⟨0, 0, 0⟩, ⟨0, 0, 0⟩⟩

/-- Two points through the thickness. -/
noncomputable def two : Rule := ⟨2, ![-1 / 2, 1 / 2], ![1 / 2, 1 / 2]⟩

theorem curved_shift (κ τ : ℝ) : shift (curved κ) bending τ = curved (κ + τ) := by
  simp only [shift, curved, bending]
  congr 1
  · funext i
    rcases fin2_cases i with rfl | rfl <;> ext <;> simp
  all_goals ext <;> simp

theorem curved_indep (κ : ℝ) : Indep ((curved κ).a 0) ((curved κ).a 1) := by
  intro c d h
  have hx := congrArg V3.x h
  have hy := congrArg V3.y h
  simp [curved] at hx hy
  exact ⟨hx, hy⟩

theorem curved_normal (κ : ℝ) : normal (curved κ) = ⟨0, 0, 1⟩ := by
  have hc : cross ((curved κ).a 0) ((curved κ).a 1) = (⟨0, 0, 1⟩ : V3) := by
    ext <;> simp [cross, curved]
  have h : V3.norm ⟨0, 0, 1⟩ = 1 := by simp [V3.norm, dot]
  simp only [normal, hc, normalized, h]
  ext <;> simp

theorem curved_A (κ : ℝ) : Acov (curved κ) = ![![1, 0], ![0, 1]] := by
  funext i j
  rcases fin2_cases i with rfl | rfl <;> rcases fin2_cases j with rfl | rfl <;>
    simp [Acov, curved, dot]

theorem curved_B (κ : ℝ) : Bcov (curved κ) = ![![κ, 0], ![0, 0]] := by
  funext i j
  rcases fin2_cases i with rfl | rfl <;> rcases fin2_cases j with rfl | rfl <;>
    simp [Bcov, curved_normal] <;> simp [curved, dot]

theorem curved_ncov (κ : ℝ) : ncov (curved κ) 0 = ⟨-κ, 0, 0⟩ ∧ ncov (curved κ) 1 = ⟨0, 0, 0⟩ := by
  have hA : Acon (curved κ) = ![![1, 0], ![0, 1]] := by
    simp only [Acon, curved_A]
    funext i j
    rcases fin2_cases i with rfl | rfl <;> rcases fin2_cases j with rfl | rfl <;>
      simp [inv2, det2]
  have hm : ∀ i j, mixedB (curved κ) i j = (![![κ, 0], ![0, 0]] : T2) i j := by
    intro i j
    simp only [mixedB, hA, curved_B]
    rcases fin2_cases i with rfl | rfl <;> rcases fin2_cases j with rfl | rfl <;> simp
  constructor <;> simp only [ncov, hm] <;> ext <;> simp [curved]

theorem curved_G (κ z : ℝ) : Gblock (curved κ) z = ![![(1 - z * κ) ^ 2, 0], ![0, 1]] := by
  obtain ⟨h0, h1⟩ := curved_ncov κ
  funext i j
  rcases fin2_cases i with rfl | rfl <;> rcases fin2_cases j with rfl | rfl <;>
    simp only [Gblock, curved_A, curved_B, h0, h1] <;> simp [dot]
  ring

theorem curved_third (κ : ℝ) : IsThirdRate (curved κ) bending ![![2 * κ, 0], ![0, 0]] := by
  intro i j
  have hf : ∀ τ, dot (ncov (shift (curved κ) bending τ) i) (ncov (shift (curved κ) bending τ) j)
      = (![![(κ + τ) * (κ + τ), 0], ![0, 0]] : T2) i j := by
    intro τ
    rw [curved_shift]
    obtain ⟨h0, h1⟩ := curved_ncov (κ + τ)
    rcases fin2_cases i with rfl | rfl <;> rcases fin2_cases j with rfl | rfl <;>
      simp only [h0, h1] <;> simp [dot]
    ring
  simp only [hf]
  have hl : HasDerivAt (fun τ : ℝ => κ + τ) 1 0 := (hasDerivAt_id' (0 : ℝ)).const_add κ
  rcases fin2_cases i with rfl | rfl <;> rcases fin2_cases j with rfl | rfl
  · refine (hl.mul hl).congr_deriv ?_
    simp; ring
  · exact hasDerivAt_const _ _
  · exact hasDerivAt_const _ _
  · exact hasDerivAt_const _ _

theorem curved_em (κ : ℝ) : EmDer (curved κ) bending = fun _ => 0 := by
  funext k
  rcases fin3_cases k with rfl | rfl | rfl <;> simp [EmDer, bending, dot]

theorem curved_var (κ : ℝ) : var1 (curved κ) bending = ⟨0, 0, 0⟩ := by
  have h := hasVDeriv_normal (curved κ) bending (curved_indep κ)
  simp only [curved_shift, curved_normal] at h
  have h0 : HasVDeriv (fun _ : ℝ => (⟨0, 0, 1⟩ : V3)) ⟨0, 0, 0⟩ 0 :=
    ⟨hasDerivAt_const _ _, hasDerivAt_const _ _, hasDerivAt_const _ _⟩
  ext
  · exact h.1.unique h0.1
  · exact h.2.1.unique h0.2.1
  · exact h.2.2.unique h0.2.2

theorem curved_ef (κ : ℝ) : EfDer (curved κ) bending = vec3 (-1) 0 0 := by
  funext k
  rcases fin3_cases k with rfl | rfl | rfl <;>
    simp only [EfDer, curved_var, curved_normal, dbl3, deriv2dot] <;>
    simp [curved, bending, dot]

theorem curved_regular : Regular two 1 (curved 0) (curved 1) := by
  intro j
  simp only [curved_G]
  have : j = (0 : Fin 2) ∨ j = (1 : Fin 2) := fin2_cases j
  rcases this with rfl | rfl <;> simp [two, det2] <;> norm_num

theorem two_integrate (m : Nat) (f : ℝ → ℝ) : integrateZ two 1 m f
    = 1 / 2 * (-1 / 2) ^ m * f (-1 / 2) + 1 / 2 * (1 / 2) ^ m * f (1 / 2) := by
  have : integrateZ two 1 m f = ∑ j : Fin 2, (![1 / 2, 1 / 2] : Fin 2 → ℝ) j
      * ((![-1 / 2, 1 / 2] : Fin 2 → ℝ) j * 1) ^ m * f ((![-1 / 2, 1 / 2] : Fin 2 → ℝ) j) * 1 := rfl
  rw [this, Fin.sum_univ_two]
  simp

theorem curved_one_det (j : Fin two.n) : det2 (Gblock (curved 1) (two.ξ j * 1)) ≠ 0 :=
  (curved_regular j).2

end Verif.ShellTangent
