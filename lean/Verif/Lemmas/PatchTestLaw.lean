import Verif.Lemmas.PatchTest
import Verif.Lemmas.CylinderLaw

/-! # Lemmas: section forces of a stretched sheet -/

namespace Verif.PatchTest

open V3 Geometry Fields MeasureTheory Verif.Variation Verif.Balance Verif.Hyper Verif.ShellTangent
open Spec.Balloon Spec.Plate Spec.PatchTest Spec.Reparam Spec.ShellTangent Spec.Hyper Verif.Plate Verif.Reparam
open Verif.Integrate (Rule)

section
variable (P : T2) (g1 g2 g3 : Fin 2 → ℝ) (f : Fin 2 → V3)

theorem Bcov_fS (i j : Fin 2) : Bcov (Linear.reparam P g1 g2 g3 (fS f)) i j = 0 := by
  have h : ∀ i j, Bcov (fS f) i j = 0 := by
    intro i j
    rcases fin2_cases i with rfl | rfl <;> rcases fin2_cases j with rfl | rfl <;> simp [Bcov, fS, dot]
  rw [Linear.Bcov_reparam]
  simp [Linear.congr, h]

theorem Gblock_fS (z : ℝ) : Gblock (Linear.reparam P g1 g2 g3 (fS f)) z = co P (Acov (fS f)) := by
  funext i j
  have hG : Gblock (Linear.reparam P g1 g2 g3 (fS f)) z i j
      = Acov (Linear.reparam P g1 g2 g3 (fS f)) i j - 2 * z * Bcov (Linear.reparam P g1 g2 g3 (fS f)) i j
        + z * z * dot (ncov (Linear.reparam P g1 g2 g3 (fS f)) i) (ncov (Linear.reparam P g1 g2 g3 (fS f)) j) := rfl
  rw [hG, third_eq]
  simp only [Bcov_fS, Linear.Acov_reparam, co_eq]
  simp

theorem flat_fS : flatS = fS fun i => if i = 0 then ⟨1, 0, 0⟩ else ⟨0, 1, 0⟩ := rfl

theorem flat_Acov : Acov flatS = ![![1, 0], ![0, 1]] := by
  funext i j
  rcases fin2_cases i with rfl | rfl <;> rcases fin2_cases j with rfl | rfl <;> simp [Acov, flatS, dot]

theorem Gblock_flat (z : ℝ) : Gblock (Linear.reparam P g1 g2 g3 flatS) z = co P ![![1, 0], ![0, 1]] := by
  rw [← flat_Acov, flat_fS]; exact Gblock_fS P g1 g2 g3 _ z

end

/-! ## Linear material -/

theorem Cval_co (E ν : ℝ) (P A : T2) (i j k l : Fin 2) :
    Linear.Cval E ν (contra P A) i j k l = contra4 P (Linear.Cval E ν A) i j k l := by
  simp only [Linear.Cval, contra, contra4, Fin.sum_univ_two]
  ring

theorem contra4_vec (P : T2) (hP : det2 P ≠ 0) (T : Fin 2 → Fin 2 → Fin 2 → Fin 2 → ℝ) (K : T2) (i j : Fin 2) :
    ∑ k, ∑ l, contra4 P T i j k l * co P K k l = contra P (fun a b => ∑ k, ∑ l, T a b k l * K k l) i j := by
  simp only [contra, ← contra_co P _ K hP]
  simp only [contra4, Fin.sum_univ_two]
  ring

theorem Sij_sum (E ν : ℝ) (A e : T2) (i j : Fin 2) :
    Linear.Sij E ν A e i j = ∑ k, ∑ l, Linear.Cval E ν A i j k l * e k l := by
  simp only [Linear.Sij, Fin.sum_univ_two]; ring

theorem Sij_co (E ν : ℝ) (P A e : T2) (hP : det2 P ≠ 0) (i j : Fin 2) :
    Linear.Sij E ν (inv2 (co P A)) (co P e) i j = contra P (Linear.Sij E ν (inv2 A) e) i j := by
  have : inv2 (co P A) = contra P (inv2 A) := by funext i j; exact inv_co P A hP i j
  rw [Sij_sum, this]
  simp only [Cval_co]
  rw [contra4_vec P hP]
  simp only [contra, Sij_sum]

/-- Green strain of the deformation. -/
noncomputable def green (f : Fin 2 → V3) : T2 := membraneStrain flatS (fS f)

theorem contra_smul (P N : T2) (t : ℝ) (i j : Fin 2) : contra P (fun i j => t * N i j) i j = t * contra P N i j := by
  simp only [contra, Fin.sum_univ_two]; ring

/-- Resultants of the linear material. -/
noncomputable def linN (t E ν : ℝ) (f : Fin 2 → V3) : T2 := fun i j => t * Linear.Sij E ν (inv2 (Acov flatS)) (green f) i j

theorem linear_uniform (r : Rule) (t E ν : ℝ) (f : Fin 2 → V3) : Uniform (linearSection r t E ν) f (linN t E ν f) := by
  intro P g1 g2 g3 hP
  have hA : ∀ s, Acov (Linear.reparam P g1 g2 g3 s) = co P (Acov s) := fun s => by
    rw [Linear.Acov_reparam]; funext i j; rw [co_eq]
  have he : membraneStrain (Linear.reparam P g1 g2 g3 flatS) (Linear.reparam P g1 g2 g3 (fS f)) = co P (green f) := by
    funext i j
    simp only [membraneStrain, hA, green, co, Fin.sum_univ_two]; ring
  have hb : bendingStrain (Linear.reparam P g1 g2 g3 flatS) (Linear.reparam P g1 g2 g3 (fS f)) = fun _ _ => 0 := by
    funext i j
    rw [bendingStrain, flat_fS, Bcov_fS, Bcov_fS, sub_zero]
  have hc : Acon (Linear.reparam P g1 g2 g3 flatS) = inv2 (co P (Acov flatS)) := by rw [Acon, hA]
  constructor
  · funext k
    show Integrate.multiplyZ t 0 (fun _ => Linear.stress E ν (Acon (Linear.reparam P g1 g2 g3 flatS))
      (membraneStrain (Linear.reparam P g1 g2 g3 flatS) (Linear.reparam P g1 g2 g3 (fS f))) k) = _
    rw [he, hc]
    have hl : ∀ i j, contra P (linN t E ν f) i j = t * contra P (Linear.Sij E ν (inv2 (Acov flatS)) (green f)) i j :=
      fun i j => contra_smul P _ t i j
    simp only [vec, hl, Linear.stress, Sij_co E ν P _ _ hP]
    rcases fin3_cases k with rfl | rfl | rfl <;> simp [Integrate.multiplyZ] <;> ring
  · funext k
    show Integrate.multiplyZ t 2 (fun _ => Linear.stress E ν (Acon (Linear.reparam P g1 g2 g3 flatS))
      (bendingStrain (Linear.reparam P g1 g2 g3 flatS) (Linear.reparam P g1 g2 g3 (fS f))) k) = _
    rw [hb]
    rcases fin3_cases k with rfl | rfl | rfl <;> simp [Integrate.multiplyZ, Linear.stress, Linear.Sij]

theorem flat_inv : inv2 (Acov flatS) = ![![1, 0], ![0, 1]] := by
  rw [flat_Acov]
  funext i j
  rcases fin2_cases i with rfl | rfl <;> rcases fin2_cases j with rfl | rfl <;> simp [inv2, det2]

theorem green_eq (f : Fin 2 → V3) (i j : Fin 2) :
    green f i j = (dot (f i) (f j) - (![![1, 0], ![0, 1]] : T2) i j) / 2 := by
  simp only [green, membraneStrain, flat_Acov]
  have : Acov (fS f) i j = dot (f i) (f j) := rfl
  rw [this]; ring

theorem linN_symm (t E ν : ℝ) (f : Fin 2 → V3) : linN t E ν f 0 1 = linN t E ν f 1 0 := by
  simp only [linN, Linear.Sij, Linear.Cval, flat_inv]
  simp

/-! ## Derivatives of the energies -/

/-- Change of the deformation. -/
def push (f : Fin 2 → V3) (k : Fin 2) (d : V3) (τ : ℝ) (i : Fin 2) : V3 := if i = k then f i + τ • d else f i

theorem push_dot (f : Fin 2 → V3) (k : Fin 2) (d : V3) (i j : Fin 2) :
    HasDerivAt (fun τ : ℝ => dot (push f k d τ i) (push f k d τ j))
      ((if i = k then dot d (f j) else 0) + if j = k then dot (f i) d else 0) 0 := by
  have h0 : HasDerivAt (fun τ : ℝ => τ) 1 (0 : ℝ) := hasDerivAt_id' 0
  have p : ∀ (u w : V3), HasDerivAt (fun τ : ℝ => dot (u + τ • d) w) (dot d w) 0 := by
    intro u w
    have := (h0.mul_const (dot d w)).const_add (dot u w)
    refine (this.congr_deriv (by ring)).congr_of_eventuallyEq (.of_forall fun τ => ?_)
    simp only [dot_add_left, dot_smul_left]
  have p2 : ∀ (u w : V3), HasDerivAt (fun τ : ℝ => dot w (u + τ • d)) (dot w d) 0 := by
    intro u w
    refine ((p u w).congr_deriv (dot_comm d w)).congr_of_eventuallyEq (.of_forall fun τ => dot_comm _ _)
  have p3 : ∀ (u w : V3), HasDerivAt (fun τ : ℝ => dot (u + τ • d) (w + τ • d)) (dot d w + dot u d) 0 := by
    intro u w
    have := (((h0.mul_const (dot d w + dot u d)).const_add (dot u w)).fun_add ((h0.fun_pow 2).mul_const (dot d d)))
    refine (this.congr_deriv (by simp)).congr_of_eventuallyEq (.of_forall fun τ => ?_)
    simp only [dot_add_left, dot_smul_left, dot_add_right, dot_smul_right]
    ring
  unfold push
  split <;> split
  · exact p3 _ _
  · simpa using p (f i) (f j)
  · simpa using p2 (f j) (f i)
  · simpa using hasDerivAt_const (0 : ℝ) (dot (f i) (f j))

theorem push_zero (f : Fin 2 → V3) (k : Fin 2) (d : V3) (i : Fin 2) : push f k d 0 i = f i := by
  unfold push
  split
  · ext <;> simp
  · rfl

/-- A stress that is twice the derivative of `ψ` with respect to the metric gives the tractions. -/
theorem piola_of {ψ : T2 → ℝ} {S : T2} {f : Fin 2 → V3} {W : (Fin 2 → V3) → ℝ} (t : ℝ) (hS : S 0 1 = S 1 0)
    (h : IsStress ψ S fun i j => dot (f i) (f j)) (hW : ∀ f, W f = t * ψ fun i j => dot (f i) (f j)) :
    IsPiola W f (tr (fun i j => t * S i j) f) := by
  intro k d
  have hc : Curve (fun τ i j => dot (push f k d τ i) (push f k d τ j))
      (fun i j => (if i = k then dot d (f j) else 0) + if j = k then dot (f i) d else 0) 0 :=
    ⟨fun i j => push_dot f k d i j, dot_comm _ _, by
      rw [dot_comm d (f 1), dot_comm d (f 0)]; ring⟩
  have := (h _ _ hc (by funext i j; simp only [push_zero])).const_mul t
  simp only [hW]
  refine this.congr_deriv ?_
  simp only [tr, dot_add_left, dot_smul_left, Fin.sum_univ_two]
  rcases fin2_cases k with rfl | rfl <;> simp [dot_comm d] <;> rw [hS] <;> ring

/-- Energy of the linear material as a function of the metric. -/
noncomputable def psiLinear (E ν : ℝ) (C : T2) : ℝ :=
  1 / 2 * ∑ i, ∑ j, Linear.Sij E ν (inv2 (Acov flatS)) (fun i j => (C i j - Acov flatS i j) / 2) i j
    * ((C i j - Acov flatS i j) / 2)

theorem linear_stress (E ν : ℝ) (G : T2) :
    IsStress (psiLinear E ν) (Linear.Sij E ν (inv2 (Acov flatS)) fun i j => (G i j - Acov flatS i j) / 2) G := by
  rintro C H hc rfl
  have he : ∀ i j, HasDerivAt (fun τ => (C τ i j - Acov flatS i j) / 2) (H i j / 2) 0 := fun i j =>
    ((hc.deriv i j).sub_const _).div_const 2
  have hs : ∀ i j, HasDerivAt (fun τ => Linear.Sij E ν (inv2 (Acov flatS)) (fun i j => (C τ i j - Acov flatS i j) / 2) i j)
      (Linear.Sij E ν (inv2 (Acov flatS)) (fun i j => H i j / 2) i j) 0 := by
    intro i j
    simp only [Linear.Sij]
    exact ((((he 0 0).const_mul _).fun_add ((he 0 1).const_mul _)).fun_add ((he 1 0).const_mul _)).fun_add
      ((he 1 1).const_mul _)
  have hd : HasDerivAt (fun τ => psiLinear E ν (C τ)) (1 / 2 * ∑ i, ∑ j,
      (Linear.Sij E ν (inv2 (Acov flatS)) (fun i j => H i j / 2) i j * ((C 0 i j - Acov flatS i j) / 2)
        + Linear.Sij E ν (inv2 (Acov flatS)) (fun i j => (C 0 i j - Acov flatS i j) / 2) i j * (H i j / 2))) 0 := by
    unfold psiLinear
    exact (HasDerivAt.fun_sum fun i _ => HasDerivAt.fun_sum fun j _ => (hs i j).fun_mul (he i j)).const_mul _
  refine hd.congr_deriv ?_
  simp only [Fin.sum_univ_two, Linear.Sij, Linear.Cval, flat_inv]
  simp
  rw [hc.symm, hc.symmH]
  ring

theorem linear_piola {E ν : ℝ} (hE : E ≠ 0) (h1 : 1 + ν ≠ 0) (h2 : 1 - 2 * ν ≠ 0) (h3 : 1 - ν ≠ 0) (t : ℝ)
    (f : Fin 2 → V3) : IsPiola (energyLinear E ν t) f (tr (linN t E ν f) f) := by
  have hg : ∀ f : Fin 2 → V3, green f = fun i j => (dot (f i) (f j) - Acov flatS i j) / 2 := by
    intro f; funext i j; rw [green_eq, flat_Acov]
  have := piola_of (W := energyLinear E ν t) (f := f) t (S := Linear.Sij E ν (inv2 (Acov flatS)) (green f)) (by
    simp only [Linear.Sij, Linear.Cval, flat_inv]; simp) (by rw [hg]; exact linear_stress E ν _) (by
    intro f
    have m := Cylinder.mu_eq (E := E) h1 h3
    have c := Cylinder.Cconst_eq hE h1 h2 h3
    simp only [psiLinear, flat_inv]
    simp only [Fin.sum_univ_two, Linear.Sij, Linear.Cval, flat_Acov, energyLinear, c]
    simp
    rw [dot_comm (f 1) (f 0)]
    have k : t * E / (2 * (1 - ν ^ 2)) = t / 2 * (E / (1 - ν ^ 2)) := by
      rw [mul_comm 2, ← div_div]; ring
    rw [k]
    generalize E / (1 - ν ^ 2) = κ at *
    have mm : Linear.mu E ν = (κ - ν * κ) / 2 := by linarith
    rw [mm]
    ring)
  exact this

/-! ## Hyperelastic materials -/

/-- A material whose stress is a tensor. -/
structure Tensorial (M : Planar.Material) : Prop where
  stress : ∀ (P A C : T2) (i j : Fin 2), det2 P ≠ 0 → M.stress (data (co P A) (co P C)) (up i) (up j)
    = contra P (fun a b => M.stress (data A C) (up a) (up b)) i j
  symm : ∀ A C : T2, A 0 1 = A 1 0 → C 0 1 = C 1 0 → M.stress (data A C) 0 1 = M.stress (data A C) 1 0

/-- Stress of a material in the stretched sheet. -/
noncomputable def sheetS (M : Planar.Material) (f : Fin 2 → V3) : T2 := fun i j =>
  M.stress (data ![![1, 0], ![0, 1]] fun i j => dot (f i) (f j)) (up i) (up j)

/-- A rule that integrates constants and linear functions exactly. -/
structure Centred (r : Rule) : Prop where
  total : ∑ j, r.w j = 1
  centre : ∑ j, r.w j * r.ξ j = 0

theorem hyper_uniform {M : Planar.Material} (hM : Tensorial M) {r : Rule} (hr : Centred r) (t : ℝ) (f : Fin 2 → V3) :
    Uniform (lawSection M.law r t) f (fun i j => t * sheetS M f i j) := by
  intro P g1 g2 g3 hP
  have hs : ∀ z, (M.law (Linear.reparam P g1 g2 g3 flatS)).stress z (Gblock (Linear.reparam P g1 g2 g3 (fS f)) z)
      = M.stress (data (co P ![![1, 0], ![0, 1]]) (co P fun i j => dot (f i) (f j))) := by
    intro z
    show M.stress (data (Gblock _ z) (Gblock _ z)) = _
    rw [Gblock_flat, Gblock_fS]; rfl
  set D := data (co P ![![1, 0], ![0, 1]]) (co P fun i j => dot (f i) (f j)) with hD
  have ht : ∀ k, stressV (M.stress D) k = vec (contra P (sheetS M f)) k := by
    have e : ∀ i j, M.stress D (up i) (up j) = contra P (sheetS M f) i j := fun i j => hM.stress P _ _ i j hP
    intro k
    rcases fin3_cases k with rfl | rfl | rfl
    · exact e 0 0
    · exact e 1 1
    · exact e 0 1
  constructor
  · funext k
    show resultant _ r t 0 _ k = _
    simp only [resultant, Integrate.integrateZ, hs, ht]
    have : ∀ k, vec (contra P fun i j => t * sheetS M f i j) k = t * vec (contra P (sheetS M f)) k := by
      intro k
      rcases fin3_cases k with rfl | rfl | rfl <;> simp [vec, contra_smul]
    rw [this]
    have e : ∑ j, r.w j * (r.ξ j * t) ^ 0 * vec (contra P (sheetS M f)) k * t
        = (∑ j, r.w j) * (t * vec (contra P (sheetS M f)) k) := by
      rw [Finset.sum_mul]; refine Finset.sum_congr rfl fun j _ => ?_; ring
    rw [e, hr.total, one_mul]
  · funext k
    show resultant _ r t 1 _ k = _
    simp only [resultant, Integrate.integrateZ, hs, ht]
    have e : ∑ j, r.w j * (r.ξ j * t) ^ 1 * vec (contra P (sheetS M f)) k * t
        = (∑ j, r.w j * r.ξ j) * (t * t * vec (contra P (sheetS M f)) k) := by
      rw [Finset.sum_mul]; refine Finset.sum_congr rfl fun j _ => ?_; ring
    rw [e, hr.centre, zero_mul]

theorem sheetS_symm {M : Planar.Material} (hM : Tensorial M) (t : ℝ) (f : Fin 2 → V3) :
    t * sheetS M f 0 1 = t * sheetS M f 1 0 := by
  rw [sheetS, sheetS, up_zero, up_one, hM.symm _ _ (by simp) (dot_comm _ _)]

theorem neo_tensorial (p : Par) : Tensorial (neo p) where
  stress P A C i j hP := by
    simp only [neo, sNH, J0_co P _ _ hP, Gori_co P _ _ hP, gcon_co P _ _ hP, contra, Fin.sum_univ_two]
    ring
  symm A C hA hC := by
    have hs := data_symm A C hA hC
    simp only [neo, sNH, hs.1 0 1, hs.2 0 1]

theorem mooney_tensorial (p : Par) : Tensorial (mooney p) where
  stress P A C i j hP := by
    simp only [mooney, sMR, J0_co P _ _ hP, Gori_co P _ _ hP, gcon_co P _ _ hP, trace_co P _ _ hP, contra,
      Fin.sum_univ_two]
    ring
  symm A C hA hC := by
    have hs := data_symm A C hA hC
    simp only [mooney, sMR, hs.1 0 1, hs.2 0 1]

theorem neo_piola (p : Par) (t : ℝ) {f : Fin 2 → V3} (hf : area2 f ≠ 0) :
    IsPiola (energyNeo p.mu t) f (tr (fun i j => t * sheetS (neo p) f i j) f) := by
  have hd : ∀ f : Fin 2 → V3, det2 (fun i j => dot (f i) (f j)) = area2 f := by
    intro f; simp only [det2, area2, dot_comm (f 1) (f 0)]; ring
  refine piola_of t ?_ (nh_energy p ![![1, 0], ![0, 1]] _ (by simp [det2]) (by rw [hd]; exact hf)) ?_
  · have := (neo_tensorial p).symm ![![1, 0], ![0, 1]] (fun i j => dot (f i) (f j)) (by simp) (dot_comm _ _)
    exact this
  · intro f
    rw [energyNeo, energyNH, hd]
    simp [Fin.sum_univ_two, inv2, det2, inv1]

theorem mooney_piola (p : Par) (t : ℝ) {f : Fin 2 → V3} (hf : area2 f ≠ 0) :
    IsPiola (energyMooney p.c1 p.c2 t) f (tr (fun i j => t * sheetS (mooney p) f i j) f) := by
  have hd : ∀ f : Fin 2 → V3, det2 (fun i j => dot (f i) (f j)) = area2 f := by
    intro f; simp only [det2, area2, dot_comm (f 1) (f 0)]; ring
  refine piola_of t ?_ (mr_energy p ![![1, 0], ![0, 1]] _ (by simp [det2]) (by rw [hd]; exact hf)) ?_
  · have := (mooney_tensorial p).symm ![![1, 0], ![0, 1]] (fun i j => dot (f i) (f j)) (by simp) (dot_comm _ _)
    exact this
  · intro f
    rw [energyMooney, energyMR, hd]
    simp [Fin.sum_univ_two, inv2, det2, inv1]
    left; ring_nf; exact Or.inl trivial

end Verif.PatchTest
