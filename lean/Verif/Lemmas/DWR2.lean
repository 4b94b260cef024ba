import Verif.Lemmas.DWR
import Verif.Model.Transform

/-! # Helper lemmas: pointwise derivatives of the goals, linear material, principal directions -/

set_option linter.unusedSimpArgs false

namespace Verif.DWR

open V3 Verif.Geometry Verif.Variation

/-- Cases in which the coded dual uses the variation of the quantity itself. -/
def Regular (R : Region) (g : Goal) (c : ℕ) : Prop :=
  (g = .membraneForce → c = 9 ∨ R = .domain) ∧ (g = .flexuralStrain → c ≠ 9 ∨ ∀ d, R ≠ .boundary d)

theorem dualAt_regular (R : Region) (g : Goal) (hg : Direct g) (c : ℕ) (hc : Comp3 c) (p : Pt)
    (v : Fld) (hr : Regular R g c) (hd : IsDisplacement p) :
    dualAt R g c p v = selectDer c (R.meas p.ori) (quantity p g) (quantityDer p v g) := by
  cases g with
  | displacement => simp only [dualAt, quantity, quantityDer]; rw [hd]
  | membraneForce =>
    simp only [dualAt, forceDual, quantity, quantityDer, selectDer]
    by_cases h9 : c = 9
    · simp [h9]
    · have h3 := hc.resolve_left h9
      have hR := (hr.1 rfl).resolve_left h9
      subst hR
      simp [h9, h3]
  | flexuralStrain =>
    simp only [dualAt, flexDual, quantity, quantityDer]
    cases R with
    | boundary d =>
      have h9 : c ≠ 9 := (hr.2 rfl).resolve_right fun h => h d rfl
      simp [h9]
    | _ => rfl
  | stretch => exact absurd hg id
  | pstrain => exact absurd hg id
  | pstress => exact absurd hg id
  | modal => exact absurd hg id
  | buckling => exact absurd hg id
  | _ => rfl

theorem goalAt_direct (R : Region) (g : Goal) (hg : Direct g) (c : ℕ) (p : Pt) :
    goalAt R g c p = select c (R.meas p.ori) (quantity p g) := by
  cases g with
  | stretch => exact absurd hg id
  | pstrain => exact absurd hg id
  | pstress => exact absurd hg id
  | modal => exact absurd hg id
  | buckling => exact absurd hg id
  | _ => rfl

/-- Pointwise statement for the goals without principal directions. -/
theorem direct_at (R : Region) (g : Goal) (hg : Direct g) (c : ℕ) (hc : Comp3 c)
    (hr : Regular R g c) (P : ℝ → Pt) (v : Fld) (hm : Moves P v) (ht : Tangent P)
    (hd : IsDisplacement (P 0)) :
    IsDerivative (fun t => goalAt R g c (P t)) (dualAt R g c (P 0) v) := by
  rw [dualAt_regular R g hg c hc _ v hr hd]
  have hgo : (fun t => goalAt R g c (P t)) =
      fun t => select c (R.meas (P t).ori) (quantity (P t) g) :=
    funext fun t => goalAt_direct R g hg c (P t)
  rw [hgo]
  obtain ⟨h1, h2, h3, h4⟩ := ht.stress hm
  refine isDerivative_select c hc (fun t => R.meas (P t).ori) (hm.meas_eq R)
    (fun t => quantity (P t) g) _ _ rfl fun i => ?_
  cases g with
  | displacement => exact hm.position i
  | membraneStrain => exact hm.membrane i
  | membraneStress => exact h1 i
  | membraneForce => exact h3 i
  | flexuralStrain => exact hm.bending i
  | flexuralStress => exact h2 i
  | flexuralMoment => exact h4 i
  | stretch => exact absurd hg id
  | pstrain => exact absurd hg id
  | pstress => exact absurd hg id
  | modal => exact absurd hg id
  | buckling => exact absurd hg id

theorem displaced_moves (p : Pt) (v : Fld) (h : Indep (p.defo.a 0) (p.defo.a 1)) :
    Moves (displaced p v) v := by
  refine ⟨fun _ => rfl, fun _ => rfl, fun t => ?_, fun t => ?_, ?_⟩
  · ext <;> simp [displaced]
  · simp [displaced, shift_zero]
  · simpa [displaced, shift_zero] using h

theorem lin_moves (E ν τ : ℝ) (p : Pt) (v : Fld) (h : Indep (p.defo.a 0) (p.defo.a 1)) :
    Moves (fun t => linState E ν τ (displaced p v t)) v :=
  have := displaced_moves p v h
  ⟨this.ori, this.X, this.x, this.defo, this.indep⟩

theorem Acon_symm (s : Surf) (i j : Fin 2) : Acon s i j = Acon s j i := by
  have h := Acov_symm s 0 1
  rcases fin2_cases i with rfl | rfl <;> rcases fin2_cases j with rfl | rfl <;>
    simp [Acon, inv2, h]

/-- Voigt form of a membrane strain. -/
theorem voigt_membrane (ori s : Surf) :
    vec3 (Geometry.membraneStrain ori s 0 0) (Geometry.membraneStrain ori s 1 1)
      (Geometry.membraneStrain ori s 0 1 + Geometry.membraneStrain ori s 1 0) =
      voigtMembrane ori s := by
  funext k
  rcases fin3_cases k with rfl | rfl | rfl <;>
    simp [Geometry.membraneStrain, voigtMembrane, Acov, dot] <;> ring

/-- Voigt form of a bending strain. -/
theorem voigt_bending (ori s : Surf) :
    vec3 (Geometry.bendingStrain ori s 0 0) (Geometry.bendingStrain ori s 1 1)
      (Geometry.bendingStrain ori s 0 1 + Geometry.bendingStrain ori s 1 0) =
      voigtBending ori s := by
  funext k
  rcases fin3_cases k with rfl | rfl | rfl <;>
    simp [Geometry.bendingStrain, voigtBending, Bcov, normal, unitNormal, normalized, V3.norm]
  ring

theorem lin_S0 (E ν : ℝ) (ori s : Surf) (i : Fin 3) :
    Linear.stress E ν (Acon ori) (Geometry.membraneStrain ori s) i =
      ∑ j, Linear.matrix E ν (Acon ori) i j * voigtMembrane ori s j := by
  rw [Linear.C18_stress_is_matrix_times_strain E ν (Acon ori) _ (Acon_symm ori)
    (by simp only [Geometry.membraneStrain, Acov_symm ori 0 1, Acov_symm s 0 1]) i,
    voigt_membrane]
  rfl

theorem lin_S1 (E ν : ℝ) (ori s : Surf) (i : Fin 3) :
    Linear.stress E ν (Acon ori) (Geometry.bendingStrain ori s) i =
      ∑ j, Linear.matrix E ν (Acon ori) i j * voigtBending ori s j := by
  rw [Linear.C18_stress_is_matrix_times_strain E ν (Acon ori) _ (Acon_symm ori)
    (by simp [Geometry.bendingStrain, Bcov]) i, voigt_bending]
  rfl

theorem lin_tangent (E ν τ : ℝ) (p : Pt) (v : Fld) (h : Indep (p.defo.a 0) (p.defo.a 1)) :
    Tangent (fun t => linState E ν τ (displaced p v t)) := by
  have hm := lin_moves E ν τ p v h
  have hE : ∀ i, HasDerivAt (fun t => voigtMembrane p.ori (shift p.defo v.d t) i)
      (EmDer p.defo v.d i) 0 := C66_membrane p.ori p.defo v.d
  have hK : ∀ i, HasDerivAt (fun t => voigtBending p.ori (shift p.defo v.d t) i)
      (EfDer p.defo v.d i) 0 := C66_bending p.ori p.defo v.d h
  have sE : ∀ (c : ℝ) (i : Fin 3), HasDerivAt (fun t => c * Linear.stress E ν (Acon p.ori)
      (Geometry.membraneStrain p.ori (shift p.defo v.d t)) i)
      (c * ∑ j, Linear.matrix E ν (Acon p.ori) i j * EmDer p.defo v.d j) 0 := by
    intro c i
    simp only [lin_S0]
    exact (HasDerivAt.fun_sum (u := Finset.univ) fun j _ => (hE j).const_mul _).const_mul c
  have sK : ∀ (c : ℝ) (i : Fin 3), HasDerivAt (fun t => c * Linear.stress E ν (Acon p.ori)
      (Geometry.bendingStrain p.ori (shift p.defo v.d t)) i)
      (c * ∑ j, Linear.matrix E ν (Acon p.ori) i j * EfDer p.defo v.d j) 0 := by
    intro c i
    simp only [lin_S1]
    exact (HasDerivAt.fun_sum (u := Finset.univ) fun j _ => (hK j).const_mul _).const_mul c
  refine ⟨⟨EmDer p.defo v.d, EfDer p.defo v.d, hE, hK, fun i => ?_, fun i => ?_, fun i => ?_,
    fun i => ?_⟩, fun i j => ?_, fun i j => ?_, fun i j => ?_, fun i j => ?_, fun i j => rfl⟩
  · have := sE 1 i
    simp only [one_mul] at this
    exact this
  · have := sK 1 i
    simp only [one_mul] at this
    exact this
  · refine (sE τ i).congr_deriv ?_
    simp only [linState, displaced, Finset.mul_sum]
    exact Finset.sum_congr rfl fun j _ => by ring
  · refine (sK (τ ^ 3 / 12) i).congr_deriv ?_
    simp only [linState, displaced, Finset.mul_sum]
    exact Finset.sum_congr rfl fun j _ => by ring
  · exact Linear.C18_matrix_symmetric E ν _ i j
  · exact Linear.C18_matrix_symmetric E ν _ i j
  · simp only [linState]; rw [Linear.C18_matrix_symmetric E ν _ i j]
  · simp only [linState]; rw [Linear.C18_matrix_symmetric E ν _ i j]

theorem covBasis_zero (s : Surf) : Transform.covBasis s 0 = s.a := by
  funext i
  rcases fin2_cases i with rfl | rfl <;> ext <;> simp [Transform.covBasis, gcov]

theorem Orthonormal.Acon {s : Surf} (h : Orthonormal s) :
    Acon s 0 0 = 1 ∧ Acon s 0 1 = 0 ∧ Acon s 1 0 = 0 ∧ Acon s 1 1 = 1 := by
  obtain ⟨h0, h1, h2⟩ := h
  have h3 : dot (s.a 1) (s.a 0) = 0 := by rw [dot_comm]; exact h2
  refine ⟨?_, ?_, ?_, ?_⟩ <;> simp [Geometry.Acon, inv2, det2, Acov, h0, h1, h2, h3]

theorem Orthonormal.acon {s : Surf} (h : Orthonormal s) (i : Fin 2) : acon s i = s.a i := by
  obtain ⟨h0, h1, h2, h3⟩ := h.Acon
  rcases fin2_cases i with rfl | rfl <;> ext <;> simp [Geometry.acon, h0, h1, h2, h3]

/-- Products of tangent vectors in an orthonormal basis. -/
theorem Orthonormal.dot_tangent {s : Surf} (h : Orthonormal s) {n m : V3}
    (hn : dot n (cross (s.a 0) (s.a 1)) = 0) :
    dot n m = dot n (s.a 0) * dot m (s.a 0) + dot n (s.a 1) * dot m (s.a 1) := by
  obtain ⟨h0, h1, h2⟩ := h
  have key : dot n m * (dot (s.a 0) (s.a 0) * dot (s.a 1) (s.a 1) - dot (s.a 0) (s.a 1) ^ 2) =
      dot n (cross (s.a 0) (s.a 1)) * dot m (cross (s.a 0) (s.a 1))
      + dot n (s.a 1) * dot m (s.a 1) * dot (s.a 0) (s.a 0)
      - (dot n (s.a 0) * dot m (s.a 1) + dot m (s.a 0) * dot n (s.a 1)) * dot (s.a 0) (s.a 1)
      + dot n (s.a 0) * dot m (s.a 0) * dot (s.a 1) (s.a 1) := by
    simp only [dot, cross]; ring
  rw [h0, h1, h2, hn] at key
  linarith

/-- Coordinates of principal directions. -/
theorem Principal.coords {s : Surf} {C : T2} {n : Fin 2 → V3} {l : Fin 2 → ℝ}
    (h : Principal s C n l) (ho : Orthonormal s) :
    (∀ i j, dot (n i) (s.a 0) * dot (n j) (s.a 0) + dot (n i) (s.a 1) * dot (n j) (s.a 1) =
      if i = j then 1 else 0) ∧
    (∀ i, C 0 0 * dot (n i) (s.a 0) + C 0 1 * dot (n i) (s.a 1) = l i * dot (n i) (s.a 0)) ∧
    (∀ i, C 1 0 * dot (n i) (s.a 0) + C 1 1 * dot (n i) (s.a 1) = l i * dot (n i) (s.a 1)) := by
  obtain ⟨h1, h2, h3⟩ := h
  have hT : dot (s.a 1) (s.a 0) = 0 := by rw [dot_comm]; exact ho.2.2
  refine ⟨fun i j => ?_, fun i => ?_, fun i => ?_⟩
  · rw [← h1 i j]; exact (ho.dot_tangent (h2 i)).symm
  · have := congrArg (fun w => dot w (s.a 0)) (h3 i)
    simp only [dot_add_left, dot_smul_left, ho.acon, ho.1, hT, dot_comm (s.a 0) (n i),
      dot_comm (s.a 1) (n i)] at this
    linarith
  · have := congrArg (fun w => dot w (s.a 1)) (h3 i)
    simp only [dot_add_left, dot_smul_left, ho.acon, ho.2.1, ho.2.2, dot_comm (s.a 0) (n i),
      dot_comm (s.a 1) (n i)] at this
    linarith

/-- The derivative of a principal value does not involve the derivative of the direction. -/
theorem principal_value_deriv {a b c0 c1 c2 : ℝ → ℝ} {a' b' c0' c1' c2' l : ℝ}
    (ha : HasDerivAt a a' 0) (hb : HasDerivAt b b' 0) (h0 : HasDerivAt c0 c0' 0)
    (h1 : HasDerivAt c1 c1' 0) (h2 : HasDerivAt c2 c2' 0) (hu : ∀ t, a t * a t + b t * b t = 1)
    (e0 : c0 0 * a 0 + c2 0 * b 0 = l * a 0) (e1 : c2 0 * a 0 + c1 0 * b 0 = l * b 0) :
    HasDerivAt (fun t => a t * a t * c0 t + b t * b t * c1 t + 2 * (a t * b t) * c2 t)
      (a 0 * a 0 * c0' + b 0 * b 0 * c1' + 2 * (a 0 * b 0) * c2') 0 := by
  have hz : a 0 * a' + b 0 * b' = 0 := by
    have hd := (ha.mul ha).add (hb.mul hb)
    have hc : HasDerivAt (fun t => a t * a t + b t * b t) 0 0 := by
      have : (fun t => a t * a t + b t * b t) = fun _ => (1 : ℝ) := funext hu
      rw [this]; exact hasDerivAt_const _ _
    have := hd.unique hc
    linarith
  refine ((((ha.mul ha).mul h0).add ((hb.mul hb).mul h1)).add
    (((ha.mul hb).const_mul 2).mul h2)).congr_deriv ?_
  simp only [Pi.mul_apply]
  linear_combination 2 * a' * e0 + 2 * b' * e1 + 2 * l * hz

theorem Moves.cm {P : ℝ → Pt} {v : Fld} (h : Moves P v) (i : Fin 3) :
    HasDerivAt (fun t => Cm (P t).defo i) (CmDer (P 0).defo v.d i) 0 := by
  have key : ∀ t, Cm (P t).defo i =
      2 * half3 (Em (P t).ori (P t).defo) i + half3 (flat (Acov (P 0).ori)) i := by
    intro t
    rw [h.ori t]
    rcases fin3_cases i with rfl | rfl | rfl <;> simp [Cm, half3, Em] <;> ring
  have h3 : HasDerivAt (fun t => half3 (Em (P t).ori (P t).defo) i)
      (half3 (EmDer (P 0).defo v.d) i) 0 := by
    rcases fin3_cases i with rfl | rfl | rfl
    · exact h.membrane 0
    · exact h.membrane 1
    · exact (h.membrane 2).const_mul 0.5
  exact ((h3.const_mul 2).add_const _).congr_of_eventuallyEq (Filter.Eventually.of_forall key)

/-- Entries of the transformed deformation tensor. -/
theorem lam_entries (p : Pt) (o : Surf) (n : Fin 2 → V3)
    (hT : p.T = Transform.spec2con o 0 n) :
    (lam p 0 = dot (n 0) (o.a 0) * dot (n 0) (o.a 0) * Cm p.defo 0
      + dot (n 0) (o.a 1) * dot (n 0) (o.a 1) * Cm p.defo 1
      + 2 * (dot (n 0) (o.a 0) * dot (n 0) (o.a 1)) * Cm p.defo 2) ∧
    (lam p 1 = dot (n 1) (o.a 0) * dot (n 1) (o.a 0) * Cm p.defo 0
      + dot (n 1) (o.a 1) * dot (n 1) (o.a 1) * Cm p.defo 1
      + 2 * (dot (n 1) (o.a 0) * dot (n 1) (o.a 1)) * Cm p.defo 2) ∧
    (lam p 2 = dot (n 1) (o.a 0) * dot (n 0) (o.a 0) * Cm p.defo 0
      + dot (n 0) (o.a 1) * dot (n 1) (o.a 1) * Cm p.defo 1
      + (dot (n 0) (o.a 1) * dot (n 1) (o.a 0) + dot (n 0) (o.a 0) * dot (n 1) (o.a 1))
        * Cm p.defo 2) := by
  refine ⟨?_, ?_, ?_⟩ <;>
    simp only [lam, hT, mulVec3, Transform.spec2con, Transform.transformation, covBasis_zero,
      Fin.sum_univ_three] <;> simp [mk3] <;> ring

theorem lamDer_entries (p : Pt) (v : Fld) (o : Surf) (n : Fin 2 → V3)
    (hT : p.T = Transform.spec2con o 0 n) :
    (lamDer p v 0 = dot (n 0) (o.a 0) * dot (n 0) (o.a 0) * CmDer p.defo v.d 0
      + dot (n 0) (o.a 1) * dot (n 0) (o.a 1) * CmDer p.defo v.d 1
      + 2 * (dot (n 0) (o.a 0) * dot (n 0) (o.a 1)) * CmDer p.defo v.d 2) ∧
    (lamDer p v 1 = dot (n 1) (o.a 0) * dot (n 1) (o.a 0) * CmDer p.defo v.d 0
      + dot (n 1) (o.a 1) * dot (n 1) (o.a 1) * CmDer p.defo v.d 1
      + 2 * (dot (n 1) (o.a 0) * dot (n 1) (o.a 1)) * CmDer p.defo v.d 2) := by
  refine ⟨?_, ?_⟩ <;>
    simp only [lamDer, hT, mulVec3, Transform.spec2con, Transform.transformation, covBasis_zero,
      Fin.sum_univ_three] <;> simp [mk3] <;> ring

/-- The principal strains are half the stretch values minus one. -/
theorem Emp_entries (p : Pt) (i : Fin 3) :
    Emp p i = 0.5 * (lam p i - mulVec3 p.T (Cm p.ori) i) := by
  simp only [Emp, lam, mulVec3, Fin.sum_univ_three]
  simp [half3, Em, Cm]
  ring

theorem EmpDer_entries (p : Pt) (v : Fld) (i : Fin 3) : EmpDer p v i = 0.5 * lamDer p v i := by
  simp only [EmpDer, lamDer, mulVec3, Fin.sum_univ_three, CmDer]
  ring

/-- What a principal motion gives for the stretch values. -/
theorem PrincipalMotion.values {P : ℝ → Pt} {v : Fld} (h : PrincipalMotion P v) :
    HasDerivAt (fun t => lam (P t) 0) (lamDer (P 0) v 0) 0 ∧
    HasDerivAt (fun t => lam (P t) 1) (lamDer (P 0) v 1) 0 ∧
    (∀ t, lam (P t) 2 = 0) ∧
    (∀ t, mulVec3 (P t).T (Cm (P t).ori) 0 = 1 ∧ mulVec3 (P t).T (Cm (P t).ori) 1 = 1 ∧
      mulVec3 (P t).T (Cm (P t).ori) 2 = 0) := by
  obtain ⟨hm, ho, n, l, hT, hP, hd⟩ := h
  have hc := fun t => (hP t).coords ho
  have hC0 : ∀ t, Acov (P t).defo 0 0 = Cm (P t).defo 0 := fun t => by simp [Cm, half3, flat]
  have hC1 : ∀ t, Acov (P t).defo 1 1 = Cm (P t).defo 1 := fun t => by simp [Cm, half3, flat]
  have hC2 : ∀ t, Acov (P t).defo 0 1 = Cm (P t).defo 2 := fun t => by
    simp [Cm, half3, flat, Acov_symm (P t).defo 1 0]; ring
  have hC3 : ∀ t, Acov (P t).defo 1 0 = Cm (P t).defo 2 := fun t => by
    rw [Acov_symm, hC2]
  have hn : ∀ i j, HasDerivAt (fun t => dot (n t i) ((P 0).ori.a j))
      (dot (Classical.choose (hd i)) ((P 0).ori.a j)) 0 := fun i j =>
    (Classical.choose_spec (hd i)).dot_const _
  have hval : ∀ i : Fin 2, HasDerivAt (fun t =>
      dot (n t i) ((P 0).ori.a 0) * dot (n t i) ((P 0).ori.a 0) * Cm (P t).defo 0
      + dot (n t i) ((P 0).ori.a 1) * dot (n t i) ((P 0).ori.a 1) * Cm (P t).defo 1
      + 2 * (dot (n t i) ((P 0).ori.a 0) * dot (n t i) ((P 0).ori.a 1)) * Cm (P t).defo 2) _ 0 :=
    fun i => principal_value_deriv (l := l 0 i) (hn i 0) (hn i 1) (hm.cm 0) (hm.cm 1) (hm.cm 2)
      (fun t => by have := (hc t).1 i i; simpa using this)
      (by have := (hc 0).2.1 i; rw [hC0, hC2] at this; exact this)
      (by have := (hc 0).2.2 i; rw [hC3, hC1] at this; exact this)
  refine ⟨?_, ?_, fun t => ?_, fun t => ?_⟩
  · refine ((hval 0).congr_of_eventuallyEq (Filter.Eventually.of_forall fun t => ?_)).congr_deriv ?_
    · exact (lam_entries (P t) (P 0).ori (n t) (hT t)).1
    · exact (lamDer_entries (P 0) v (P 0).ori (n 0) (hT 0)).1.symm
  · refine ((hval 1).congr_of_eventuallyEq (Filter.Eventually.of_forall fun t => ?_)).congr_deriv ?_
    · exact (lam_entries (P t) (P 0).ori (n t) (hT t)).2.1
    · exact (lamDer_entries (P 0) v (P 0).ori (n 0) (hT 0)).2.symm
  · rw [(lam_entries (P t) (P 0).ori (n t) (hT t)).2.2]
    have e0 := (hc t).2.1 0
    have e1 := (hc t).2.2 0
    have o := (hc t).1 0 1
    rw [hC0, hC2] at e0
    rw [hC3, hC1] at e1
    simp only [Fin.isValue, zero_ne_one, if_false] at o
    linear_combination dot (n t 1) ((P 0).ori.a 0) * e0 + dot (n t 1) ((P 0).ori.a 1) * e1
      + l t 0 * o
  · have a0 : Cm (P t).ori 0 = 1 := by rw [hm.ori t]; simpa [Cm, half3, flat, Acov] using ho.1
    have a1 : Cm (P t).ori 1 = 1 := by rw [hm.ori t]; simpa [Cm, half3, flat, Acov] using ho.2.1
    have a2 : Cm (P t).ori 2 = 0 := by
      rw [hm.ori t]
      have := ho.2.2
      simp [Cm, half3, flat, Acov, this, dot_comm ((P 0).ori.a 1)]
    have u0 := (hc t).1 0 0
    have u1 := (hc t).1 1 1
    have o := (hc t).1 0 1
    simp only [Fin.isValue, zero_ne_one, if_false, if_true] at u0 u1 o
    refine ⟨?_, ?_, ?_⟩ <;>
      simp only [hT t, mulVec3, Transform.spec2con, Transform.transformation, covBasis_zero,
        Fin.sum_univ_three, a0, a1, a2] <;> simp [mk3]
    · linear_combination u0
    · linear_combination u1
    · linear_combination o

/-- Refutation of a derivative claim. -/
theorem not_isDerivative {J : ℝ → Outcome ℝ} {f : ℝ → ℝ} {d d' : ℝ} (hJ : ∀ t, J t = .ok (f t))
    (hf : HasDerivAt f d' 0) (hne : d ≠ d') : ¬ IsDerivative J (.ok d) := by
  rintro ⟨g, e, hg, he, hge⟩
  have : g = f := funext fun t => by
    have := (hg t).symm.trans (hJ t)
    exact Outcome.ok.inj this
  subst this
  cases he
  exact hne (hge.unique hf)

end Verif.DWR
