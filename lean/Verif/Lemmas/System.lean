import Verif.Spec.System
import Verif.Model.System
import Verif.Lemmas.Balance
import Verif.Lemmas.PosDef
import Verif.Props.Linear
import Verif.Props.Composite
import Mathlib.LinearAlgebra.Dimension.LinearMap
import Mathlib.LinearAlgebra.FiniteDimensional.Lemmas
import Mathlib.LinearAlgebra.Dimension.Constructions

/-! # Helper lemmas: the matrix of the linear problem -/

namespace Verif.System

open V3 Verif.Geometry Verif.Variation Verif.Balance Verif.Integrate Spec.System

variable {ι κ : Type}

theorem rateM_eq (s u : Surf) : rateM s u = EmDer s u := by
  funext k; exact (C66_membrane s s u k).deriv

theorem rateB_eq (s u : Surf) (h : Indep (s.a 0) (s.a 1)) : rateB s u = EfDer s u := by
  funext k; exact (C66_bending s s u h k).deriv

/-- The force functional is linear in the coefficients. -/
theorem force_disp [Fintype ι] (s : Surf) (φ : ι → Shape) (x : ι × Fin 3 → ℝ) (N M : Voigt) :
    internalForce s (displacement φ x) N M
      = ∑ p, x p * internalForce s (dofField φ p) N M := by
  rw [displacement, ← force_sum, Fintype.sum_prod_type]
  refine Finset.sum_congr rfl fun i _ => ?_
  rw [dirField_eq, force_add, force_add, force_smul, force_smul, force_smul, Fin.sum_univ_three]
  rfl

theorem EmDer_disp [Fintype ι] (s : Surf) (φ : ι → Shape) (x : ι × Fin 3 → ℝ) (k : Fin 3) :
    EmDer s (displacement φ x) k = ∑ p, x p * EmDer s (dofField φ p) k := by
  have f := force_disp s φ x (fun j => if j = k then 1 else 0) (fun _ => 0)
  have : ∀ u, internalForce s u (fun j => if j = k then 1 else 0) (fun _ => 0) = -EmDer s u k := by
    intro u; simp [internalForce, dotV]
  simp only [this, mul_neg, Finset.sum_neg_distrib, neg_inj] at f
  exact f

theorem EfDer_disp [Fintype ι] (s : Surf) (φ : ι → Shape) (x : ι × Fin 3 → ℝ) (k : Fin 3) :
    EfDer s (displacement φ x) k = ∑ p, x p * EfDer s (dofField φ p) k := by
  have f := force_disp s φ x (fun _ => 0) (fun j => if j = k then 1 else 0)
  have : ∀ u, internalForce s u (fun _ => 0) (fun j => if j = k then 1 else 0) = -EfDer s u k := by
    intro u; simp [internalForce, dotV]
  simp only [this, mul_neg, Finset.sum_neg_distrib, neg_inj] at f
  exact f

/-- Linear stiffness as the work of the forces of the second field on the first. -/
theorem lin_left (s u v : Surf) (S : Section) : linStiffness s u v S.A S.B S.C S.D
    = -internalForce s u (fun i => ∑ j, (S.A i j * EmDer s v j + S.C i j * EfDer s v j))
        (fun i => ∑ j, (S.B i j * EmDer s v j + S.D i j * EfDer s v j)) := by
  simp only [linStiffness, internalForce, dotV, rowMul, Fin.sum_univ_three]; ring

theorem lin_right (s u v : Surf) (S : Section) : linStiffness s u v S.A S.B S.C S.D
    = -internalForce s v (fun j => rowMul (EmDer s u) S.A j + rowMul (EfDer s u) S.B j)
        (fun j => rowMul (EmDer s u) S.C j + rowMul (EfDer s u) S.D j) := by
  simp only [linStiffness, internalForce]; ring

theorem mem_left (s u v : Surf) (S : Section) : dotV (rowMul (EmDer s u) S.A) (EmDer s v)
    = -internalForce s u (fun i => ∑ j, S.A i j * EmDer s v j) (fun _ => 0) := by
  simp only [internalForce, dotV, rowMul, Fin.sum_univ_three]; ring

theorem mem_right (s u v : Surf) (S : Section) : dotV (rowMul (EmDer s u) S.A) (EmDer s v)
    = -internalForce s v (rowMul (EmDer s u) S.A) (fun _ => 0) := by
  simp only [internalForce, dotV, Fin.sum_univ_three]; ring

theorem integrand_left [Fintype ι] (b : Bool) (s v : Surf) (S : Section) (φ : ι → Shape)
    (x : ι × Fin 3 → ℝ) : integrand b s (displacement φ x) v S
      = ∑ p, x p * integrand b s (dofField φ p) v S := by
  cases b
  · simp only [integrand, Bool.false_eq_true, if_false, mem_left, force_disp, ← Finset.sum_neg_distrib]
    exact Finset.sum_congr rfl fun p _ => by ring
  · simp only [integrand, if_true, lin_left, force_disp, ← Finset.sum_neg_distrib]
    exact Finset.sum_congr rfl fun p _ => by ring

theorem integrand_right [Fintype ι] (b : Bool) (s u : Surf) (S : Section) (φ : ι → Shape)
    (x : ι × Fin 3 → ℝ) : integrand b s u (displacement φ x) S
      = ∑ p, x p * integrand b s u (dofField φ p) S := by
  cases b
  · simp only [integrand, Bool.false_eq_true, if_false, mem_right, force_disp, ← Finset.sum_neg_distrib]
    exact Finset.sum_congr rfl fun p _ => by ring
  · simp only [integrand, if_true, lin_right, force_disp, ← Finset.sum_neg_distrib]
    exact Finset.sum_congr rfl fun p _ => by ring

/-- A row of the matrix times a vector. -/
theorem row [Fintype ι] (b : Bool) (Q : Finset κ) (μ : κ → ℝ) (s : κ → Surf) (φ : κ → ι → Shape)
    (S : κ → Section) (x : ι × Fin 3 → ℝ) (p : ι × Fin 3) :
    ∑ p', matrix b Q μ s φ S p p' * x p'
      = ∑ q ∈ Q, integrand b (s q) (dofField (φ q) p) (displacement (φ q) x) (S q) * μ q := by
  simp only [matrix, Finset.sum_mul, integrand_right]
  rw [Finset.sum_comm]
  exact Finset.sum_congr rfl fun q _ => Finset.sum_congr rfl fun p _ => by ring

/-- The bilinear form. -/
theorem bilinear [Fintype ι] (b : Bool) (Q : Finset κ) (μ : κ → ℝ) (s : κ → Surf)
    (φ : κ → ι → Shape) (S : κ → Section) (x y : ι × Fin 3 → ℝ) :
    ∑ p, ∑ p', x p * matrix b Q μ s φ S p p' * y p'
      = ∑ q ∈ Q, integrand b (s q) (displacement (φ q) x) (displacement (φ q) y) (S q) * μ q := by
  have h : ∀ p, ∑ p', x p * matrix b Q μ s φ S p p' * y p'
      = x p * ∑ q ∈ Q, integrand b (s q) (dofField (φ q) p) (displacement (φ q) y) (S q) * μ q := by
    intro p
    rw [← row, Finset.mul_sum]
    exact Finset.sum_congr rfl fun _ _ => by ring
  simp only [h, integrand_left, Finset.sum_mul, Finset.mul_sum]
  rw [Finset.sum_comm]
  exact Finset.sum_congr rfl fun q _ => Finset.sum_congr rfl fun p _ => by ring

theorem integrand_self (s u : Surf) (S : Section) :
    integrand true s u u S = density S (EmDer s u) (EfDer s u) := by
  simp only [integrand, if_true, linStiffness, density, dotV, rowMul, Fin.sum_univ_three]; ring

theorem integrand_symm (s u v : Surf) (S : Section) (h : Symmetric S) :
    integrand true s u v S = integrand true s v u S := by
  obtain ⟨hA, hD, hC⟩ := h
  simp only [integrand, if_true, linStiffness, dotV, rowMul, Fin.sum_univ_three, hC, hA 1 0, hA 2 0,
    hA 2 1, hD 1 0, hD 2 0, hD 2 1]
  ring

theorem density_nonneg {S : Section} (h : Definite S) (e k : Voigt) : 0 ≤ density S e k := by
  by_cases h0 : e = 0 ∧ k = 0
  · simp [density, h0.1, h0.2]
  · exact (h.2 e k h0).le

theorem density_zero {S : Section} (h : Definite S) {e k : Voigt} (hz : density S e k = 0) :
    e = 0 ∧ k = 0 := by
  by_contra h0
  exact (h.2 e k h0).ne' hz

/-! ## Null vectors and solvability -/

section Null

variable [Fintype ι] {Q : Finset κ} {μ : κ → ℝ} {s : κ → Surf} {φ : κ → ι → Shape} {S : κ → Section}

theorem free_iff (hs : ∀ q ∈ Q, Indep ((s q).a 0) ((s q).a 1)) (x : ι × Fin 3 → ℝ) :
    StrainFree Q s φ x ↔ ∀ q ∈ Q, EmDer (s q) (displacement (φ q) x) = 0 ∧
      EfDer (s q) (displacement (φ q) x) = 0 := by
  unfold StrainFree
  refine forall₂_congr fun q hq => ?_
  rw [rateM_eq, rateB_eq _ _ (hs q hq), funext_iff, funext_iff]
  rfl

theorem form_zero (hμ : ∀ q ∈ Q, 0 < μ q) (hs : ∀ q ∈ Q, Indep ((s q).a 0) ((s q).a 1))
    (hS : ∀ q ∈ Q, Definite (S q)) (x : ι × Fin 3 → ℝ) :
    (∑ p, ∑ p', x p * matrix true Q μ s φ S p p' * x p' = 0) ↔ StrainFree Q s φ x := by
  rw [bilinear, free_iff hs, Finset.sum_eq_zero_iff_of_nonneg]
  · refine forall₂_congr fun q hq => ?_
    rw [integrand_self]
    constructor
    · intro h
      exact density_zero (hS q hq) ((mul_eq_zero.1 h).resolve_right (hμ q hq).ne')
    · rintro ⟨h1, h2⟩
      simp [density, h1, h2]
  · intro q hq
    rw [integrand_self]
    exact mul_nonneg (density_nonneg (hS q hq) _ _) (hμ q hq).le

theorem row_zero (hs : ∀ q ∈ Q, Indep ((s q).a 0) ((s q).a 1)) {x : ι × Fin 3 → ℝ}
    (h : StrainFree Q s φ x) (p : ι × Fin 3) : ∑ p', matrix true Q μ s φ S p p' * x p' = 0 := by
  rw [row]
  refine Finset.sum_eq_zero fun q hq => ?_
  obtain ⟨h1, h2⟩ := (free_iff hs x).1 h q hq
  simp [integrand, linStiffness, dotV, h1, h2]

end Null

/-- The coefficients of the free degrees of freedom, extended by zero. -/
noncomputable def extend (free : ι × Fin 3 → Prop) (y : {p // free p} → ℝ) : ι × Fin 3 → ℝ :=
  open Classical in fun p => if h : free p then y ⟨p, h⟩ else 0

theorem extend_supported (free : ι × Fin 3 → Prop) (y : {p // free p} → ℝ) :
    Supported free (extend free y) := fun p hp => by simp [extend, hp]

theorem extend_apply (free : ι × Fin 3 → Prop) (y : {p // free p} → ℝ) (p : {p // free p}) :
    extend free y p = y p := by simp [extend, p.2]

theorem extend_restrict (free : ι × Fin 3 → Prop) (x : ι × Fin 3 → ℝ) (hx : Supported free x) :
    extend free (fun p => x p) = x := by
  funext p
  by_cases h : free p
  · simp [extend, h]
  · simp [extend, h, hx p h]

theorem extend_add (free : ι × Fin 3 → Prop) (y z : {p // free p} → ℝ) (p : ι × Fin 3) :
    extend free (y + z) p = extend free y p + extend free z p := by
  by_cases h : free p <;> simp [extend, h]

theorem extend_smul (free : ι × Fin 3 → Prop) (c : ℝ) (y : {p // free p} → ℝ) (p : ι × Fin 3) :
    extend free (c • y) p = c * extend free y p := by
  by_cases h : free p <;> simp [extend, h]

/-- All strains at all points as a linear map of the free coefficients. -/
noncomputable def strains [Fintype ι] (Q : Finset κ) (s : κ → Surf) (φ : κ → ι → Shape)
    (free : ι × Fin 3 → Prop) : ({p // free p} → ℝ) →ₗ[ℝ] (Q × (Fin 3 ⊕ Fin 3) → ℝ) where
  toFun y a := match a.2 with
    | .inl k => EmDer (s a.1) (displacement (φ a.1) (extend free y)) k
    | .inr k => EfDer (s a.1) (displacement (φ a.1) (extend free y)) k
  map_add' y z := by
    funext ⟨q, k⟩
    cases k <;> simp [EmDer_disp, EfDer_disp, extend_add, add_mul, Finset.sum_add_distrib]
  map_smul' c y := by
    funext ⟨q, k⟩
    cases k <;> simp [EmDer_disp, EfDer_disp, extend_smul, mul_assoc, Finset.mul_sum]

/-- The matrix of the free degrees of freedom as a linear map. -/
noncomputable def reduced [Fintype ι] (K : ι × Fin 3 → ι × Fin 3 → ℝ) (free : ι × Fin 3 → Prop) :
    ({p // free p} → ℝ) →ₗ[ℝ] ({p // free p} → ℝ) where
  toFun y p := ∑ p', K p p' * extend free y p'
  map_add' y z := by
    funext p
    simp only [Pi.add_apply, ← Finset.sum_add_distrib]
    refine Finset.sum_congr rfl fun p' _ => ?_
    by_cases h : free p' <;> simp [extend, h]; ring
  map_smul' c y := by
    funext p
    simp only [Pi.smul_apply, smul_eq_mul, Finset.mul_sum, RingHom.id_apply]
    refine Finset.sum_congr rfl fun p' _ => ?_
    by_cases h : free p' <;> simp [extend, h]; ring

/-- Solvability for all loads means that the homogeneous system has only the zero solution. -/
theorem wellPosed_iff [Finite ι] [Fintype ι] (K : ι × Fin 3 → ι × Fin 3 → ℝ)
    (free : ι × Fin 3 → Prop) :
    WellPosed K free ↔ ∀ x, Supported free x → (∀ p, free p → ∑ p', K p p' * x p' = 0) → x = 0 := by
  classical
  constructor
  · intro h x hx h0
    have hz : Solves K free (fun _ => 0) 0 := ⟨fun _ _ => rfl, fun p _ => by simp⟩
    exact (h fun _ => 0).unique ⟨hx, h0⟩ hz
  · intro h b
    have hinj : Function.Injective (reduced K free) := by
      rw [← LinearMap.ker_eq_bot, LinearMap.ker_eq_bot']
      intro y hy
      have : extend free y = 0 := by
        refine h _ (extend_supported free y) fun p hp => ?_
        exact congrFun hy ⟨p, hp⟩
      funext p
      rw [← extend_apply free y p, this]; rfl
    obtain ⟨y, hy⟩ := (LinearMap.injective_iff_surjective.1 hinj) fun p => b p
    refine ⟨extend free y, ⟨extend_supported free y, fun p hp => congrFun hy ⟨p, hp⟩⟩, ?_⟩
    rintro x ⟨hx, hx'⟩
    have : reduced K free (fun p => x p) = reduced K free y := by
      rw [hy]; funext p
      show ∑ p', K p p' * extend free (fun p => x p) p' = b p
      rw [extend_restrict free x hx, hx' p p.2]
    rw [← hinj this, extend_restrict free x hx]

end Verif.System
