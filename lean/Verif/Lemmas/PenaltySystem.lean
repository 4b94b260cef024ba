import Verif.Spec.PenaltySystem
import Verif.Lemmas.PenaltyLimit
import Verif.Lemmas.WeakCoupling
import Verif.Lemmas.System

/-! # Helper lemmas: systems with weak conditions -/

namespace Verif.PenaltySystem

open V3 Verif.Geometry Verif.Variation Verif.Balance Verif.WeakForms Verif.System
open Verif.Spec.System Verif.Spec.PenaltySystem

variable {ι κ : Type} [Fintype ι]

/-! ## Matrices as bilinear forms -/

/-- Coefficient vectors. -/
abbrev Coef (ι : Type) := ι × Fin 3 → ℝ

/-- Work of `K x` on `v`. -/
def bil (K : ι × Fin 3 → ι × Fin 3 → ℝ) : Coef ι →ₗ[ℝ] Coef ι →ₗ[ℝ] ℝ :=
  LinearMap.mk₂ ℝ (fun x v => ∑ p, v p * ∑ p', K p p' * x p')
    (fun x y v => by
      simp only [Pi.add_apply, mul_add, Finset.sum_add_distrib])
    (fun c x v => by
      simp only [Pi.smul_apply, smul_eq_mul, Finset.mul_sum]
      exact Finset.sum_congr rfl fun p _ => Finset.sum_congr rfl fun p' _ => by ring)
    (fun x v w => by
      simp only [Pi.add_apply, add_mul, Finset.sum_add_distrib])
    (fun c x v => by
      simp only [Pi.smul_apply, smul_eq_mul, Finset.mul_sum]
      exact Finset.sum_congr rfl fun p _ => Finset.sum_congr rfl fun p' _ => by ring)

theorem bil_apply (K : ι × Fin 3 → ι × Fin 3 → ℝ) (x v : Coef ι) :
    bil K x v = ∑ p, v p * ∑ p', K p p' * x p' := rfl

theorem bil_form (K : ι × Fin 3 → ι × Fin 3 → ℝ) (x : Coef ι) : bil K x x = form K x := by
  simp only [bil_apply, form, Finset.mul_sum]
  exact Finset.sum_congr rfl fun p _ => Finset.sum_congr rfl fun p' _ => by ring

theorem bil_add (K P : ι × Fin 3 → ι × Fin 3 → ℝ) (τ : ℝ) (x v : Coef ι) :
    bil (fun p p' => K p p' + τ * P p p') x v = bil K x v + τ * bil P x v := by
  simp only [bil_apply, add_mul, Finset.sum_add_distrib, mul_add, Finset.mul_sum]
  congr 1
  exact Finset.sum_congr rfl fun p _ => Finset.sum_congr rfl fun p' _ => by ring

theorem bil_sum (K P : ι × Fin 3 → ι × Fin 3 → ℝ) (x v : Coef ι) :
    bil (fun p p' => K p p' + P p p') x v = bil K x v + bil P x v := by
  simpa using bil_add K P 1 x v

theorem bil_mul (P : ι × Fin 3 → ι × Fin 3 → ℝ) (τ : ℝ) (x v : Coef ι) :
    bil (fun p p' => τ * P p p') x v = τ * bil P x v := by
  have h := bil_add (fun _ _ => 0) P τ x v
  simpa [bil_apply] using h

theorem bil_symm {K : ι × Fin 3 → ι × Fin 3 → ℝ} (h : ∀ p p', K p p' = K p' p) (x v : Coef ι) :
    bil K x v = bil K v x := by
  simp only [bil_apply, Finset.mul_sum]
  rw [Finset.sum_comm]
  exact Finset.sum_congr rfl fun p _ => Finset.sum_congr rfl fun p' _ => by rw [h]; ring

/-- The vectors of the free degrees of freedom. -/
def space (free : ι × Fin 3 → Prop) : Submodule ℝ (Coef ι) where
  carrier := {x | Supported free x}
  add_mem' := fun ha hb p hp => by rw [Pi.add_apply, ha p hp, hb p hp, add_zero]
  zero_mem' := fun _ _ => rfl
  smul_mem' := fun c x hx p hp => by rw [Pi.smul_apply, hx p hp, smul_zero]

omit [Fintype ι] in
theorem mem_space {free : ι × Fin 3 → Prop} {x : Coef ι} : x ∈ space free ↔ Supported free x :=
  Iff.rfl

/-- Work of loads. -/
def load (F : Coef ι) : Coef ι →ₗ[ℝ] ℝ where
  toFun := fun v => ∑ p, v p * F p
  map_add' := fun v w => by simp only [Pi.add_apply, add_mul, Finset.sum_add_distrib]
  map_smul' := fun c v => by
    simp only [Pi.smul_apply, smul_eq_mul, RingHom.id_apply, Finset.mul_sum, mul_assoc]

theorem load_apply (F v : Coef ι) : load F v = ∑ p, v p * F p := rfl

theorem solves_iff (K : ι × Fin 3 → ι × Fin 3 → ℝ) (free : ι × Fin 3 → Prop) (b x : Coef ι) :
    Solves K free b x ↔ Supported free x ∧ ∀ v, Supported free v → bil K x v = load b v := by
  classical
  refine and_congr_right fun _ => ⟨fun h v hv => ?_, fun h p hp => ?_⟩
  · simp only [bil_apply, load_apply]
    refine Finset.sum_congr rfl fun p _ => ?_
    by_cases hp : free p
    · rw [h p hp]
    · rw [hv p hp, zero_mul, zero_mul]
  · have hv : Supported free (Pi.single p 1 : Coef ι) := fun q hq => by
      rw [Pi.single_apply, if_neg]; rintro rfl; exact hq hp
    have h' := h _ hv
    simpa [bil_apply, load_apply, Pi.single_apply] using h'

theorem wellPosed_bil (K : ι × Fin 3 → ι × Fin 3 → ℝ) (free : ι × Fin 3 → Prop) :
    WellPosed K free ↔
      ∀ x, Supported free x → (∀ v, Supported free v → bil K x v = 0) → x = 0 := by
  rw [wellPosed_iff]
  refine forall₂_congr fun x hx => ?_
  have h := solves_iff K free (fun _ => 0) x
  have e : ∀ v : Coef ι, load (fun _ => 0) v = 0 := fun v => by simp [load_apply]
  simp only [Solves, hx, true_and, e] at h
  rw [h]

/-! ## Sums of squares -/

/-- Matrix of a sum of weighted squares of functionals. -/
def squares (Q : Finset κ) (c : κ → Fin 3 → ℝ) (l : κ → Fin 3 → ι × Fin 3 → ℝ)
    (p p' : ι × Fin 3) : ℝ := ∑ q ∈ Q, ∑ j, c q j * (l q j p * l q j p')

omit [Fintype ι] in
theorem squares_symm (Q : Finset κ) (c : κ → Fin 3 → ℝ) (l : κ → Fin 3 → ι × Fin 3 → ℝ)
    (p p' : ι × Fin 3) : squares Q c l p p' = squares Q c l p' p :=
  Finset.sum_congr rfl fun q _ => Finset.sum_congr rfl fun j _ => by rw [mul_comm (l q j p)]

theorem bil_squares (Q : Finset κ) (c : κ → Fin 3 → ℝ) (l : κ → Fin 3 → ι × Fin 3 → ℝ)
    (x v : Coef ι) : bil (squares Q c l) x v
      = ∑ q ∈ Q, ∑ j, c q j * ((∑ p, x p * l q j p) * ∑ p, v p * l q j p) := by
  have h : ∀ p, ∑ p', squares Q c l p p' * x p'
      = ∑ q ∈ Q, ∑ j, c q j * (l q j p * ∑ p', x p' * l q j p') := by
    intro p
    simp only [squares, Finset.sum_mul]
    rw [Finset.sum_comm]
    refine Finset.sum_congr rfl fun q _ => ?_
    rw [Finset.sum_comm]
    refine Finset.sum_congr rfl fun j _ => ?_
    rw [Finset.mul_sum, Finset.mul_sum]
    exact Finset.sum_congr rfl fun p' _ => by ring
  simp only [bil_apply, h, Finset.mul_sum]
  rw [Finset.sum_comm]
  refine Finset.sum_congr rfl fun q _ => ?_
  rw [Finset.sum_comm]
  refine Finset.sum_congr rfl fun j _ => ?_
  refine Finset.sum_congr rfl fun p _ => ?_
  rw [Finset.sum_mul, Finset.mul_sum]
  exact Finset.sum_congr rfl fun p' _ => by ring

theorem squares_nonneg (Q : Finset κ) (c : κ → Fin 3 → ℝ) (l : κ → Fin 3 → ι × Fin 3 → ℝ)
    (hc : ∀ q ∈ Q, ∀ j, 0 < c q j) (x : Coef ι) : 0 ≤ bil (squares Q c l) x x := by
  rw [bil_squares]
  exact Finset.sum_nonneg fun q hq => Finset.sum_nonneg fun j _ =>
    mul_nonneg (hc q hq j).le (mul_self_nonneg _)

theorem squares_zero (Q : Finset κ) (c : κ → Fin 3 → ℝ) (l : κ → Fin 3 → ι × Fin 3 → ℝ)
    (hc : ∀ q ∈ Q, ∀ j, 0 < c q j) (x : Coef ι) :
    bil (squares Q c l) x x = 0 ↔ ∀ q ∈ Q, ∀ j, ∑ p, x p * l q j p = 0 := by
  rw [bil_squares, Finset.sum_eq_zero_iff_of_nonneg fun q hq => Finset.sum_nonneg fun j _ =>
    mul_nonneg (hc q hq j).le (mul_self_nonneg _)]
  refine forall₂_congr fun q hq => ?_
  rw [Finset.sum_eq_zero_iff_of_nonneg fun j _ => mul_nonneg (hc q hq j).le (mul_self_nonneg _)]
  refine forall_congr' fun j => ?_
  simp only [Finset.mem_univ, true_implies, mul_eq_zero, (hc q hq j).ne', false_or, or_self]

/-! ## Functionals of displacements -/

/-- A linear functional of the derivatives of a field, for the displacement of coefficients. -/
theorem lin_disp (f : Surf → ℝ) (ha : ∀ u v, f (fieldAdd u v) = f u + f v)
    (hm : ∀ c u, f (fieldSmul c u) = c * f u) (φ : ι → Shape) (x : Coef ι) :
    f (displacement φ x) = ∑ p, x p * f (dofField φ p) := by
  classical
  have key : ∀ I : Finset ι, f (surface I (nodal x) φ)
      = ∑ i ∈ I, ∑ j, x (i, j) * f (dofField φ (i, j)) := by
    intro I
    induction I using Finset.induction_on with
    | empty =>
      have e : surface ∅ (nodal x) φ = fieldSmul 0 ⟨fun _ => 0, 0, 0, 0⟩ := by
        simp only [surface, fieldSmul, vsum, Finset.sum_empty]
        congr 1
        · funext k; ext <;> simp
        all_goals ext <;> simp
      rw [e, hm]; simp
    | insert a J haJ ih =>
      rw [Finset.sum_insert haJ, ← ih, Fin.sum_univ_three, ← hm, ← hm, ← hm, ← ha, ← ha, ← ha]
      have d := dirField_eq (φ a) (nodal x a)
      simp only [nodal] at d
      simp only [dofField]
      rw [← d]
      congr 1
      simp only [surface, fieldAdd, dirField, vsum, Finset.sum_insert haJ]
      congr 1
  rw [displacement, key, Fintype.sum_prod_type]

theorem value_eq (N : ι → ℝ) (x : Coef ι) (j : Fin 3) :
    value N x j = ∑ p, x p * dofValue N p j := by
  rw [Fintype.sum_prod_type]
  refine Finset.sum_congr rfl fun i _ => ?_
  simp [dofValue, mul_comm]

theorem tvar1_add (s : Surf) (o tv : V3) (u v : Surf) :
    tvar1 s o tv (fieldAdd u v) = tvar1 s o tv u + tvar1 s o tv v := by
  unfold tvar1
  cases colIndex s o with
  | none => ext <;> simp
  | some c => ext <;> simp [fieldAdd, dot] <;> ring

theorem tvar1_smul (s : Surf) (o tv : V3) (c : ℝ) (u : Surf) :
    tvar1 s o tv (fieldSmul c u) = c • tvar1 s o tv u := by
  unfold tvar1
  cases colIndex s o with
  | none => ext <;> simp
  | some c => ext <;> simp [fieldSmul, dot] <;> ring

theorem ovar1_add (s : Surf) (o tv : V3) (u v : Surf) :
    ovar1 s o tv (fieldAdd u v) = ovar1 s o tv u + ovar1 s o tv v := by
  unfold ovar1
  rw [tvar1_add, var1_add]
  ext <;> simp [cross] <;> ring

theorem ovar1_smul (s : Surf) (o tv : V3) (c : ℝ) (u : Surf) :
    ovar1 s o tv (fieldSmul c u) = c • ovar1 s o tv u := by
  unfold ovar1
  rw [tvar1_smul, var1_smul]
  ext <;> simp [cross] <;> ring

theorem var1_disp (s : Surf) (w : V3) (φ : ι → Shape) (x : Coef ι) :
    dot (var1 s (displacement φ x)) w = ∑ p, x p * dot (var1 s (dofField φ p)) w :=
  lin_disp (fun u => dot (var1 s u) w) (fun u v => by rw [var1_add, dot_add_left])
    (fun c u => by rw [var1_smul, dot_smul_left]) φ x

theorem ovar1_disp (s : Surf) (o tv w : V3) (φ : ι → Shape) (x : Coef ι) :
    dot (ovar1 s o tv (displacement φ x)) w = ∑ p, x p * dot (ovar1 s o tv (dofField φ p)) w :=
  lin_disp (fun u => dot (ovar1 s o tv u) w) (fun u v => by rw [ovar1_add, dot_add_left])
    (fun c u => by rw [ovar1_smul, dot_smul_left]) φ x

/-- The three functionals of a weak C1 interface for one degree of freedom. -/
noncomputable def hingeRow (D : Hinge ι κ) (q : κ) (j : Fin 3) (p : ι × Fin 3) : ℝ :=
  vec3 (dot ((D.left q).n1 (dofField (D.φL q) p)) (D.right q).n
      + dot ((D.right q).n1 (dofField (D.φR q) p)) (D.left q).n)
    (dot ((D.left q).o1 (dofField (D.φL q) p)) (D.right q).n
      + dot ((D.right q).n1 (dofField (D.φR q) p)) (D.left q).o)
    (dot ((D.right q).o1 (dofField (D.φR q) p)) (D.left q).n
      + dot ((D.left q).n1 (dofField (D.φL q) p)) (D.right q).o) j

theorem tilt_eq (s : Surf) (hs : Indep (s.a 0) (s.a 1)) (φ : ι → Shape) (ν : V3) (x : Coef ι) :
    tilt s φ ν x = ∑ p, x p * dot (var1 s (dofField φ p)) ν := by
  rw [← var1_disp]
  have h := (hasVDeriv_normal s (displacement φ x) hs).dot
    (HasVDeriv.const ν 0)
  refine h.deriv.trans ?_
  simp [dot]

theorem kink_eq (D : Hinge ι κ) (q : κ) (hL : Indep ((D.sL q).a 0) ((D.sL q).a 1))
    (hR : Indep ((D.sR q).a 0) ((D.sR q).a 1)) (hσL : D.σL q = 1 ∨ D.σL q = -1)
    (hσR : D.σR q = 1 ∨ D.σR q = -1) (x : Coef ι) :
    kink D q x = ⟨∑ p, x p * hingeRow D q 0 p, ∑ p, x p * hingeRow D q 1 p,
      ∑ p, x p * hingeRow D q 2 p⟩ := by
  have nL := (sideCurve_nvar (D.sL q) (displacement (D.φL q) x) (displacement (D.φL q) x) hL
    (D.cL q) (D.σL q)).1
  have nR := (sideCurve_nvar (D.sR q) (displacement (D.φR q) x) (displacement (D.φR q) x) hR
    (D.cR q) (D.σR q)).1
  have oL := sideCurve_o (D.sL q) (displacement (D.φL q) x) hL (D.cL q) (D.σL q) hσL
  have oR := sideCurve_o (D.sR q) (displacement (D.φR q) x) hR (D.cR q) (D.σR q) hσR
  have eL : sideCurve (D.sL q) (displacement (D.φL q) x) (D.cL q) (D.σL q) 0 = D.left q := by
    simp only [sideCurve, shift_zero, Hinge.left]
  have eR : sideCurve (D.sR q) (displacement (D.φR q) x) (D.cR q) (D.σR q) 0 = D.right q := by
    simp only [sideCurve, shift_zero, Hinge.right]
  have h0 := (nL.dot nR).deriv
  have h1 := (oL.dot nR).deriv
  have h2 := (oR.dot nL).deriv
  rw [eL, eR] at h0 h1 h2
  have l1 : ∀ w, dot ((D.left q).n1 (displacement (D.φL q) x)) w
      = ∑ p, x p * dot ((D.left q).n1 (dofField (D.φL q) p)) w := fun w => var1_disp _ w _ x
  have l2 : ∀ w, dot ((D.right q).n1 (displacement (D.φR q) x)) w
      = ∑ p, x p * dot ((D.right q).n1 (dofField (D.φR q) p)) w := fun w => var1_disp _ w _ x
  have l3 : ∀ w, dot ((D.left q).o1 (displacement (D.φL q) x)) w
      = ∑ p, x p * dot ((D.left q).o1 (dofField (D.φL q) p)) w := fun w => ovar1_disp _ _ _ w _ x
  have l4 : ∀ w, dot ((D.right q).o1 (displacement (D.φR q) x)) w
      = ∑ p, x p * dot ((D.right q).o1 (dofField (D.φR q) p)) w := fun w => ovar1_disp _ _ _ w _ x
  unfold kink
  ext
  · refine h0.trans ?_
    rw [dot_comm (D.left q).n, l1, l2, ← Finset.sum_add_distrib]
    exact Finset.sum_congr rfl fun p _ => by simp only [hingeRow, vec3_zero]; ring
  · refine h1.trans ?_
    rw [dot_comm (D.left q).o, l3, l2, ← Finset.sum_add_distrib]
    exact Finset.sum_congr rfl fun p _ => by simp only [hingeRow, vec3_one]; ring
  · refine h2.trans ?_
    rw [dot_comm (D.right q).o, l4, l1, ← Finset.sum_add_distrib]
    exact Finset.sum_congr rfl fun p _ => by simp only [hingeRow, vec3_two]; ring

/-! ## The weak matrices as sums of squares -/

omit [Fintype ι] in
theorem dirMatrix_eq (o : ℝ) (D : Dirichlet ι κ) (p p' : ι × Fin 3) : dirMatrix o D p p'
    = -o * squares D.Q (fun q _ => D.wt q * D.a q * D.μ q) (fun q j p => dofValue (D.N q) p j)
      p p' := by
  simp only [dirMatrix, quad, dirMat, dotd, squares, Finset.mul_sum]
  refine Finset.sum_congr rfl fun q _ => ?_
  simp only [Fin.sum_univ_three]
  ring

omit [Fintype ι] in
theorem clampMatrix_eq (o : ℝ) (D : Clamp ι κ) (p p' : ι × Fin 3) : clampMatrix o D p p'
    = o * squares D.Q (fun q _ => D.wt q * D.a q * D.μ q)
      (fun q j p => if j = 0 then dot (var1 (D.s q) (dofField (D.φ q) p)) (D.ν q) else 0) p p' := by
  simp only [clampMatrix, quad, clampMatLin, squares, Finset.mul_sum]
  refine Finset.sum_congr rfl fun q _ => ?_
  simp only [Fin.sum_univ_three, if_true, Fin.isValue, one_ne_zero, if_false, Fin.reduceEq]
  ring

omit [Fintype ι] in
theorem jointMatrix_eq (o : ℝ) (D : Joint ι κ) (p p' : ι × Fin 3) : jointMatrix o D p p'
    = o * squares D.Q (fun q _ => D.wt q * D.a q * D.μ q)
      (fun q j p => dofValue (D.NL q) p j - dofValue (D.NR q) p j) p p' := by
  simp only [jointMatrix, quad, c0Mat, dotd, squares, Finset.mul_sum]
  refine Finset.sum_congr rfl fun q _ => ?_
  simp only [Fin.sum_univ_three]
  ring

omit [Fintype ι] in
theorem hingeMatrix_eq (o : ℝ) (D : Hinge ι κ) (p p' : ι × Fin 3) : hingeMatrix o D p p'
    = o * squares D.Q (fun q j => (if j = 0 then 2 else 1) * (D.wt q * D.a q * D.μ q))
      (hingeRow D) p p' := by
  simp only [hingeMatrix, quad, c1MatOut2, c1MatIn2, squares, Finset.mul_sum]
  refine Finset.sum_congr rfl fun q _ => ?_
  simp only [Fin.sum_univ_three, if_true, Fin.isValue, one_ne_zero, if_false, Fin.reduceEq,
    hingeRow, vec3_zero, vec3_one, vec3_two]
  ring

/-- The terms of clamped sides and interfaces. -/
noncomputable def couple (o : Options) (W : Weak ι κ) (p p' : ι × Fin 3) : ℝ :=
  clampMatrix o.rBc W.clamp p p' + jointMatrix o.ifc W.joint p p' + hingeMatrix o.ifc W.hinge p p'

/-- The terms of the weak Dirichlet conditions, without option and sign. -/
def held (D : Dirichlet ι κ) : ι × Fin 3 → ι × Fin 3 → ℝ :=
  squares D.Q (fun q _ => D.wt q * D.a q * D.μ q) (fun q j p => dofValue (D.N q) p j)

omit [Fintype ι] in
theorem system_eq (K : ι × Fin 3 → ι × Fin 3 → ℝ) (o : Options) (W : Weak ι κ) :
    systemMatrix K o W = fun p p' => (K p p' + couple o W p p') + -o.dBc * held W.dir p p' := by
  funext p p'
  simp only [systemMatrix, weakMatrix, couple, dirMatrix_eq, held]
  ring

theorem bil_couple (o : Options) (W : Weak ι κ) (x v : Coef ι) : bil (couple o W) x v
    = o.rBc * bil (squares W.clamp.Q (fun q _ => W.clamp.wt q * W.clamp.a q * W.clamp.μ q)
        (fun q j p => if j = 0 then
          dot (var1 (W.clamp.s q) (dofField (W.clamp.φ q) p)) (W.clamp.ν q) else 0)) x v
      + o.ifc * bil (squares W.joint.Q (fun q _ => W.joint.wt q * W.joint.a q * W.joint.μ q)
        (fun q j p => dofValue (W.joint.NL q) p j - dofValue (W.joint.NR q) p j)) x v
      + o.ifc * bil (squares W.hinge.Q
        (fun q j => (if j = 0 then 2 else 1) * (W.hinge.wt q * W.hinge.a q * W.hinge.μ q))
        (hingeRow W.hinge)) x v := by
  rw [← bil_mul, ← bil_mul, ← bil_mul, ← bil_sum, ← bil_sum]
  congr 3
  funext p p'
  simp only [couple, clampMatrix_eq, jointMatrix_eq, hingeMatrix_eq]

omit [Fintype ι] in
theorem couple_symm (o : Options) (W : Weak ι κ) (p p' : ι × Fin 3) :
    couple o W p p' = couple o W p' p := by
  simp only [couple, clampMatrix_eq, jointMatrix_eq, hingeMatrix_eq]
  rw [squares_symm, squares_symm W.joint.Q, squares_symm W.hinge.Q]

section Proper

variable {W : Weak ι κ} (hW : Proper W)

include hW

omit [Fintype ι] in
theorem pos_clamp : ∀ q ∈ W.clamp.Q, ∀ _ : Fin 3, 0 < W.clamp.wt q * W.clamp.a q * W.clamp.μ q :=
  fun q hq _ => by
    obtain ⟨h1, h2, h3, -⟩ := hW.2.1 q hq
    exact mul_pos (mul_pos h1 h2) h3

omit [Fintype ι] in
theorem pos_joint : ∀ q ∈ W.joint.Q, ∀ _ : Fin 3, 0 < W.joint.wt q * W.joint.a q * W.joint.μ q :=
  fun q hq _ => by
    obtain ⟨h1, h2, h3⟩ := hW.2.2.1 q hq
    exact mul_pos (mul_pos h1 h2) h3

omit [Fintype ι] in
theorem pos_dir : ∀ q ∈ W.dir.Q, ∀ _ : Fin 3, 0 < W.dir.wt q * W.dir.a q * W.dir.μ q :=
  fun q hq _ => by
    obtain ⟨h1, h2, h3⟩ := hW.1 q hq
    exact mul_pos (mul_pos h1 h2) h3

omit [Fintype ι] in
theorem pos_hinge : ∀ q ∈ W.hinge.Q, ∀ j : Fin 3,
    (0 : ℝ) < (if j = 0 then 2 else 1) * (W.hinge.wt q * W.hinge.a q * W.hinge.μ q) :=
  fun q hq j => by
    obtain ⟨h1, h2, h3, -⟩ := hW.2.2.2 q hq
    exact mul_pos (by split_ifs <;> norm_num) (mul_pos (mul_pos h1 h2) h3)

theorem couple_nonneg {o : Options} (hr : 0 < o.rBc) (hi : 0 < o.ifc) (x : Coef ι) :
    0 ≤ bil (couple o W) x x := by
  rw [bil_couple]
  have h1 := mul_nonneg hr.le (squares_nonneg W.clamp.Q _ (fun q j p => if j = 0 then
    dot (var1 (W.clamp.s q) (dofField (W.clamp.φ q) p)) (W.clamp.ν q) else 0) (pos_clamp hW) x)
  have h2 := mul_nonneg hi.le (squares_nonneg W.joint.Q _
    (fun q j p => dofValue (W.joint.NL q) p j - dofValue (W.joint.NR q) p j) (pos_joint hW) x)
  have h3 := mul_nonneg hi.le (squares_nonneg W.hinge.Q _ (hingeRow W.hinge) (pos_hinge hW) x)
  linarith

theorem couple_zero {o : Options} (hr : 0 < o.rBc) (hi : 0 < o.ifc) (x : Coef ι) :
    bil (couple o W) x x = 0 ↔ Coupled W x := by
  rw [bil_couple]
  have h1 := squares_nonneg W.clamp.Q _ (fun q j p => if j = 0 then
    dot (var1 (W.clamp.s q) (dofField (W.clamp.φ q) p)) (W.clamp.ν q) else 0) (pos_clamp hW) x
  have h2 := squares_nonneg W.joint.Q _
    (fun q j p => dofValue (W.joint.NL q) p j - dofValue (W.joint.NR q) p j) (pos_joint hW) x
  have h3 := squares_nonneg W.hinge.Q _ (hingeRow W.hinge) (pos_hinge hW) x
  have z1 := squares_zero W.clamp.Q _ (fun q j p => if j = 0 then
    dot (var1 (W.clamp.s q) (dofField (W.clamp.φ q) p)) (W.clamp.ν q) else 0) (pos_clamp hW) x
  have z2 := squares_zero W.joint.Q _
    (fun q j p => dofValue (W.joint.NL q) p j - dofValue (W.joint.NR q) p j) (pos_joint hW) x
  have z3 := squares_zero W.hinge.Q _ (hingeRow W.hinge) (pos_hinge hW) x
  have t1 : (∀ q ∈ W.clamp.Q, ∀ j : Fin 3, ∑ p, x p * (if j = 0 then
      dot (var1 (W.clamp.s q) (dofField (W.clamp.φ q) p)) (W.clamp.ν q) else 0) = 0) ↔
      ∀ q ∈ W.clamp.Q, tilt (W.clamp.s q) (W.clamp.φ q) (W.clamp.ν q) x = 0 := by
    refine forall₂_congr fun q hq => ?_
    rw [tilt_eq _ (hW.2.1 q hq).2.2.2]
    constructor
    · intro h; simpa using h 0
    · intro h j
      by_cases hj : j = 0
      · simpa [hj] using h
      · simp [hj]
  have t2 : (∀ q ∈ W.joint.Q, ∀ j : Fin 3, ∑ p, x p *
      (dofValue (W.joint.NL q) p j - dofValue (W.joint.NR q) p j) = 0) ↔
      ∀ q ∈ W.joint.Q, value (W.joint.NL q) x = value (W.joint.NR q) x := by
    refine forall₂_congr fun q hq => ?_
    rw [funext_iff]
    refine forall_congr' fun j => ?_
    rw [value_eq, value_eq, ← sub_eq_zero (b := ∑ p, x p * dofValue (W.joint.NR q) p j),
      ← Finset.sum_sub_distrib]
    simp only [mul_sub]
  have t3 : (∀ q ∈ W.hinge.Q, ∀ j : Fin 3, ∑ p, x p * hingeRow W.hinge q j p = 0) ↔
      ∀ q ∈ W.hinge.Q, kink W.hinge q x = 0 := by
    refine forall₂_congr fun q hq => ?_
    obtain ⟨-, -, -, hL, hR, hσL, hσR⟩ := hW.2.2.2 q hq
    rw [kink_eq W.hinge q hL hR hσL hσR]
    constructor
    · intro h; ext
      exacts [h 0, h 1, h 2]
    · intro h j
      rcases fin3_cases j with rfl | rfl | rfl
      exacts [congrArg V3.x h, congrArg V3.y h, congrArg V3.z h]
  rw [Coupled, ← t1, ← t2, ← t3, ← z1, ← z2, ← z3]
  constructor
  · intro h
    have a1 := mul_nonneg hr.le h1
    have a2 := mul_nonneg hi.le h2
    have a3 := mul_nonneg hi.le h3
    refine ⟨?_, ?_, ?_⟩
    · exact (mul_eq_zero.1 (by linarith)).resolve_left hr.ne'
    · exact (mul_eq_zero.1 (by linarith)).resolve_left hi.ne'
    · exact (mul_eq_zero.1 (by linarith)).resolve_left hi.ne'
  · rintro ⟨e1, e2, e3⟩
    rw [e1, e2, e3]; ring

theorem held_nonneg (x : Coef ι) : 0 ≤ bil (held W.dir) x x := squares_nonneg _ _ _ (pos_dir hW) x

theorem held_zero (x : Coef ι) : bil (held W.dir) x x = 0 ↔ Prescribed W.dir (fun _ _ => 0) x := by
  rw [held, squares_zero _ _ _ (pos_dir hW)]
  refine forall₂_congr fun q _ => ?_
  rw [funext_iff]
  exact forall_congr' fun j => by rw [value_eq]

end Proper

omit [Fintype ι] in
theorem held_symm (D : Dirichlet ι κ) (p p' : ι × Fin 3) : held D p p' = held D p' p :=
  squares_symm _ _ _ p p'

theorem bil_held (D : Dirichlet ι κ) (x v : Coef ι) : bil (held D) x v
    = ∑ q ∈ D.Q, ∑ j, D.wt q * D.a q * D.μ q * (value (D.N q) x j * value (D.N q) v j) := by
  rw [held, bil_squares]
  simp only [value_eq]

/-- The right-hand side of the weak Dirichlet condition. -/
theorem load_dirRhs (o : ℝ) (D : Dirichlet ι κ) (F v : Coef ι) :
    load (fun p => F p + dirRhs o D p) v = load F v
      - o * ∑ q ∈ D.Q, ∑ j, D.wt q * D.a q * D.μ q * (D.g q j * value (D.N q) v j) := by
  have h : ∑ p, v p * dirRhs o D p
      = -(o * ∑ q ∈ D.Q, ∑ j, D.wt q * D.a q * D.μ q * (D.g q j * value (D.N q) v j)) := by
    simp only [dirRhs, quad, dirVecLin3, dotd, value_eq, Finset.mul_sum, ← Finset.sum_neg_distrib,
      Finset.sum_mul]
    rw [Finset.sum_comm]
    refine Finset.sum_congr rfl fun q _ => ?_
    rw [Finset.sum_comm]
    refine Finset.sum_congr rfl fun j _ => ?_
    exact Finset.sum_congr rfl fun p _ => by ring
  simp only [load_apply, mul_add, Finset.sum_add_distrib, h]
  ring

/-- If the displacement `x₀` has the prescribed values. -/
theorem load_held (o : ℝ) (D : Dirichlet ι κ) (F v x₀ : Coef ι) (h : Prescribed D D.g x₀) :
    load (fun p => F p + dirRhs o D p) v = load F v - o * bil (held D) x₀ v := by
  rw [load_dirRhs, bil_held]
  congr 2
  exact Finset.sum_congr rfl fun q hq => Finset.sum_congr rfl fun j _ => by rw [h q hq]

/-! ## Large options -/

theorem core (A P : ι × Fin 3 → ι × Fin 3 → ℝ) (free : ι × Fin 3 → Prop)
    (hPs : ∀ p p', P p p' = P p' p) (hP : ∀ x, 0 ≤ bil P x x)
    (hA : ∀ n, Supported free n → bil P n n = 0 → n ≠ 0 → 0 < bil A n n) :
    ∃ τ₀ : ℝ, 0 < τ₀ ∧
      (∀ τ : ℝ, τ₀ ≤ |τ| → WellPosed (fun p p' => A p p' + τ * P p p') free) ∧
      ∀ F x₀ : Coef ι, Supported free x₀ → ∃ u, Supported free u ∧ bil P (u - x₀) (u - x₀) = 0 ∧
        (∀ v, Supported free v → bil P v v = 0 → bil A u v = load F v) ∧
        (∀ w, Supported free w → bil P (w - x₀) (w - x₀) = 0 →
          (∀ v, Supported free v → bil P v v = 0 → bil A w v = load F v) → w = u) ∧
        ∃ C, ∀ τ : ℝ, τ₀ ≤ |τ| → ∀ x, Supported free x →
          (∀ v, Supported free v → bil A x v + τ * bil P x v = load F v + τ * bil P x₀ v) →
          ∀ p, |x p - u p| ≤ C / |τ| := by
  let V := space free
  let A' : V →ₗ[ℝ] V →ₗ[ℝ] ℝ := (bil A).domRestrict₁₂ V V
  let P' : V →ₗ[ℝ] V →ₗ[ℝ] ℝ := (bil P).domRestrict₁₂ V V
  have sP : ∀ x y : Coef ι, bil P x y = bil P y x := bil_symm hPs
  have hs' : ∀ x y, P' x y = P' y x := fun x y => sP x y
  have hP' : ∀ x, 0 ≤ P' x x := fun x => hP x
  have hA' : ∀ n, P' n n = 0 → n ≠ 0 → 0 < A' n n := fun n h0 hn =>
    hA n n.2 h0 (fun h => hn (Subtype.ext h))
  have nul : ∀ n v, bil P n n = 0 → bil P n v = 0 := fun n v h0 =>
    PenaltyLimit.null sP hP h0 v
  obtain ⟨τ₀, h0, hz, hl⟩ := PenaltyLimit.limit hs' hP' hA'
  refine ⟨τ₀, h0, fun τ hτ => ?_, fun F x₀ hx₀ => ?_⟩
  · rw [wellPosed_bil]
    intro x hx h
    have := hz τ hτ ⟨x, hx⟩ fun v => by
      have := h v v.2
      rw [bil_add] at this
      exact this
    exact congrArg Subtype.val this
  · have posK : ∀ n ∈ PenaltyLimit.kernel P', n ≠ 0 → 0 < A' n n := fun n hn hne =>
      hA' n ((PenaltyLimit.mem_kernel hs' hP').1 hn) hne
    obtain ⟨w, hw, hw'⟩ := PenaltyLimit.represent (PenaltyLimit.kernel P') A' posK
      ((load F).domRestrict V - A' ⟨x₀, hx₀⟩)
    have hw0 : bil P w w = 0 := (PenaltyLimit.mem_kernel hs' hP').1 hw
    have key : ∀ v, Supported free v → bil P v v = 0 → bil A (x₀ + w) v = load F v := by
      intro v hv hv0
      have := hw' ⟨v, hv⟩ ((PenaltyLimit.mem_kernel hs' hP').2 hv0)
      have e : bil A w v = load F v - bil A x₀ v := this
      rw [map_add, LinearMap.add_apply, e]; ring
    refine ⟨x₀ + w, V.add_mem hx₀ w.2, ?_, key, ?_, ?_⟩
    · rw [add_sub_cancel_left]; exact hw0
    · intro u hu hu0 huv
      have hd : Supported free (u - (x₀ + w)) := V.sub_mem hu (V.add_mem hx₀ w.2)
      have hd0 : bil P (u - (x₀ + w)) (u - (x₀ + w)) = 0 := by
        have e : u - (x₀ + (w : Coef ι)) = (u - x₀) - w := by abel
        rw [e, LinearMap.map_sub₂, nul _ _ hu0, nul _ _ hw0, sub_zero]
      by_contra hne
      have := hA _ hd hd0 (sub_ne_zero.2 hne)
      rw [LinearMap.map_sub₂, huv _ hd hd0, key _ hd hd0, sub_self] at this
      exact lt_irrefl 0 this
    · obtain ⟨C, hC⟩ := hl ((load F).domRestrict V - A' ⟨x₀ + w, V.add_mem hx₀ w.2⟩) fun n hn => by
        show load F n - bil A (x₀ + w) n = 0
        rw [key n n.2 hn, sub_self]
      refine ⟨C, fun τ hτ x hx h p => ?_⟩
      have hd : Supported free (x - (x₀ + w)) := V.sub_mem hx (V.add_mem hx₀ w.2)
      have b := hC τ hτ ⟨x - (x₀ + w), hd⟩ fun v => by
        show bil A (x - (x₀ + w)) v + τ * bil P (x - (x₀ + w)) v = load F v - bil A (x₀ + w) v
        have h1 := h v v.2
        have h2 := nul w v hw0
        simp only [map_sub, map_add, LinearMap.sub_apply, LinearMap.add_apply] at h1 ⊢
        rw [h2]
        linarith
      have hp : |(x - (x₀ + (w : Coef ι))) p| ≤ ‖(x - (x₀ + (w : Coef ι)))‖ :=
        norm_le_pi_norm (x - (x₀ + (w : Coef ι))) p
      exact hp.trans b

/-! ## The elastic matrix -/

section Elastic

variable {Q : Finset κ} {μ : κ → ℝ} {s : κ → Surf} {φ : κ → ι → Shape} {S : κ → Section}

omit [Fintype ι] in
theorem elastic_symm (hS : ∀ q ∈ Q, Definite (S q)) (p p' : ι × Fin 3) :
    matrix true Q μ s φ S p p' = matrix true Q μ s φ S p' p :=
  Finset.sum_congr rfl fun q hq => by rw [integrand_symm _ _ _ _ (hS q hq).1]

theorem elastic_nonneg (hμ : ∀ q ∈ Q, 0 < μ q) (hS : ∀ q ∈ Q, Definite (S q)) (x : Coef ι) :
    0 ≤ bil (matrix true Q μ s φ S) x x := by
  rw [bil_form, form, bilinear]
  refine Finset.sum_nonneg fun q hq => mul_nonneg ?_ (hμ q hq).le
  rw [integrand_self]
  exact density_nonneg (hS q hq) _ _

theorem elastic_zero (hμ : ∀ q ∈ Q, 0 < μ q) (hs : ∀ q ∈ Q, Indep ((s q).a 0) ((s q).a 1))
    (hS : ∀ q ∈ Q, Definite (S q)) (x : Coef ι) :
    bil (matrix true Q μ s φ S) x x = 0 ↔ StrainFree Q s φ x := by
  rw [bil_form, form]
  exact form_zero hμ hs hS x

end Elastic

/-- A positive sum of two semi-definite forms. -/
theorem sum_pos_of {a b : ℝ} (ha : 0 ≤ a) (hb : 0 ≤ b) (h : ¬ (a = 0 ∧ b = 0)) : 0 < a + b := by
  rcases eq_or_lt_of_le ha with h1 | h1
  · rcases eq_or_lt_of_le hb with h2 | h2
    · exact absurd ⟨h1.symm, h2.symm⟩ h
    · linarith
  · linarith

section Shell

variable {Q : Finset κ} {μ : κ → ℝ} {s : κ → Surf} {φ : κ → ι → Shape} {S : κ → Section}
  (hμ : ∀ q ∈ Q, 0 < μ q) (hs : ∀ q ∈ Q, Indep ((s q).a 0) ((s q).a 1))
  (hS : ∀ q ∈ Q, Definite (S q)) {W : Weak ι κ} (hW : Proper W)

include hμ hs hS hW

theorem base_pos {o : Options} (hr : 0 < o.rBc) (hi : 0 < o.ifc) (x : Coef ι)
    (h : ¬ (StrainFree Q s φ x ∧ Coupled W x)) :
    0 < bil (fun p p' => matrix true Q μ s φ S p p' + couple o W p p') x x := by
  rw [bil_sum]
  refine sum_pos_of (elastic_nonneg hμ hS x) (couple_nonneg hW hr hi x) ?_
  rw [elastic_zero hμ hs hS, couple_zero hW hr hi]
  exact h

theorem base_zero {o : Options} (hr : 0 < o.rBc) (hi : 0 < o.ifc) (x : Coef ι)
    (h : StrainFree Q s φ x ∧ Coupled W x) (v : Coef ι) :
    bil (fun p p' => matrix true Q μ s φ S p p' + couple o W p p') x v = 0 := by
  rw [bil_sum, PenaltyLimit.null (bil_symm (elastic_symm hS)) (elastic_nonneg hμ hS)
    ((elastic_zero hμ hs hS x).2 h.1) v, PenaltyLimit.null (bil_symm (couple_symm o W))
    (couple_nonneg hW hr hi) ((couple_zero hW hr hi x).2 h.2) v, add_zero]

end Shell

end Verif.PenaltySystem
