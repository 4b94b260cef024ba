import Verif.Model.Plate
import Verif.Lemmas.PlateCalc
import Verif.Lemmas.Geometry
import Verif.Lemmas.Tensor

/-! # Lemmas: forms of a flat plate -/

namespace Verif.Plate

open V3 Geometry Fields MeasureTheory Verif.Variation Verif.Balance Spec.Balloon Spec.Plate Verif.Balloon

/-- Derivatives of the flat plate. -/
def flatS : Surf := ⟨fun i => if i = 0 then ⟨1, 0, 0⟩ else ⟨0, 1, 0⟩, 0, 0, 0⟩

theorem pd_x {f : ℝ × ℝ → ℝ} (hf : Differentiable ℝ f) {q : ℝ × ℝ} {c : ℝ}
    (h : HasDerivAt (fun x => f (x, q.2)) c q.1) : pd 0 f q = c := (line_x hf q.1 q.2).unique h

theorem pd_y {f : ℝ × ℝ → ℝ} (hf : Differentiable ℝ f) {q : ℝ × ℝ} {c : ℝ}
    (h : HasDerivAt (fun y => f (q.1, y)) c q.2) : pd 1 f q = c := (line_y hf q.1 q.2).unique h

theorem vpd_plate0 : vpd 0 plate = fun _ => ⟨1, 0, 0⟩ := by
  funext q
  ext
  · exact pd_x (by fun_prop) (hasDerivAt_id' _)
  · exact pd_x (by fun_prop) (hasDerivAt_const _ _)
  · exact pd_const _ _ _

theorem vpd_plate1 : vpd 1 plate = fun _ => ⟨0, 1, 0⟩ := by
  funext q
  ext
  · exact pd_y (by fun_prop) (hasDerivAt_const _ _)
  · exact pd_y (by fun_prop) (hasDerivAt_id' _)
  · exact pd_const _ _ _

theorem vpd_const (i : Fin 2) (c : V3) (q : ℝ × ℝ) : vpd i (fun _ => c) q = 0 := by
  ext <;> exact pd_const _ _ _

theorem jet_plate (q : ℝ × ℝ) : jet plate q = flatS := by
  unfold jet flatS
  simp only [vpd_plate0, vpd_plate1, vpd_const]
  congr 1
  funext i
  rcases fin2_cases i with rfl | rfl
  · rw [vpd_plate0]; simp
  · rw [vpd_plate1]; simp

theorem flat_cross : cross (flatS.a 0) (flatS.a 1) = ⟨0, 0, 1⟩ := by
  ext <;> simp [flatS, cross]

theorem flat_measure : Variation.measure flatS = 1 := by
  rw [Variation.measure, flat_cross]; norm_num [V3.norm, dot]

theorem flat_normal : normal flatS = ⟨0, 0, 1⟩ := by
  unfold normal
  rw [flat_cross]
  ext <;> norm_num [normalized, V3.norm, dot]

/-- Curvatures of a deflection, with doubled twist. -/
noncomputable def kap (f : ℝ × ℝ → ℝ) (q : ℝ × ℝ) : Voigt :=
  vec3 (-(pd 0 (pd 0 f) q)) (-(pd 1 (pd 1 f) q)) (-(2 * pd 1 (pd 0 f) q))

theorem flat_Ef (v : ℝ × ℝ → V3) (q : ℝ × ℝ) : EfDer flatS (jet v q) = kap (fun q => (v q).z) q := by
  have z : ∀ w : V3, dot w ⟨0, 0, 1⟩ = w.z := fun w => by simp [dot]
  have z' : ∀ w : V3, dot 0 w = 0 := fun w => by simp [dot]
  have d1 : flatS.d11 = 0 := rfl
  have d2 : flatS.d22 = 0 := rfl
  have d3 : flatS.d12 = 0 := rfl
  funext k
  rcases fin3_cases k with rfl | rfl | rfl <;>
    simp only [EfDer, flat_normal, deriv2dot, dbl3, kap, z, z', d1, d2, d3, vec3_zero, vec3_one, vec3_two,
      add_zero] <;> rfl

theorem flat_Em_z {v : ℝ × ℝ → V3} (hx : ∀ q, (v q).x = 0) (hy : ∀ q, (v q).y = 0) (q : ℝ × ℝ) :
    EmDer flatS (jet v q) = fun _ => 0 := by
  have ex : (fun q => (v q).x) = fun _ => 0 := funext hx
  have ey : (fun q => (v q).y) = fun _ => 0 := funext hy
  funext k
  rcases fin3_cases k with rfl | rfl | rfl <;>
    simp [EmDer, flatS, jet, vpd, ex, ey, pd_const, dot]

/-- Bending part. -/
noncomputable def bend (D : T3) (f g : ℝ × ℝ → ℝ) (q : ℝ × ℝ) : ℝ := dotV (rowMul (kap f q) D) (kap g q)

theorem form_left {S : Surf → Section} {u v : ℝ × ℝ → V3} (D : Set (ℝ × ℝ)) (hB : (S flatS).B = fun _ _ => 0)
    (hx : ∀ q, (u q).x = 0) (hy : ∀ q, (u q).y = 0) :
    stiffForm plate S D u v = ∫ q in D, bend (S flatS).D (fun q => (u q).z) (fun q => (v q).z) q := by
  unfold stiffForm
  congr 1
  funext q
  rw [jet_plate, flat_measure, mul_one, System.integrand, if_pos rfl, linStiffness, hB,
    flat_Em_z hx hy, flat_Ef, flat_Ef]
  simp [bend, dotV, rowMul]

theorem form_right {S : Surf → Section} {u v : ℝ × ℝ → V3} (D : Set (ℝ × ℝ)) (hC : (S flatS).C = fun _ _ => 0)
    (hx : ∀ q, (v q).x = 0) (hy : ∀ q, (v q).y = 0) :
    stiffForm plate S D u v = ∫ q in D, bend (S flatS).D (fun q => (u q).z) (fun q => (v q).z) q := by
  unfold stiffForm
  congr 1
  funext q
  rw [jet_plate, flat_measure, mul_one, System.integrand, if_pos rfl, linStiffness, hC,
    flat_Em_z hx hy, flat_Ef, flat_Ef]
  simp [bend, dotV, rowMul]

theorem mass_eq (m : ℝ) (D : Set (ℝ × ℝ)) (u v : ℝ × ℝ → V3) :
    massForm plate m D u v = ∫ q in D, m * dot (u q) (v q) := by
  unfold massForm
  congr 1
  funext q
  rw [jet_plate, flat_measure, mul_one]

theorem load_eq (f : ℝ × ℝ → V3) (D : Set (ℝ × ℝ)) (v : ℝ × ℝ → V3) :
    loadForm plate f D v = ∫ q in D, dot (v q) (f q) := by
  unfold loadForm
  congr 1
  funext q
  rw [jet_plate, flat_measure, mul_one]

/-! ## Navier's modes -/

section
variable (α β : ℝ)

/-- Product of sines. -/
noncomputable def ss (q : ℝ × ℝ) : ℝ := Real.sin (α * q.1) * Real.sin (β * q.2)

theorem ss_smooth : ContDiff ℝ 2 (ss α β) := by unfold ss; fun_prop

theorem ss_0 : pd 0 (ss α β) = fun q => α * Real.cos (α * q.1) * Real.sin (β * q.2) := by
  funext q
  refine pd_x ((ss_smooth α β).differentiable (by norm_num)) ?_
  exact (sin_deriv α q.1).mul_const (Real.sin (β * q.2))

theorem ss_1 : pd 1 (ss α β) = fun q => Real.sin (α * q.1) * (β * Real.cos (β * q.2)) := by
  funext q
  refine pd_y ((ss_smooth α β).differentiable (by norm_num)) ?_
  exact (sin_deriv β q.2).const_mul (Real.sin (α * q.1))

theorem ss_00 : pd 0 (pd 0 (ss α β)) = fun q => -α ^ 2 * ss α β q := by
  funext q
  rw [ss_0]
  refine pd_x (by fun_prop) (((cos_deriv α q.1).mul_const (Real.sin (β * q.2))).congr_deriv ?_)
  unfold ss; ring

theorem ss_11 : pd 1 (pd 1 (ss α β)) = fun q => -β ^ 2 * ss α β q := by
  funext q
  rw [ss_1]
  refine pd_y (by fun_prop) (((cos_deriv β q.2).const_mul (Real.sin (α * q.1))).congr_deriv ?_)
  unfold ss; ring

theorem ss_01 : pd 1 (pd 0 (ss α β)) = fun q => (α * Real.cos (α * q.1)) * (β * Real.cos (β * q.2)) := by
  funext q
  rw [ss_0]
  exact pd_y (by fun_prop) ((sin_deriv β q.2).const_mul (α * Real.cos (α * q.1)))

end

/-- No coupling of bending and twisting. -/
def Uncoupled (D : T3) : Prop := D 0 2 = 0 ∧ D 1 2 = 0 ∧ D 2 0 = 0 ∧ D 2 1 = 0

section
variable {a b α β : ℝ} {f : ℝ × ℝ → ℝ}

theorem navier_pair (D : T3) (ha : 0 ≤ a) (hb : 0 ≤ b) (hα : Real.sin (α * a) = 0)
    (hβ : Real.sin (β * b) = 0) (hf : ContDiff ℝ 2 f) (h0 : ∀ q, Edge a b q → f q = 0) (c0 c1 : ℝ) :
    ∫ q in rect a b, (c0 * (ss α β q * pd 0 (pd 0 f) q) + c1 * (ss α β q * pd 1 (pd 1 f) q)
      + 4 * D 2 2 * ((α * Real.cos (α * q.1)) * (β * Real.cos (β * q.2)) * pd 1 (pd 0 f) q))
      = (-c0 * α ^ 2 - c1 * β ^ 2 + 4 * D 2 2 * (α ^ 2 * β ^ 2)) * ∫ q in rect a b, ss α β q * f q := by
  have f00 : Continuous (pd 0 (pd 0 f)) := (pd_cont (n := 0) (pd_cont (n := 1) hf 0) 0).continuous
  have f11 : Continuous (pd 1 (pd 1 f)) := (pd_cont (n := 0) (pd_cont (n := 1) hf 1) 1).continuous
  have f01 : Continuous (pd 1 (pd 0 f)) := (pd_cont (n := 0) (pd_cont (n := 1) hf 0) 1).continuous
  have cs : Continuous (ss α β) := (ss_smooth α β).continuous
  have i0 : IntegrableOn (fun q => c0 * (ss α β q * pd 0 (pd 0 f) q)) (rect a b) :=
    rect_integrable (by fun_prop) a b
  have i1 : IntegrableOn (fun q => c1 * (ss α β q * pd 1 (pd 1 f) q)) (rect a b) :=
    rect_integrable (by fun_prop) a b
  have i2 : IntegrableOn (fun q => 4 * D 2 2 * ((α * Real.cos (α * q.1)) * (β * Real.cos (β * q.2))
      * pd 1 (pd 0 f) q)) (rect a b) := rect_integrable (by fun_prop) a b
  have e0 : ∫ q in rect a b, ss α β q * pd 0 (pd 0 f) q = -α ^ 2 * ∫ q in rect a b, ss α β q * f q :=
    twice_x ha hb hα hf h0 (h := fun y => Real.sin (β * y)) (by fun_prop)
  have e1 : ∫ q in rect a b, ss α β q * pd 1 (pd 1 f) q = -β ^ 2 * ∫ q in rect a b, ss α β q * f q :=
    twice_y ha hb hβ hf h0 (g := fun y => Real.sin (α * y)) (by fun_prop)
  have e2 : ∫ q in rect a b, (α * Real.cos (α * q.1)) * (β * Real.cos (β * q.2)) * pd 1 (pd 0 f) q
      = α ^ 2 * β ^ 2 * ∫ q in rect a b, ss α β q * f q := mixed ha hb hf h0
  have i01 : IntegrableOn (fun q => c0 * (ss α β q * pd 0 (pd 0 f) q) + c1 * (ss α β q * pd 1 (pd 1 f) q))
      (rect a b) := i0.add i1
  rw [integral_add i01 i2, integral_add i0 i1, integral_const_mul, integral_const_mul,
    integral_const_mul, e0, e1, e2]
  ring

theorem navier_left {D : T3} (hD : Uncoupled D) (ha : 0 ≤ a) (hb : 0 ≤ b) (hα : Real.sin (α * a) = 0)
    (hβ : Real.sin (β * b) = 0) (hf : ContDiff ℝ 2 f) (h0 : ∀ q, Edge a b q → f q = 0) :
    ∫ q in rect a b, bend D (ss α β) f q
      = (D 0 0 * α ^ 4 + (D 0 1 + D 1 0 + 4 * D 2 2) * α ^ 2 * β ^ 2 + D 1 1 * β ^ 4)
        * ∫ q in rect a b, ss α β q * f q := by
  have := navier_pair D ha hb hα hβ hf h0 (-(α ^ 2 * D 0 0 + β ^ 2 * D 1 0))
    (-(α ^ 2 * D 0 1 + β ^ 2 * D 1 1))
  obtain ⟨h1, h2, h3, h4⟩ := hD
  rw [show (D 0 0 * α ^ 4 + (D 0 1 + D 1 0 + 4 * D 2 2) * α ^ 2 * β ^ 2 + D 1 1 * β ^ 4)
    = (- -(α ^ 2 * D 0 0 + β ^ 2 * D 1 0) * α ^ 2 - -(α ^ 2 * D 0 1 + β ^ 2 * D 1 1) * β ^ 2
      + 4 * D 2 2 * (α ^ 2 * β ^ 2)) by ring, ← this]
  congr 1
  funext q
  simp only [bend, dotV, rowMul, kap, Fin.sum_univ_three, vec3_zero, vec3_one, vec3_two, h1, h2, h3, h4,
    ss_00, ss_11, ss_01]
  ring

theorem navier_right {D : T3} (hD : Uncoupled D) (ha : 0 ≤ a) (hb : 0 ≤ b) (hα : Real.sin (α * a) = 0)
    (hβ : Real.sin (β * b) = 0) (hf : ContDiff ℝ 2 f) (h0 : ∀ q, Edge a b q → f q = 0) :
    ∫ q in rect a b, bend D f (ss α β) q
      = (D 0 0 * α ^ 4 + (D 0 1 + D 1 0 + 4 * D 2 2) * α ^ 2 * β ^ 2 + D 1 1 * β ^ 4)
        * ∫ q in rect a b, ss α β q * f q := by
  have := navier_pair D ha hb hα hβ hf h0 (-(α ^ 2 * D 0 0 + β ^ 2 * D 0 1))
    (-(α ^ 2 * D 1 0 + β ^ 2 * D 1 1))
  obtain ⟨h1, h2, h3, h4⟩ := hD
  rw [show (D 0 0 * α ^ 4 + (D 0 1 + D 1 0 + 4 * D 2 2) * α ^ 2 * β ^ 2 + D 1 1 * β ^ 4)
    = (- -(α ^ 2 * D 0 0 + β ^ 2 * D 0 1) * α ^ 2 - -(α ^ 2 * D 1 0 + β ^ 2 * D 1 1) * β ^ 2
      + 4 * D 2 2 * (α ^ 2 * β ^ 2)) by ring, ← this]
  congr 1
  funext q
  simp only [bend, dotV, rowMul, kap, Fin.sum_univ_three, vec3_zero, vec3_one, vec3_two, h1, h2, h3, h4,
    ss_00, ss_11, ss_01]
  ring

end

end Verif.Plate
