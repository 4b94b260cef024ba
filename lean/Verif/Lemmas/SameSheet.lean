import Verif.Model.SameSheet
import Verif.Spec.SameSheet
import Verif.Lemmas.Penalty
import Verif.Props.Composite
import Verif.Props.Newton
import Verif.Props.Integrate
import Verif.Props.HyperReference
import Verif.Lemmas.Queries
import Verif.Lemmas.ShellTangent

/-! # Lemmas: the isotropic sheet through different material classes -/

namespace Verif.SameSheet

open V3 Geometry Transform Verif.Hyper Spec.SameSheet
open Verif.Integrate (Rule)
open Verif.Balance (Section)

/-! ## The specification in coordinates -/

theorem det2_Acov (s : Surf) : det2 (Acov s) =
    dot (s.a 0) (s.a 0) * dot (s.a 1) (s.a 1) - dot (s.a 0) (s.a 1) * dot (s.a 0) (s.a 1) := by
  simp only [det2, Acov, dot_comm (s.a 1) (s.a 0)]

theorem upper_eq (s : Surf) : upper s.a = Acon s := by
  funext i j
  have h := det2_Acov s
  rcases fin2_cases i with rfl | rfl <;> rcases fin2_cases j with rfl | rfl <;>
    simp [upper, Acon, inv2, h] <;> simp [Acov, dot_comm (s.a 1) (s.a 0)]

theorem planeStress_eq {E ν : ℝ} (h1 : 1 + ν ≠ 0) (h3 : 1 - ν ≠ 0) (G : T2) (i j k l : Fin 2) :
    planeStress E ν G i j k l = Spec.Hyper.hooke E ν G i j k l := by
  simp only [planeStress, Spec.Hyper.hooke]
  rw [show 1 - ν ^ 2 = (1 + ν) * (1 - ν) by ring]
  field_simp
  ring

/-- A matrix filled with the entries of Hooke's tensor is the specified matrix. -/
theorem planeMatrix_eq {E ν : ℝ} (h1 : 1 + ν ≠ 0) (h3 : 1 - ν ≠ 0) (s : Surf) {T : Fin 2 → Fin 2 → Fin 2 → Fin 2 → ℝ}
    (hT : ∀ i j k l, T i j k l = Spec.Hyper.hooke E ν (Acon s) i j k l) :
    mk3 (T 0 0 0 0) (T 0 0 1 1) (T 0 0 0 1) (T 0 0 1 1) (T 1 1 1 1) (T 1 1 0 1) (T 0 0 0 1) (T 1 1 0 1) (T 0 1 0 1)
      = planeMatrix E ν s.a := by
  have hs : Acon s 0 1 = Acon s 1 0 := by simp [Acon, inv2, Acov, dot_comm (s.a 1) (s.a 0)]
  funext i j
  rcases fin3_cases i with rfl | rfl | rfl <;> rcases fin3_cases j with rfl | rfl | rfl <;>
    simp [planeMatrix, pair, planeStress_eq h1 h3, upper_eq, hT] <;> simp [Spec.Hyper.hooke, hs] <;> ring

/-! ## Integration through the thickness -/

/-- Moduli of a matrix that does not depend on the height, by numerical integration. -/
theorem moduli_numeric {r : Rule} (hr : r.Exact 2) (t : ℝ) (C : Verif.Linear.Output → ℝ → T3) (H : T3)
    (h : ∀ o ξ, C o ξ = H) : System.moduli .notIntegrated r t C =
      ⟨fun i j => t * H i j, fun _ _ => 0, fun _ _ => 0, fun i j => t ^ 3 / 12 * H i j, fun _ => 0, fun _ => 0⟩ := by
  have hk : ∀ m ≤ 2, r.Exact m := fun m hm k hk => hr k (hk.trans hm)
  have e : ∀ m ≤ 2, ∀ g, Integrate.integrateZ r t m (fun _ => g) = Integrate.multiplyZ t m (fun _ => g) :=
    fun m hm g => Integrate.C24_agrees_with_constant r t m (hk m hm) g
  simp only [System.moduli]
  congr 1 <;> funext i j <;>
    simp only [System.modulus, Integrate.evalInto, Integrate.getMoment, h] <;> rw [e _ (by norm_num)] <;>
    norm_num [Integrate.multiplyZ] <;> ring

theorem moduli_constant (r : Rule) (t : ℝ) (H : T3) : System.moduli .constant r t (fun _ _ => H) =
      ⟨fun i j => t * H i j, fun _ _ => 0, fun _ _ => 0, fun i j => t ^ 3 / 12 * H i j, fun _ => 0, fun _ => 0⟩ := by
  simp only [System.moduli]
  congr 1 <;> funext i j <;>
    simp only [System.modulus, Integrate.evalInto, Integrate.constMoment, Integrate.getMoment] <;>
    norm_num [Integrate.multiplyZ] <;> ring

/-! ## Laminates -/

open Composite in
/-- Moments of a stack of plies with the same rotated stiffness. -/
theorem sumInt_const (m : ℕ) (i j : Fin 3) (H : T3) (ls : List Layer) (h : ∀ l ∈ ls, plyD l = H) (z : ℝ) :
    sumInt m i j ls z = H i j * ((z ^ (m + 1) - (z - thickness ls) ^ (m + 1)) / ((m : ℝ) + 1)) := by
  induction ls generalizing z with
  | nil => simp [sumInt, thickness]
  | cons l ls ih =>
    rw [sumInt, ih (fun x hx => h x (List.mem_cons_of_mem _ hx)), h l List.mem_cons_self, thickness_cons,
      show z - l.t - thickness ls = z - (l.t + thickness ls) by ring]
    ring

open Composite in
theorem abd_const (H : T3) (ls : List Layer) (h : ∀ l ∈ ls, plyD l = H) :
    abd .A ls = (fun i j => thickness ls * H i j) ∧ abd .B ls = (fun _ _ => 0) ∧ abd .C ls = (fun _ _ => 0) ∧
      abd .D ls = fun i j => thickness ls ^ 3 / 12 * H i j := by
  refine ⟨?_, ?_, ?_, ?_⟩ <;> funext i j <;> rw [abd_eq]
  · rw [acc_eq_sumInt 0 (factor .A) i j (fun t h => by simp [factor]), sumInt_const 0 i j H ls h]
    norm_num; ring
  · rw [acc_eq_sumInt 1 (factor .B) i j (fun t h => by simp [factor]; ring), sumInt_const 1 i j H ls h]
    norm_num; right; ring
  · rw [acc_eq_sumInt 1 (factor .C) i j (fun t h => by simp [factor]; ring), sumInt_const 1 i j H ls h]
    norm_num; right; ring
  · rw [acc_eq_sumInt 2 (factor .D) i j (fun t h => by simp [factor]; ring), sumInt_const 2 i j H ls h]
    norm_num; ring

/-- The second axis of the laminate is the second axis of the local frame. -/
theorem axis (s : Surf) (h : Indep (s.a 0) (s.a 1)) : normalized (acon s 1) = e2 s := by
  obtain ⟨p, q, r, hp, hr, h1, h2, h3, h4, g00, g01, g10, g11⟩ := Penalty.coords s h
  obtain ⟨-, -, c00, c01, c10, c11⟩ := Penalty.matrices s p q r hp hr h1 h2 h3 h4 g00 g01 g10 g11
  have hn : V3.norm (s.a 0) = p := by
    rw [V3.norm, show dot (s.a 0) (s.a 0) = p ^ 2 from g00, Real.sqrt_sq hp.le]
  have ha : acon s 1 = (1 / r ^ 2) • (s.a 1 - dot (s.a 1) (e1 s) • e1 s) := by
    have e : e1 s = (1 / p) • s.a 0 := by rw [e1, normalized, hn]
    rw [dot_comm, h3, acon, c10, c11, e]
    ext <;> simp <;> field_simp <;> ring
  have hk : (0 : ℝ) < 1 / r ^ 2 := by positivity
  rw [ha, Queries.normalized_smul _ _ hk.ne', abs_of_pos hk, div_self hk.ne', e2]
  ext <;> simp

/-- The change of basis of the laminate in the coordinates `a1 = p e1`, `a2 = q e1 + r e2`. -/
theorem toSurface_coords (s : Surf) (h : Indep (s.a 0) (s.a 1)) :
    ∃ p q r : ℝ, 0 < p ∧ 0 < r ∧ dot (s.a 0) (s.a 1) = p * q ∧ Acon s 0 0 = (q ^ 2 + r ^ 2) / (p ^ 2 * r ^ 2) ∧
      Acon s 0 1 = -q / (p * r ^ 2) ∧ Acon s 1 0 = -q / (p * r ^ 2) ∧ Acon s 1 1 = 1 / r ^ 2 ∧
      ∀ D, Composite.toSurface (s.a 0) (s.a 1) (acon s 0) (acon s 1) D =
        mul3 (mul3 (inv3 (mk3 (p * p) (q * r) (2 * p * q) 0 (r * r) 0 0 (q * r) (p * r))) D)
          (mk3 (1 / p * (1 / p)) 0 0 (q ^ 2 / (p ^ 2 * r ^ 2)) (1 / r * (1 / r)) (-(2 * q) / (p * r ^ 2))
            (-q / (p ^ 2 * r)) 0 (1 / p * (1 / r))) := by
  obtain ⟨p, q, r, hp, hr, h1, h2, h3, h4, g00, g01, g10, g11⟩ := Penalty.coords s h
  obtain ⟨-, -, c00, c01, c10, c11⟩ := Penalty.matrices s p q r hp hr h1 h2 h3 h4 g00 g01 g10 g11
  refine ⟨p, q, r, hp, hr, g01, c00, c01, c10, c11, fun D => ?_⟩
  have e10 : dot (e1 s) (acon s 0) = 1 / p := by
    unfold acon; rw [dot_add_right, dot_smul_right, dot_smul_right, h1, h3, c00, c01]
    field_simp; ring
  have e20 : dot (e2 s) (acon s 0) = -q / (p * r) := by
    unfold acon; rw [dot_add_right, dot_smul_right, dot_smul_right, h2, h4, c00, c01]
    field_simp; ring
  have e11 : dot (e1 s) (acon s 1) = 0 := by
    unfold acon; rw [dot_add_right, dot_smul_right, dot_smul_right, h1, h3, c10, c11]
    field_simp; ring
  have e21 : dot (e2 s) (acon s 1) = 1 / r := by
    unfold acon; rw [dot_add_right, dot_smul_right, dot_smul_right, h2, h4, c10, c11]
    field_simp; ring
  have k1 := dot_comm (s.a 0) (e1 s); have k2 := dot_comm (s.a 0) (e2 s)
  have k3 := dot_comm (s.a 1) (e1 s); have k4 := dot_comm (s.a 1) (e2 s)
  have m1 := dot_comm (acon s 0) (e1 s); have m2 := dot_comm (acon s 0) (e2 s)
  have m3 := dot_comm (acon s 1) (e1 s); have m4 := dot_comm (acon s 1) (e2 s)
  unfold Composite.toSurface Composite.cart2cov
  rw [axis s h, show normalized (s.a 0) = e1 s from rfl]
  congr 2
  · congr 1
    funext i j
    rcases fin3_cases i with rfl | rfl | rfl <;> rcases fin3_cases j with rfl | rfl | rfl <;>
      simp [Composite.cart2covRaw, k1, k2, k3, k4, h1, h2, h3, h4]
  · funext i j
    rcases fin3_cases i with rfl | rfl | rfl <;> rcases fin3_cases j with rfl | rfl | rfl <;>
      simp [Composite.con2cart, m1, m2, m3, m4, e10, e20, e11, e21] <;> field_simp

theorem toSurface_zero (a b c d : V3) : Composite.toSurface a b c d (fun _ _ => 0) = fun _ _ => 0 := by
  funext i j
  simp [Composite.toSurface, mul3]

theorem toSurface_smul (a b c d : V3) (t : ℝ) (H : T3) :
    Composite.toSurface a b c d (fun i j => t * H i j) = fun i j => t * Composite.toSurface a b c d H i j := by
  funext i j
  simp only [Composite.toSurface, mul3, Finset.mul_sum, Finset.sum_mul]
  refine Finset.sum_congr rfl fun _ _ => Finset.sum_congr rfl fun _ _ => by ring

/-- Matrix of an isotropic ply. -/
noncomputable def plyMatrix (E ν : ℝ) : T3 :=
  mk3 (E / (1 - ν * ν)) (ν * E / (1 - ν * ν)) 0 (ν * E / (1 - ν * ν)) (E / (1 - ν * ν)) 0 0 0 (E / (2 * (1 + ν)))

theorem ply_iso {E ν : ℝ} (h1 : 1 + ν ≠ 0) (h3 : 1 - ν ≠ 0) (l : Composite.Layer) (h : l.G = plyMatrix E ν) :
    Composite.plyD l = plyMatrix E ν := by
  have e : plyMatrix E ν = mk3 (E / (1 - ν * ν)) (ν * E / (1 - ν * ν)) 0 (ν * E / (1 - ν * ν)) (E / (1 - ν * ν)) 0 0 0
      ((E / (1 - ν * ν) - ν * E / (1 - ν * ν)) / 2) := by
    unfold plyMatrix
    congr 1
    rw [show 1 - ν * ν = (1 + ν) * (1 - ν) by ring]
    field_simp
  obtain ⟨t, G, φ, ρ⟩ := l
  simp only at h
  subst h
  funext i j
  rw [e]
  exact Composite.C31_isotropic t ρ φ _ _ i j

theorem laminate_moduli {E ν : ℝ} (h1 : 1 + ν ≠ 0) (h3 : 1 - ν ≠ 0) (r : Rule) (t : ℝ) (ls : List Composite.Layer)
    (h : ∀ l ∈ ls, l.G = plyMatrix E ν) (s : Surf) :
    let H := Composite.toSurface (s.a 0) (s.a 1) (acon s 0) (acon s 1) (plyMatrix E ν)
    System.laminateModuli r t ls s = ⟨fun i j => Composite.thickness ls * H i j, fun _ _ => 0, fun _ _ => 0,
      fun i j => Composite.thickness ls ^ 3 / 12 * H i j, fun _ => 0, fun _ => 0⟩ := by
  intro H
  obtain ⟨hA, hB, hC, hD⟩ := abd_const (plyMatrix E ν) ls fun l hl => ply_iso h1 h3 l (h l hl)
  simp only [System.laminateModuli, System.moduli]
  congr 1 <;> funext i j <;>
    simp only [System.modulus, Integrate.evalInto, System.which, hA, hB, hC, hD, toSurface_zero, toSurface_smul, H]

theorem toSurface_orthogonal {E ν : ℝ} (h1 : 1 + ν ≠ 0) (h3 : 1 - ν ≠ 0) (s : Surf) (h : Indep (s.a 0) (s.a 1))
    (ho : dot (s.a 0) (s.a 1) = 0) :
    Composite.toSurface (s.a 0) (s.a 1) (acon s 0) (acon s 1) (plyMatrix E ν) = planeMatrix E ν s.a := by
  obtain ⟨p, q, r, hp, hr, hq, c00, c01, c10, c11, hT⟩ := toSurface_coords s h
  have hq0 : q = 0 := by
    rcases mul_eq_zero.1 (hq.symm.trans ho) with h | h
    · exact absurd h hp.ne'
    · exact h
  subst hq0
  rw [hT]
  have e := fun i j => Composite.toSurface_orthogonal_aux p r hp.ne' hr.ne' (plyMatrix E ν) i j
  have hk : 1 - ν * ν = (1 + ν) * (1 - ν) := by ring
  have hk2 : 1 - ν ^ 2 = (1 + ν) * (1 - ν) := by ring
  funext i j
  have := e i j
  simp only [zero_mul, mul_zero, neg_zero, zero_div, ne_eq, OfNat.ofNat_ne_zero, not_false_eq_true, zero_pow] at this ⊢
  rw [this]
  rcases fin3_cases i with rfl | rfl | rfl <;> rcases fin3_cases j with rfl | rfl | rfl <;>
    simp [plyMatrix, planeMatrix, pair, planeStress, upper_eq, c00, c01, c10, c11, hk, hk2] <;> field_simp <;> ring

/-- Entry of the second normal strain and the shear: twice the right value. -/
theorem toSurface_skew {E ν : ℝ} (h1 : 1 + ν ≠ 0) (h3 : 1 - ν ≠ 0) (s : Surf) (h : Indep (s.a 0) (s.a 1)) :
    Composite.toSurface (s.a 0) (s.a 1) (acon s 0) (acon s 1) (plyMatrix E ν) 1 2 = 2 * planeMatrix E ν s.a 1 2 ∧
      planeMatrix E ν s.a 1 2 = E / (1 - ν ^ 2) * (Acon s 1 1 * Acon s 0 1) ∧
      (dot (s.a 0) (s.a 1) ≠ 0 → Acon s 1 1 * Acon s 0 1 ≠ 0) := by
  obtain ⟨p, q, r, hp, hr, hq, c00, c01, c10, c11, hT⟩ := toSurface_coords s h
  have hk : 1 - ν * ν = (1 + ν) * (1 - ν) := by ring
  have hk2 : 1 - ν ^ 2 = (1 + ν) * (1 - ν) := by ring
  refine ⟨?_, ?_, fun hne => ?_⟩
  · rw [hT]
    simp [mul3, inv3, det3, Fin.sum_univ_three, plyMatrix, planeMatrix, pair, planeStress, upper_eq, c01, c10, c11,
      hk, hk2]
    field_simp
    ring
  · have hp1 : pair 1 = (1, 1) := rfl
    have hp2 : pair 2 = (0, 1) := rfl
    simp only [planeMatrix, hp1, hp2, planeStress, upper_eq, c01, c10, c11]
    ring
  · have : q ≠ 0 := fun h => hne (by rw [hq, h, mul_zero])
    rw [c11, c01]
    exact mul_ne_zero (by positivity) (div_ne_zero (neg_ne_zero.2 this) (by positivity))

/-! ## Hyperelastic materials on a flat shell -/

theorem flat_Gblock (s : Surf) (h : ∀ i j, Bcov s i j = 0) (z : ℝ) : Gblock s z = Acov s := by
  have hn : ∀ i, ncov s i = 0 := by
    intro i
    ext <;> simp [ncov, mixedB, h]
  funext i j
  simp [Gblock, h, hn, dot]

theorem Acov_det (s : Surf) (h : Indep (s.a 0) (s.a 1)) : det2 (Acov s) ≠ 0 := by
  obtain ⟨p, q, r, hp, hr, -, -, -, -, g00, g01, g10, g11⟩ := Penalty.coords s h
  have : det2 (Acov s) = p ^ 2 * r ^ 2 := by simp only [det2, g00, g01, g10, g11]; ring
  rw [this]; positivity

/-- The moduli of a material whose tangent at the undeformed state is Hooke's tensor. -/
theorem hyper_flat {M : Planar.Material} {E ν : ℝ} (h1 : 1 + ν ≠ 0) (h3 : 1 - ν ≠ 0)
    (hM : ∀ A, det2 A ≠ 0 → A 0 1 = A 1 0 → ∀ i j k l : Fin 2,
      M.tangent (data A A) (up i) (up j) (up k) (up l) = Spec.Hyper.hooke E ν (inv2 A) i j k l)
    {r : Rule} (hr : r.Exact 2) (t : ℝ) (s : Surf) (h : Indep (s.a 0) (s.a 1)) (hb : ∀ i j, Bcov s i j = 0) :
    hyperModuli M r t s = isotropic E ν t s.a := by
  have hs : Acov s 0 1 = Acov s 1 0 := dot_comm _ _
  rw [hyperModuli, moduli_numeric hr t _ (planeMatrix E ν s.a)]
  · rfl
  · intro o ξ
    rw [← planeMatrix_eq h1 h3 s (T := fun i j k l => M.tangent (data (Acov s) (Acov s)) (up i) (up j) (up k) (up l))
      (hM _ (Acov_det s h) hs)]
    simp only [Planar.Material.law, flat_Gblock s hb]
    rfl

theorem cNH_ref (p : Par) (A : T2) (hA : det2 A ≠ 0) (hs : A 0 1 = A 1 0) (i j k l : Fin 2) :
    cNH p (data A A) (up i) (up j) (up k) (up l) = Spec.Hyper.hooke (3 * p.mu) (1 / 2) (inv2 A) i j k l :=
  (C47_incompressible ⟨p.E, p.ν, 1⟩ A hA hs (by norm_num) i j k l).1

/-! ## Transverse stiffness at the undeformed state -/

theorem lam_two_mu_ne {p : Par} (hE : p.E ≠ 0) (h1 : 1 + p.ν ≠ 0) (h2 : 1 - 2 * p.ν ≠ 0) (h3 : 1 - p.ν ≠ 0) :
    p.lam + 2 * p.mu ≠ 0 := by
  have := Linear.lam_two_mu p.E p.ν h1 h2
  simp only [Linear.lam, Linear.mu] at this
  simp only [Par.lam, Par.mu]
  rw [this]
  exact div_ne_zero (mul_ne_zero hE h3) (mul_ne_zero h1 h2)

theorem transverse {p : Par} {A : T2} (hA : det2 A ≠ 0) (hs : A 0 1 = A 1 0) (h1 : 1 + p.ν ≠ 0)
    (h2 : 1 - 2 * p.ν ≠ 0) (hr : p.r + 1 ≠ 0) :
    cNHc p (cdata (data A A) 1) 2 2 2 2 = p.lam + 2 * p.mu ∧ cMRc p (cdata (data A A) 1) 2 2 2 2 = p.lam + 2 * p.mu ∧
      cNHe p (cdata (data A A) 1) 2 2 2 2 = p.lam + 2 * p.mu := by
  obtain ⟨hJ, hI1, hI2, hci, hG, hJ0, hc22, htr⟩ := ref_facts A hA hs
  have hK := ref_K p h1 h2
  have hc : p.c1 = p.mu - p.c2 := by
    simp only [Par.c1, Par.c2]; field_simp; ring
  refine ⟨?_, ?_, ?_⟩
  · simp only [cNHc, dCinv, hJ, hI1, hci, hG, Real.one_rpow, hK, embed_22]
    ring
  · simp only [cMRc, d2I2, dI2, dI1, idelta, delta, if_true, dCinv, hJ, hI1, hI2, hci, hG, htr, Real.one_rpow, hK, hc,
      embed_22]
    ring
  · simp only [cNHe, dCinv, hJ, hci, embed_22]
    ring

/-! ## A curved shell -/

theorem quartic {x : ℝ} (h : |x| < 1) : 1 + 4 * x ≤ ((1 - x) ^ 4)⁻¹ ∧ (x ≠ 0 → 1 + 4 * x < ((1 - x) ^ 4)⁻¹) := by
  obtain ⟨ha, hb⟩ := abs_lt.1 h
  have h1 : 0 < 1 - x := by linarith
  have e : ((1 - x) ^ 4)⁻¹ - (1 + 4 * x) = x ^ 2 * (10 - 20 * x + 15 * x ^ 2 - 4 * x ^ 3) / (1 - x) ^ 4 := by
    field_simp; ring
  have hp : 0 < 10 - 20 * x + 15 * x ^ 2 - 4 * x ^ 3 := by
    nlinarith [mul_pos h1 h1, mul_pos (mul_pos h1 h1) h1, sq_nonneg (1 - x)]
  constructor
  · have : 0 ≤ x ^ 2 * (10 - 20 * x + 15 * x ^ 2 - 4 * x ^ 3) / (1 - x) ^ 4 := by positivity
    linarith
  · intro hx
    have : 0 < x ^ 2 * (10 - 20 * x + 15 * x ^ 2 - 4 * x ^ 3) / (1 - x) ^ 4 := by positivity
    linarith

open ShellTangent in
/-- Membrane modulus of the incompressible neo-Hookean cylinder. -/
theorem curved_modulus (p : Par) (r : Rule) (t κ : ℝ) (h : ∀ j, κ * (r.ξ j * t) ≠ 1) :
    (hyperModuli (PatchTest.neo p) r t (curved κ)).A 0 0 =
      ∑ j, r.w j * (4 * p.mu * ((1 - κ * (r.ξ j * t)) ^ 4)⁻¹) * t := by
  simp only [hyperModuli, System.moduli, System.modulus, Integrate.evalInto, Integrate.getMoment, Integrate.integrateZ,
    pow_zero, mul_one]
  refine Finset.sum_congr rfl fun j _ => ?_
  congr 2
  have hz : 1 - r.ξ j * t * κ ≠ 0 := fun e => h j (by linarith)
  have hd : det2 (Gblock (curved κ) (r.ξ j * t)) ≠ 0 := by
    rw [curved_G]; simp [det2, hz]
  have hs : Gblock (curved κ) (r.ξ j * t) 0 1 = Gblock (curved κ) (r.ξ j * t) 1 0 := by
    rw [curved_G]; simp
  have e := cNH_ref p _ hd hs
  have : fillMatrix (((PatchTest.neo p).law (curved κ)).tangent (r.ξ j * t) (Gblock (curved κ) (r.ξ j * t))) 0 0
      = cNH p (data (Gblock (curved κ) (r.ξ j * t)) (Gblock (curved κ) (r.ξ j * t))) (up 0) (up 0) (up 0) (up 0) := rfl
  rw [this, e 0 0 0 0, curved_G]
  simp [Spec.Hyper.hooke, inv2, det2]
  rw [show κ * (r.ξ j * t) = r.ξ j * t * κ by ring]
  field_simp
  ring

end Verif.SameSheet
