import Verif.Lemmas.Plate
import Verif.Lemmas.Sine
import Verif.Lemmas.SystemModuli
import Verif.Props.Composite

/-! # Lemmas: completeness of Navier's modes, moduli of a flat plate -/

namespace Verif.Plate

open V3 Geometry Fields MeasureTheory Verif.Variation Verif.Balance Spec.Balloon Spec.Plate Verif.Balloon
open Verif.Integrate (Rule)

/-! ## Completeness -/

theorem modes_complete {a b : ℝ} (ha : 0 < a) (hb : 0 < b) {f : ℝ × ℝ → ℝ} (hf : Continuous f)
    (h0 : ∀ q, Edge a b q → f q = 0)
    (h : ∀ m n : ℕ, ∫ q in rect a b, ss (m * Real.pi / a) (n * Real.pi / b) q * f q = 0) :
    ∀ q ∈ rect a b, f q = 0 := by
  have inner : ∀ (m : ℕ), ∀ y ∈ Set.Icc 0 b,
      ∫ x in (0 : ℝ)..a, Real.sin (m * Real.pi / a * x) * f (x, y) = 0 := by
    intro m
    have z : ∀ y, (∀ x, f (x, y) = 0) → ∫ x in (0 : ℝ)..a, Real.sin (m * Real.pi / a * x) * f (x, y) = 0 := by
      intro y hy
      simp [hy]
    refine sine_complete hb (f := fun y => ∫ x in (0 : ℝ)..a, Real.sin (m * Real.pi / a * x) * f (x, y))
      ?_ (z 0 fun x => h0 _ (Or.inr (Or.inr (Or.inl rfl)))) (z b fun x => h0 _ (Or.inr (Or.inr (Or.inr rfl)))) ?_
    · exact intervalIntegral.continuous_parametric_intervalIntegral_of_continuous' (by
        unfold Function.uncurry; fun_prop) _ _
    · intro n
      have := h m n
      rw [rect_yx (by have := (ss_smooth (m * Real.pi / a) (n * Real.pi / b)).continuous; fun_prop) ha.le hb.le]
        at this
      rw [← this]
      congr 1
      funext y
      rw [← intervalIntegral.integral_const_mul]
      congr 1
      funext x
      simp only [ss]
      ring
  intro q hq
  exact sine_complete ha (f := fun x => f (x, q.2)) (by fun_prop) (h0 _ (Or.inl rfl))
    (h0 _ (Or.inr (Or.inl rfl))) (fun m => inner m q.2 hq.2) q.1 hq.1

/-! ## Moduli -/

theorem flat_Acon : Acon flatS = ![![1, 0], ![0, 1]] := by
  have A : Acov flatS = ![![1, 0], ![0, 1]] := by
    funext i j
    rcases fin2_cases i with rfl | rfl <;> rcases fin2_cases j with rfl | rfl <;> simp [Acov, flatS, dot]
  have d : det2 (Acov flatS) = 1 := by rw [A]; simp [det2]
  have i00 : Acon flatS 0 0 = Acov flatS 1 1 / det2 (Acov flatS) := rfl
  have i01 : Acon flatS 0 1 = -(Acov flatS 0 1) / det2 (Acov flatS) := rfl
  have i10 : Acon flatS 1 0 = -(Acov flatS 1 0) / det2 (Acov flatS) := rfl
  have i11 : Acon flatS 1 1 = Acov flatS 0 0 / det2 (Acov flatS) := rfl
  funext i j
  rcases fin2_cases i with rfl | rfl <;> rcases fin2_cases j with rfl | rfl
  · rw [i00, d, A]; simp
  · rw [i01, d, A]; simp
  · rw [i10, d, A]; simp
  · rw [i11, d, A]; simp

/-- Plane-stress matrix of an isotropic material. -/
noncomputable def iso (E ν : ℝ) : T3 :=
  mk3 (E / (1 - ν ^ 2)) (ν * (E / (1 - ν ^ 2))) 0 (ν * (E / (1 - ν ^ 2))) (E / (1 - ν ^ 2)) 0
    0 0 ((E / (1 - ν ^ 2) - ν * (E / (1 - ν ^ 2))) / 2)

theorem flat_linear {E ν : ℝ} (hE : E ≠ 0) (h1 : 1 + ν ≠ 0) (h2 : 1 - 2 * ν ≠ 0) (h3 : 1 - ν ≠ 0) :
    Linear.matrix E ν (Acon flatS) = iso E ν := by
  have c : Linear.Cconst E ν = ν * (E / (1 - ν ^ 2)) := by
    have s : Linear.lam E ν + 2 * Linear.mu E ν = E * (1 - ν) / ((1 + ν) * (1 - 2 * ν)) := by
      unfold Linear.lam Linear.mu
      generalize hk : 1 - 2 * ν = k at *
      field_simp
      linear_combination -hk
    have e : (1 - ν ^ 2) = (1 - ν) * (1 + ν) := by ring
    rw [Linear.Cconst, s, e, Linear.lam, Linear.mu]
    generalize 1 - 2 * ν = k at *
    field_simp
  have m : 2 * Linear.mu E ν = E / (1 - ν ^ 2) - ν * (E / (1 - ν ^ 2)) := by
    have e : (1 - ν ^ 2) = (1 - ν) * (1 + ν) := by ring
    rw [e, Linear.mu]; field_simp
  funext i j
  rw [flat_Acon]
  rcases fin3_cases i with rfl | rfl | rfl <;> rcases fin3_cases j with rfl | rfl | rfl <;>
    simp [Linear.matrix, iso, Linear.Cval, c] <;> linarith

/-! ## Laminates -/

open Composite in
theorem acc_iso (f : ℝ → ℝ → ℝ) (F : ℝ → ℝ) (hF : ∀ t z, f t (z - t / 2) = F z - F (z - t)) (i j : Fin 3)
    {G : T3} (ls : List Layer) (hl : ∀ l ∈ ls, plyD l = G) (p zmid : ℝ) :
    acc f i j ls p zmid = G i j * (F (zmid - p) - F (zmid - p - (ls.map Layer.t).sum)) := by
  induction ls generalizing p with
  | nil => simp [acc]
  | cons l ls ih =>
    rw [acc, ih (fun x hx => hl x (List.mem_cons_of_mem _ hx)), hl l List.mem_cons_self, List.map_cons,
      List.sum_cons]
    have := hF l.t (zmid - p)
    rw [show zmid - (l.t / 2 + p) = zmid - p - l.t / 2 by ring, this,
      show zmid - (p + l.t) = zmid - p - l.t by ring, show zmid - p - (l.t + (ls.map Layer.t).sum)
        = zmid - p - l.t - (ls.map Layer.t).sum by ring]
    ring

section
open Composite
variable {ls : List Layer} {G : T3}

theorem abd_iso (w : Which) (F : ℝ → ℝ) (hF : ∀ t z, factor w t (z - t / 2) = F z - F (z - t))
    (hl : ∀ l ∈ ls, plyD l = G) (i j : Fin 3) :
    abd w ls i j = G i j * (F (thickness ls / 2) - F (-(thickness ls / 2))) := by
  rw [abd_eq, acc_iso _ F hF i j ls hl, sub_zero]
  have : thickness ls / 2 - (ls.map Layer.t).sum = -(thickness ls / 2) := by
    have : thickness ls = (ls.map Layer.t).sum := rfl
    rw [this]; ring
  rw [this]

theorem abd_B (hl : ∀ l ∈ ls, plyD l = G) (i j : Fin 3) : abd .B ls i j = 0 := by
  rw [abd_iso .B (fun z => z ^ 2 / 2) (fun t z => by simp only [factor]; ring) hl]; ring

theorem abd_C (hl : ∀ l ∈ ls, plyD l = G) (i j : Fin 3) : abd .C ls i j = 0 := by
  rw [abd_iso .C (fun z => z ^ 2 / 2) (fun t z => by simp only [factor]; ring) hl]; ring

theorem abd_D (hl : ∀ l ∈ ls, plyD l = G) (i j : Fin 3) :
    abd .D ls i j = thickness ls ^ 3 / 12 * G i j := by
  rw [abd_iso .D (fun z => z ^ 3 / 3) (fun t z => by simp only [factor]; ring) hl]; ring

end

theorem flat_acon0 : acon flatS 0 = ⟨1, 0, 0⟩ := by
  rw [acon, flat_Acon]; ext <;> simp [flatS]

theorem flat_acon1 : acon flatS 1 = ⟨0, 1, 0⟩ := by
  rw [acon, flat_Acon]; ext <;> simp [flatS]

theorem flat_toSurface (C : T3) :
    Composite.toSurface (flatS.a 0) (flatS.a 1) (acon flatS 0) (acon flatS 1) C = C := by
  have n0 : normalized (⟨1, 0, 0⟩ : V3) = ⟨1, 0, 0⟩ := by ext <;> norm_num [normalized, V3.norm, dot]
  have n1 : normalized (⟨0, 1, 0⟩ : V3) = ⟨0, 1, 0⟩ := by ext <;> norm_num [normalized, V3.norm, dot]
  have a0 : flatS.a 0 = ⟨1, 0, 0⟩ := by simp [flatS]
  have a1 : flatS.a 1 = ⟨0, 1, 0⟩ := by simp [flatS]
  have c : Composite.con2cart ⟨1, 0, 0⟩ ⟨0, 1, 0⟩ ⟨1, 0, 0⟩ ⟨0, 1, 0⟩ = mk3 1 0 0 0 1 0 0 0 1 := by
    simp [Composite.con2cart, dot]
  have r : Composite.cart2cov ⟨1, 0, 0⟩ ⟨0, 1, 0⟩ ⟨1, 0, 0⟩ ⟨0, 1, 0⟩ = mk3 1 0 0 0 1 0 0 0 1 := by
    have : Composite.cart2covRaw ⟨1, 0, 0⟩ ⟨0, 1, 0⟩ ⟨1, 0, 0⟩ ⟨0, 1, 0⟩ = mk3 1 0 0 0 1 0 0 0 1 := by
      simp [Composite.cart2covRaw, dot]
    rw [Composite.cart2cov, this]
    funext i j
    rcases fin3_cases i with rfl | rfl | rfl <;> rcases fin3_cases j with rfl | rfl | rfl <;>
      simp [inv3, det3, mk3]
  rw [Composite.toSurface, a0, a1, flat_acon0, flat_acon1, n0, n1, c, r]
  funext i j
  rcases fin3_cases i with rfl | rfl | rfl <;> rcases fin3_cases j with rfl | rfl | rfl <;>
    simp [mul3, Fin.sum_univ_three]

theorem flat_laminate (r : Rule) (t : ℝ) (ls : List Composite.Layer) :
    (System.laminateModuli r t ls flatS).B = Composite.abd .B ls ∧
    (System.laminateModuli r t ls flatS).C = Composite.abd .C ls ∧
    (System.laminateModuli r t ls flatS).D = Composite.abd .D ls := by
  have e : ∀ C, Composite.toSurface (flatS.a 0) (flatS.a 1) (acon flatS 0) (acon flatS 1) C = C :=
    flat_toSurface
  refine ⟨?_, ?_, ?_⟩
  · exact e (Composite.abd .B ls)
  · exact e (Composite.abd .C ls)
  · exact e (Composite.abd .D ls)

end Verif.Plate
