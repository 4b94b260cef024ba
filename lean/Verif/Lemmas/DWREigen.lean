import Verif.Spec.DWREigen
import Verif.Lemmas.DWRError

/-! # Lemmas for the eigenvalue estimates -/

namespace Verif.DWR

open V3 Verif.Geometry Verif.Variation

variable {α : Type}

theorem rowMul_sub (x y : Voigt) (A : T3) (j : Fin 3) :
    rowMul (fun k => x k - y k) A j = rowMul x A j - rowMul y A j := by
  simp [rowMul, sub_mul, Finset.sum_sub_distrib]

theorem matPart_lin (mm : T3 × T3 × T3 × T3) (s u v : Surf) :
    matPart mm (EmDer s u) (EfDer s u) (EmDer s v) (EfDer s v)
      = linStiffness s u v mm.1 mm.2.1 mm.2.2.1 mm.2.2.2 := rfl

theorem matPart_sub (mm : T3 × T3 × T3 × T3) (e1 e2 f1 f2 e' f' : Voigt) :
    matPart mm (fun k => e1 k - e2 k) (fun k => f1 k - f2 k) e' f'
      = matPart mm e1 f1 e' f' - matPart mm e2 f2 e' f' := by
  unfold matPart
  simp only [rowMul_sub, dotV, ← Finset.sum_add_distrib, ← Finset.sum_sub_distrib]
  exact Finset.sum_congr rfl fun k _ => by ring

theorem EmDer_diff' (s zL zH : Surf) :
    EmDer s (jacDiff zL zH) = fun k => EmDer s zH k - EmDer s zL k :=
  funext fun k => EmDer_diff s zL zH k

theorem EfDiff_eq' (s zL zH : Surf) : EfDiff s zL zH = fun k => EfDer s zH k - EfDer s zL k :=
  funext fun k => EfDiff_eq s zL zH k

theorem modalExpr_eq (lP lL lH : ℝ) (p : EigPt) (u zL zH : EigFld) :
    modalExpr lP lL lH p u zL zH
      = linStiffness p.ori zH.d u.d p.mm.1 p.mm.2.1 p.mm.2.2.1 p.mm.2.2.2
        - linStiffness p.ori zL.d u.d p.mm.1 p.mm.2.1 p.mm.2.2.1 p.mm.2.2.2
        - lP * (p.rho * dot zH.w u.w - p.rho * dot zL.w u.w) + (lH - lL) * (p.rho * dot u.w u.w) := by
  rw [← matPart_lin, ← matPart_lin, ← matPart_sub, ← EmDer_diff', ← EfDiff_eq']
  have : dot u.w (zH.w - zL.w) = dot zH.w u.w - dot zL.w u.w := by simp [dot]; ring
  simp only [modalExpr, matPart, this]
  ring

theorem deriv2dot_flat (s : Surf) (h : Flat s) (w : V3) : deriv2dot s w = fun _ => 0 := by
  obtain ⟨h1, h2, h3⟩ := h
  funext k
  rcases fin3_cases k with rfl | rfl | rfl <;> simp [deriv2dot, h1, h2, h3, dot]

theorem EfMinus_flat (s u : Surf) (h : Flat s) : EfMinus s u = EfDer s u := by
  funext k
  simp [EfMinus, EfDer, deriv2dot_flat s h]

theorem EfdMinus_flat (s zL zH : Surf) (h : Flat s) :
    EfdMinus s zL zH = fun k => EfDer s zH k - EfDer s zL k := by
  funext k
  simp only [EfdMinus, EfDer, deriv2dot_flat s h]
  rcases fin3_cases k with rfl | rfl | rfl <;> simp [dbl3] <;> ring

theorem EmDer_EmDer2 (u v : Surf) (N : Voigt) : dotV (EmDer u v) N = EmDer2 v u N := by
  simp [dotV, EmDer, EmDer2, dot, Fin.sum_univ_three]; ring

theorem dotV_zero (w : Voigt) : dotV (fun _ => 0) w = 0 := by simp [dotV]

theorem stiffness_flat (s u v : Surf) (A B C D : T3) (N : Voigt) :
    stiffness s u v A B C D N (fun _ => 0)
      = linStiffness s u v A B C D + EmDer2 u v N := by
  have h : EfDer2 s u v (fun _ => 0) = 0 := by
    simp [EfDer2, flatdot2, var2deriv2, dotV]
  rw [stiffness, linStiffness, h]; ring

theorem bucklingExpr_flat (lP lL lH : ℝ) (p : EigPt) (u zL zH : EigFld) (h1 : Flat p.ori)
    (h2 : Flat p.defo) (h3 : p.M = fun _ => 0) :
    bucklingExpr lP lL lH p u zL zH
      = let a := fun z w : EigFld =>
          linStiffness p.ori z.d w.d p.mm.1 p.mm.2.1 p.mm.2.2.1 p.mm.2.2.2
        let t := fun z w : EigFld =>
          stiffness p.defo z.d w.d p.mmN.1 p.mmN.2.1 p.mmN.2.2.1 p.mmN.2.2.2 p.N p.M
        (a zH u - a zL u) - lP * ((t zH u - t zL u) - (a zH u - a zL u))
          + (lH - lL) * (t u u - a u u) := by
  simp only [bucklingExpr, KdL, KdNL, KL, KNL, Efd2, Ef2, h3, dotV_zero, EfMinus_flat _ _ h1,
    EfMinus_flat _ _ h2, EfdMinus_flat _ _ _ h1, EfdMinus_flat _ _ _ h2, EmDer_diff', matPart_sub,
    matPart_lin, stiffness_flat]
  have e : dotV (fun k => EmDer u.d zH.d k - EmDer u.d zL.d k) p.N
      = EmDer2 zH.d u.d p.N - EmDer2 zL.d u.d p.N := by
    rw [← EmDer_EmDer2, ← EmDer_EmDer2]
    simp [dotV, sub_mul, Finset.sum_sub_distrib]
  rw [e, EmDer_EmDer2]
  ring

/-- Integrands of the forms at one point. -/
noncomputable def aAt (p : EigPt) (z u : EigFld) : ℝ :=
  linStiffness p.ori z.d u.d p.mm.1 p.mm.2.1 p.mm.2.2.1 p.mm.2.2.2

noncomputable def bAt (k : EigKind) (p : EigPt) (z u : EigFld) : ℝ :=
  match k with
  | .modal => p.rho * dot z.w u.w
  | .buckling =>
    stiffness p.defo z.d u.d p.mmN.1 p.mmN.2.1 p.mmN.2.2.1 p.mmN.2.2.2 p.N p.M - aAt p z u

theorem eigTotal_sub (D : EigSetup α) (f g : α → ℝ) :
    eigTotal D (fun q => f q - g q) = eigTotal D f - eigTotal D g := by
  rw [eigTotal, eigTotal, eigTotal, ← list_sum_sub]
  congr 1
  exact List.map_congr_left fun q _ => by ring

theorem eigTotal_smul (D : EigSetup α) (c : ℝ) (f : α → ℝ) :
    eigTotal D (fun q => c * f q) = c * eigTotal D f := by
  rw [eigTotal, eigTotal, ← List.sum_map_mul_left]
  congr 1
  exact List.map_congr_left fun q _ => by ring

theorem formB_eq (k : EigKind) (D : EigSetup α) (z u : α → EigFld) :
    formB k D z u = eigTotal D fun q => bAt k (D.pt q) (z q) (u q) := by
  cases k with
  | modal => rfl
  | buckling => rw [formB, formT, formA, ← eigTotal_sub]; rfl

theorem eig_point (k : EigKind) (D : EigSetup α) (hk : k = .buckling → FlatState D) (lP lL lH : ℝ)
    (u zL zH : α → EigFld) (q : α) :
    eigIntegrand k lP lL lH (D.pt q) (u q) (zL q) (zH q)
      = ((aAt (D.pt q) (zH q) (u q) - aAt (D.pt q) (zL q) (u q))
        - lP * (bAt k (D.pt q) (zH q) (u q) - bAt k (D.pt q) (zL q) (u q))
        - (lL - lH) * bAt k (D.pt q) (u q) (u q)) * area (D.pt q).ori := by
  cases k with
  | modal =>
    simp only [eigIntegrand, modalExpr_eq, aAt, bAt, measure_area]
    ring
  | buckling =>
    obtain ⟨h1, h2, h3⟩ := hk rfl q
    simp only [eigIntegrand, bucklingExpr_flat lP lL lH _ _ _ _ h1 h2 h3, aAt, bAt, measure_area]
    ring

theorem eig_sum (k : EigKind) (D : EigSetup α) (hk : k = .buckling → FlatState D) (lP lL lH : ℝ)
    (u zL zH : α → EigFld) :
    (D.elems.map (eigElem k lP lL lH D u zL zH)).sum
      = (formA D zH u - formA D zL u) - lP * (formB k D zH u - formB k D zL u)
        + (lH - lL) * formB k D u u := by
  have h1 : (D.elems.map (eigElem k lP lL lH D u zL zH)).sum
      = eigTotal D fun q => (aAt (D.pt q) (zH q) (u q) - aAt (D.pt q) (zL q) (u q))
        - lP * (bAt k (D.pt q) (zH q) (u q) - bAt k (D.pt q) (zL q) (u q))
        - (lL - lH) * bAt k (D.pt q) (u q) (u q) := by
    rw [eigTotal]
    have := sum_flatten D.elems
      fun q => D.wt q * eigIntegrand k lP lL lH (D.pt q) (u q) (zL q) (zH q)
    refine Eq.trans ?_ (this.trans ?_)
    · rfl
    · congr 1
      apply List.map_congr_left
      intro q _
      rw [eig_point k D hk]
      ring
  rw [h1, eigTotal_sub, eigTotal_sub, eigTotal_sub, eigTotal_smul, eigTotal_smul, eigTotal_sub,
    formB_eq, formB_eq, formB_eq]
  have : ∀ z, formA D z u = eigTotal D fun q => aAt (D.pt q) (z q) (u q) := fun z => rfl
  rw [this, this]
  ring

/-! ## Example -/

/-- Square with orthonormal tangents and second derivative `c` in the first direction. -/
def bent (c : V3) : Surf := ⟨![⟨1, 0, 0⟩, ⟨0, 1, 0⟩], c, 0, 0⟩

theorem bent_measure (c : V3) : Variation.measure (bent c) = 1 := by
  simp [Variation.measure, bent, V3.norm, dot, cross]

theorem bent_area (c : V3) : area (bent c) = 1 := bent_measure c

theorem bent_normal (c : V3) : normal (bent c) = ⟨0, 0, 1⟩ := by
  ext <;> simp [normal, bent, normalized, V3.norm, dot, cross]

/-- A tilt about the second axis, with second derivative `c`. -/
def tilt (c : V3) : Surf := ⟨![⟨0, 0, 1⟩, 0], c, 0, 0⟩

theorem bent_var1 (c d : V3) : var1 (bent c) (tilt d) = ⟨-1, 0, 0⟩ := by
  ext <;> simp only [var1, mvec, bent_measure, bent_normal] <;> simp [tilt, dot, cross, bent]

/-- One modulus entry. -/
def one11 : T3 := mk3 1 0 0 0 0 0 0 0 0

/-- No moduli. -/
def mm0 : T3 × T3 × T3 × T3 := (fun _ _ => 0, fun _ _ => 0, fun _ _ => 0, fun _ _ => 0)

/-- Bending modulus only. -/
def mmD1 : T3 × T3 × T3 × T3 := (fun _ _ => 0, fun _ _ => 0, fun _ _ => 0, one11)

/-- One element with one point. -/
def eig1 (p : EigPt) : EigSetup Unit := ⟨[[()]], fun _ => 1, fun _ => p⟩

theorem eig1_total (p : EigPt) (h : area p.ori = 1) (f : Unit → ℝ) : eigTotal (eig1 p) f = f () := by
  simp [eigTotal, eig1, h]

end Verif.DWR
