import Verif.Model.DWRError
import Verif.Spec.Variation
import Mathlib.Analysis.Calculus.Deriv.Basic

/-! # Specification notions for the error estimates -/

namespace Verif.DWR

open V3 Verif.Geometry Verif.Variation

variable {α β γ : Type}

/-- Area element. -/
noncomputable def area (s : Surf) : ℝ := Real.sqrt (dot (cross (s.a 0) (s.a 1)) (cross (s.a 0) (s.a 1)))

/-- The closed element `b` contains the point `x`. -/
def Covers (b : Box) (x : Fin 2 → ℝ) : Prop := ∀ i, b.lo i ≤ x i ∧ x i ≤ b.hi i

/-- Sum over all quadrature points of all elements. -/
noncomputable def total (D : Setup α β γ) (f : α → ℝ) : ℝ :=
  (D.elems.flatten.map fun q => D.wt q * f q * area (D.ori q)).sum

/-- Work of the dead loads (body force, boundary tractions and point loads) on a virtual
displacement. -/
noncomputable def deadWork (D : Setup α β γ) (z : Disc α β γ) : ℝ :=
  total D (fun q => dot (z.w q) (D.F q))
    + (D.bdr.map fun q => D.bwt q * dot (z.b q) (D.gN q) * D.tv q).sum
    + (D.loads.map fun k => dot (z.l k) (D.load k).value).sum

/-- Work of a follower pressure and of an elastic foundation. -/
noncomputable def otherWork (D : Setup α β γ) (z : Disc α β γ) : ℝ :=
  total D fun q => D.press q * dot (z.w q) (unitNormal ((D.defo q).a 0) ((D.defo q).a 1))
    - ((D.bed q).x * (z.w q).x * (D.disp q).x + (D.bed q).y * (z.w q).y * (D.disp q).y
      + (D.bed q).z * (z.w q).z * (D.disp q).z)

/-- Internal virtual work: resultants times the rates of the strains along the virtual
displacement. -/
noncomputable def intWork (f : Form) (D : Setup α β γ) (z : Disc α β γ) : ℝ :=
  total D fun q => ∑ k,
    match f with
    | .linear => 0
    | .membrane =>
      D.N q k * deriv (fun t => voigtMembrane (D.ori q) (shift (D.defo q) (z.d q) t) k) 0
    | .shell =>
      D.N q k * deriv (fun t => voigtMembrane (D.ori q) (shift (D.defo q) (z.d q) t) k) 0
        + D.M q k * deriv (fun t => voigtBending (D.ori q) (shift (D.defo q) (z.d q) t) k) 0

/-- Residual: all external work minus internal work.  For the linear problem the internal work is
left out, because the dual of the finer space is orthogonal to it. -/
noncomputable def residual (f : Form) (D : Setup α β γ) (z : Disc α β γ) : ℝ :=
  deadWork D z + otherWork D z - intWork f D z

/-- No pressure and no foundation. -/
def DeadLoads (D : Setup α β γ) : Prop := (∀ q, D.press q = 0) ∧ ∀ q, D.bed q = 0

/-- Tangents of the deformed surface are independent at all quadrature points. -/
def RegularDef (D : Setup α β γ) : Prop :=
  ∀ q ∈ D.elems.flatten, Indep ((D.defo q).a 0) ((D.defo q).a 1)

/-- The function with coefficients `c` in the functions `φ`. -/
noncomputable def comb {n : ℕ} (c : Fin n → ℝ) (φ : Fin n → Disc α β γ) : Disc α β γ where
  w q := ⟨∑ i, c i * ((φ i).w q).x, ∑ i, c i * ((φ i).w q).y, ∑ i, c i * ((φ i).w q).z⟩
  d q :=
    { a := fun j => ⟨∑ i, c i * (((φ i).d q).a j).x, ∑ i, c i * (((φ i).d q).a j).y,
        ∑ i, c i * (((φ i).d q).a j).z⟩
      d11 := ⟨∑ i, c i * ((φ i).d q).d11.x, ∑ i, c i * ((φ i).d q).d11.y, ∑ i, c i * ((φ i).d q).d11.z⟩
      d22 := ⟨∑ i, c i * ((φ i).d q).d22.x, ∑ i, c i * ((φ i).d q).d22.y, ∑ i, c i * ((φ i).d q).d22.z⟩
      d12 := ⟨∑ i, c i * ((φ i).d q).d12.x, ∑ i, c i * ((φ i).d q).d12.y, ∑ i, c i * ((φ i).d q).d12.z⟩ }
  b q := ⟨∑ i, c i * ((φ i).b q).x, ∑ i, c i * ((φ i).b q).y, ∑ i, c i * ((φ i).b q).z⟩
  l k := ⟨∑ i, c i * ((φ i).l k).x, ∑ i, c i * ((φ i).l k).y, ∑ i, c i * ((φ i).l k).z⟩

/-- A discrete linear problem: basis, symmetric matrix, primal and dual solution. -/
structure Galerkin (D : Setup α β γ) (n : ℕ) where
  φ : Fin n → Disc α β γ
  K : Fin n → Fin n → ℝ
  symm : ∀ i j, K i j = K j i
  /-- goal of every basis function -/
  J : Fin n → ℝ
  u : Fin n → ℝ
  z : Fin n → ℝ
  /-- the primal solution balances the dead loads -/
  primal : ∀ i, ∑ j, K i j * u j = deadWork D (φ i)
  /-- the dual solution balances the goal -/
  dual : ∀ i, ∑ j, K i j * z j = J i

/-- Goal of the primal solution. -/
noncomputable def Galerkin.goal {D : Setup α β γ} {n : ℕ} (G : Galerkin D n) : ℝ :=
  ∑ i, G.J i * G.u i

/-- Every load lies in an element of some patch. -/
def Located (D : Setup α β γ) : Prop :=
  ∀ k ∈ D.loads, ∃ P ∈ D.boxes, ∃ b ∈ P, ∀ i, b.lo i ≤ (D.load k).pt i ∧ (D.load k).pt i ≤ b.hi i

/-- The boxes are those of the elements: as many, in the same order. -/
def Matching (D : Setup α β γ) : Prop := D.boxes.flatten.length = D.elems.length

/-- Result of `f` and of `g` succeed and are related. -/
def BothOk {A B : Type} (x : Outcome A) (y : Outcome B) (R : A → B → Prop) : Prop :=
  ∃ a b, x = .ok a ∧ y = .ok b ∧ R a b

end Verif.DWR
