import Verif.Model.DWRError

/-!
# Error estimates for eigenvalue problems

Models `computeErrorEig*` (modal analysis and buckling) and `matrixNorm` of
`src/gsThinShellAssemblerDWR.hpp`; line numbers without a file name refer to that file.  Integrals
are quadrature sums.  The moduli of the two sets of evaluators are parameters: that both sets belong
to one material object is the subject of C10.
-/

namespace Verif.DWR

open V3 Verif.Geometry Verif.Variation

/-- What the expressions read at one quadrature point. -/
structure EigPt where
  ori : Surf
  defo : Surf
  /-- moduli of the undeformed geometry (`mmA_L`, …) -/
  mm : T3 × T3 × T3 × T3
  /-- moduli of the deformed geometry (`mmA_NL`, …) -/
  mmN : T3 × T3 × T3 × T3
  N : Voigt
  M : Voigt
  rho : ℝ

/-- A field at one quadrature point: value, derivatives, and the derivatives at the first quadrature
point of the element, which `deriv2` of one argument reads (`src/gsThinShellUtils.h` l.1500-1519). -/
structure EigFld where
  w : V3
  d : Surf
  first : Surf

/-! ## Modal analysis -/

/-- `expr` (l.2691-2720): `A - evPrimalL * Bdiff + (evDualH - evDualL) * Bprimal`. -/
noncomputable def modalExpr (lP lL lH : ℝ) (p : EigPt) (u zL zH : EigFld) : ℝ :=
  let emd := EmDer p.ori (jacDiff zL.d zH.d)
  let efd := EfDiff p.ori zL.d zH.d
  let Nd : Voigt := fun j => rowMul emd p.mm.1 j + rowMul efd p.mm.2.1 j
  let Md : Voigt := fun j => rowMul emd p.mm.2.2.1 j + rowMul efd p.mm.2.2.2 j
  dotV Nd (EmDer p.ori u.d) + dotV Md (EfDer p.ori u.d)
    - lP * (p.rho * dot u.w (zH.w - zL.w)) + (lH - lL) * (p.rho * dot u.w u.w)

/-! ## Buckling -/

/-- `Ef_der_L`, `Ef_der_NL` (l.2483, 2505, 3602, 3605, 3613, 3616): the variation of the normal is subtracted. -/
noncomputable def EfMinus (s u : Surf) : Voigt := fun k =>
  -(dbl3 (fun j => deriv2dot u (normal s) j - deriv2dot s (var1 s u) j) k)

/-- `Ef_derd_L`, `Ef_derd_NL` (l.2484-2487, 2506-2509). -/
noncomputable def EfdMinus (s zL zH : Surf) : Voigt := fun k =>
  -(dbl3 (fun j => deriv2dot zH (normal s) j - deriv2dot s (var1 s zH) j
      - deriv2dot zL (normal s) j - deriv2dot s (var1 s zL) j) k)

/-- A column of three numbers as a vector: `deriv2(Gdef) * var2(…)` (l.2514, 2520, 3624). -/
def asVec (w : Voigt) : V3 := ⟨w 0, w 1, w 2⟩

/-- `Efd_der2` (l.2517-2521). -/
noncomputable def Efd2 (s : Surf) (u zL zH : EigFld) (M : Voigt) : ℝ :=
  -(dotV M (dbl3 fun j =>
      deriv2dot u.first (var1 s zH.d - var1 s zL.d) j
      + (deriv2dot zH.first (var1 s u.d) j - deriv2dot zL.first (var1 s u.d) j)
      + deriv2dot s (asVec fun i => var2Fields s u.d zH.d i - var2Fields s u.d zL.d i) j))

/-- `Ef_der2` of two fields (l.2511-2515 with `z = u`, l.3621-3625). -/
noncomputable def Ef2 (s : Surf) (u z : EigFld) (M : Voigt) : ℝ :=
  -(dotV M (dbl3 fun j =>
      deriv2dot z.first (var1 s u.d) j + deriv2dot u.first (var1 s z.d) j
      + deriv2dot s (asVec (var2Fields s u.d z.d)) j))

/-- The material part `N_der * Em_der' + M_der * Ef_der'` (l.2530-2533). -/
noncomputable def matPart (mm : T3 × T3 × T3 × T3) (e f e' f' : Voigt) : ℝ :=
  dotV (fun j => rowMul e mm.1 j + rowMul f mm.2.1 j) e'
    + dotV (fun j => rowMul e mm.2.2.1 j + rowMul f mm.2.2.2 j) f'

/-- `Kd_L` (l.2531). -/
noncomputable def KdL (p : EigPt) (u zL zH : EigFld) : ℝ :=
  matPart p.mm (EmDer p.ori (jacDiff zL.d zH.d)) (EfdMinus p.ori zL.d zH.d)
    (EmDer p.ori u.d) (EfMinus p.ori u.d)

/-- `Kd_NL` (l.2533). -/
noncomputable def KdNL (p : EigPt) (u zL zH : EigFld) : ℝ :=
  matPart p.mmN (EmDer p.defo (jacDiff zL.d zH.d)) (EfdMinus p.defo zL.d zH.d)
    (EmDer p.defo u.d) (EfMinus p.defo u.d)
  + dotV (EmDer u.d (jacDiff zL.d zH.d)) p.N + Efd2 p.defo u zL zH p.M

/-- `K_L` of the estimate (l.2530, with `z = u`) and of `matrixNorm` (l.3630). -/
noncomputable def KL (p : EigPt) (u z : EigFld) : ℝ :=
  matPart p.mm (EmDer p.ori z.d) (EfMinus p.ori z.d) (EmDer p.ori u.d) (EfMinus p.ori u.d)

/-- `K_NL` of the estimate (l.2532, with `z = u`) and of `matrixNorm` (l.3631). -/
noncomputable def KNL (p : EigPt) (u z : EigFld) : ℝ :=
  matPart p.mmN (EmDer p.defo z.d) (EfMinus p.defo z.d) (EmDer p.defo u.d) (EfMinus p.defo u.d)
  + dotV (EmDer u.d z.d) p.N + Ef2 p.defo u z p.M

/-- `expr` (l.2535-2539). -/
noncomputable def bucklingExpr (lP lL lH : ℝ) (p : EigPt) (u zL zH : EigFld) : ℝ :=
  KdL p u zL zH - lP * (KdNL p u zL zH - KdL p u zL zH) + (lH - lL) * (KNL p u u - KL p u u)

/-! ## Sums -/

/-- An eigenvalue problem: the two kinds of estimate. -/
inductive EigKind where
  | modal | buckling
deriving Repr, DecidableEq

/-- `expr * meas(Gori)`. -/
noncomputable def eigIntegrand (k : EigKind) (lP lL lH : ℝ) (p : EigPt) (u zL zH : EigFld) : ℝ :=
  (match k with
    | .modal => modalExpr lP lL lH p u zL zH
    | .buckling => bucklingExpr lP lL lH p u zL zH) * Variation.measure p.ori

/-- A mesh: elements, each a list of quadrature points with weight. -/
structure EigSetup (α : Type) where
  elems : List (List α)
  wt : α → ℝ
  pt : α → EigPt

/-- One entry of `elementwise()`. -/
noncomputable def eigElem {α : Type} (k : EigKind) (lP lL lH : ℝ) (D : EigSetup α)
    (u zL zH : α → EigFld) (e : List α) : ℝ :=
  (e.map fun q => D.wt q * eigIntegrand k lP lL lH (D.pt q) (u q) (zL q) (zH q)).sum

/-- `computeErrorEig_impl` (l.2541-2557, 2722-2732): the difference of the eigenvalues is subtracted
from the integral only. -/
noncomputable def eigEstimate {α : Type} (m : Mode) (k : EigKind) (lP lL lH : ℝ) (D : EigSetup α)
    (u zL zH : α → EigFld) (r : Result) : Result :=
  let total := (D.elems.map (eigElem k lP lL lH D u zL zH)).sum - (lH - lL)
  match m with
  | .total => { r with error := total }
  | .elements => { error := total, errors := D.elems.map (eigElem k lP lL lH D u zL zH) }
  | .dofs => { r with error := 0 }

/-- `matrixNorm(primal,other)` (l.3525-3551). -/
noncomputable def normModal {α : Type} (D : EigSetup α) (u z : α → EigFld) : ℝ :=
  (D.elems.map fun e => (e.map fun q =>
    D.wt q * ((D.pt q).rho * dot (u q).w (z q).w * Variation.measure (D.pt q).ori)).sum).sum

/-- `matrixNorm(primal,other,deformed)` without foundation and pressure (l.3553-3642). -/
noncomputable def normBuckling {α : Type} (D : EigSetup α) (u z : α → EigFld) : ℝ :=
  (D.elems.map fun e => (e.map fun q =>
    D.wt q * ((KNL (D.pt q) (u q) (z q) - KL (D.pt q) (u q) (z q))
      * Variation.measure (D.pt q).ori)).sum).sum

end Verif.DWR
