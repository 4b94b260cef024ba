import Verif.Model.DWR

/-!
# Error estimates of the goal-oriented error estimator

Models `computeError*`, `computeSquaredError*` and the distribution of point loads of
`src/gsThinShellAssemblerDWR.hpp`; line numbers without a file name refer to that file.  Integrals
are the quadrature sums G+Smo evaluates: an element is a list of quadrature points.  The code is
modelled for `d = 3` and without OpenMP (with one thread the element numbers are the same).
-/

namespace Verif.DWR

open V3 Verif.Geometry Verif.Variation

/-- A point load: parametric point (`forcePoint`, after inversion of physical points) and force
(l.3662-3672).  The patch is only used to evaluate the duals (l.3717-3718). -/
structure LoadAt where
  patch : ℕ
  pt : Fin 2 → ℝ
  value : V3

/-- Corners of an element in the parametric domain of its patch (l.3700-3701). -/
structure Box where
  lo : Fin 2 → ℝ
  hi : Fin 2 → ℝ

/-- `test` (l.3700-3701): both corners are compared without tolerance. -/
def Box.has (b : Box) (x : Fin 2 → ℝ) : Prop := ∀ i, b.lo i ≤ x i ∧ x i ≤ b.hi i

/-- What the estimate is computed from: quadrature points by element (`α` in the domain, `β` on the
Neumann boundary), the loads `γ`, and the data at them (l.1745-1754, 1830-1867). -/
structure Setup (α β γ : Type) where
  /-- elements of all patches, each a list of quadrature points -/
  elems : List (List α)
  /-- quadrature weights -/
  wt : α → ℝ
  ori : α → Surf
  defo : α → Surf
  F : α → V3
  N : α → Voigt
  M : α → Voigt
  /-- pressure and stiffness of the foundation, which the estimates do not use (l.1898-1911,
  1992-2005, 2210-2223, 2304-2317) -/
  press : α → ℝ
  bed : α → V3
  /-- displacement -/
  disp : α → V3
  /-- quadrature points of the sides with a Neumann condition (`m_bcs.get("Neumann")`) -/
  bdr : List β
  bwt : β → ℝ
  gN : β → V3
  /-- `tv(Gori).norm()` -/
  tv : β → ℝ
  /-- point loads `m_pLoads` -/
  loads : List γ
  load : γ → LoadAt
  /-- elements of every patch of the finer basis -/
  boxes : List (List Box)

/-- A function evaluated where the estimate needs it: values and derivatives at quadrature points,
values on the boundary and at the loads. -/
structure Disc (α β γ : Type) where
  w : α → V3
  d : α → Surf
  b : β → V3
  l : γ → V3

/-- The variants of `computeError_impl`: linear problem (l.1729-1792), shell (l.1818-1922), membrane
(l.1924-2016). -/
inductive Form where
  | linear | shell | membrane
deriving Repr, DecidableEq

/-- Differences of the derivatives: `jac(zsolH) - jac(zsolL)` (l.1853). -/
def jacDiff (zL zH : Surf) : Surf where
  a i := zH.a i - zL.a i
  d11 := zH.d11 - zL.d11
  d22 := zH.d22 - zL.d22
  d12 := zH.d12 - zL.d12

/-- `Ef_der` of the difference (l.1857-1859). -/
noncomputable def EfDiff (s zL zH : Surf) : Voigt := fun k =>
  -(dbl3 (fun j => deriv2dot zH (normal s) j - deriv2dot zL (normal s) j
      + deriv2dot s (var1 s zH) j - deriv2dot s (var1 s zL) j) k)

/-- `expr` at a quadrature point, without the area element (l.1753, 1861-1866, 1958-1963). -/
noncomputable def exprAt {α β γ : Type} (f : Form) (D : Setup α β γ) (zL zH : Disc α β γ) (q : α) :
    ℝ :=
  let ext := dot (zH.w q - zL.w q) (D.F q)
  let em := EmDer (D.defo q) (jacDiff (zL.d q) (zH.d q))
  match f with
  | .linear => ext
  | .shell => ext - (dotV (D.N q) em + dotV (D.M q) (EfDiff (D.defo q) (zL.d q) (zH.d q)))
  | .membrane => ext - dotV (D.N q) em

/-- Integrand of the plain and of the squared estimate (`.sqNorm()`, l.2066, 2179, 2275). -/
noncomputable def integrand {α β γ : Type} (sq : Bool) (f : Form) (D : Setup α β γ)
    (zL zH : Disc α β γ) (q : α) : ℝ :=
  (if sq then exprAt f D zL zH q ^ 2 else exprAt f D zL zH q) * Variation.measure (D.ori q)

/-- Integral over one element (`integralElWise`, `elementwise`). -/
noncomputable def elemError {α β γ : Type} (sq : Bool) (f : Form) (D : Setup α β γ)
    (zL zH : Disc α β γ) (e : List α) : ℝ :=
  (e.map fun q => D.wt q * integrand sq f D zL zH q).sum

/-- `integral`. -/
noncomputable def integral {α β γ : Type} (sq : Bool) (f : Form) (D : Setup α β γ)
    (zL zH : Disc α β γ) : ℝ := (D.elems.map (elemError sq f D zL zH)).sum

/-- `bintegral`: also in the squared estimate `bexpr` is not squared (l.2067, 2180, 2276). -/
noncomputable def neumann {α β γ : Type} (D : Setup α β γ) (zL zH : Disc α β γ) : ℝ :=
  (D.bdr.map fun q => D.bwt q * (dot (zH.b q - zL.b q) (D.gN q) * D.tv q)).sum

/-- Whether the boundary integral is evaluated: not for the plain estimate of a shell without
`withLoads` (l.1874-1875; elsewhere always, l.1762, 1971, 2075, 2187, 2283). -/
def usesNeumann (sq : Bool) (f : Form) (withLoads : Bool) : Bool :=
  match f with
  | .shell => sq || withLoads
  | _ => true

/-- Value of one load: `(Hres-Lres)ᵀ * value` (l.3716-3719, 3742-3745). -/
def loadVal {α β γ : Type} (D : Setup α β γ) (zL zH : Disc α β γ) (k : γ) : ℝ :=
  dot (zH.l k - zL.l k) (D.load k).value

/-- `_applyLoadsToError` (l.3728-3750). -/
def loadSum {α β γ : Type} (D : Setup α β γ) (zL zH : Disc α β γ) : ℝ :=
  (D.loads.map (loadVal D zL zH)).sum

open Classical in
/-- Elements of one patch that contain the point, numbered from `c` (l.3683-3709). -/
noncomputable def hits (x : Fin 2 → ℝ) : ℕ → List Box → List ℕ
  | _, [] => []
  | c, b :: bs => if b.has x then c :: hits x (c + 1) bs else hits x (c + 1) bs

/-- `elements` (l.3672-3713): `elements_private` is declared outside the loop over the patches and
is appended to `elements` at the end of every patch, without being cleared.  The patch of the load
is not compared. -/
noncomputable def found (x : Fin 2 → ℝ) : ℕ → List ℕ → List (List Box) → List ℕ
  | _, _, [] => []
  | c, priv, P :: Ps =>
    let priv' := priv ++ hits x c P
    priv' ++ found x (c + P.length) priv' Ps

/-- `errors.at(elements.at(k)) += v` (l.3722-3723); `at` throws outside the vector. -/
def addAll (v : ℝ) : List ℕ → List ℝ → Outcome (List ℝ)
  | [], e => .ok e
  | k :: ks, e => if h : k < e.length then addAll v ks (e.set k (e[k] + v)) else .throws

/-- `_applyLoadsToElWiseError` (l.3658-3725). -/
noncomputable def spread {α β γ : Type} (D : Setup α β γ) (zL zH : Disc α β γ) :
    List γ → List ℝ → Outcome (List ℝ)
  | [], e => .ok e
  | k :: ks, e =>
    let el := found (D.load k).pt 0 [] D.boxes
    (addAll (loadVal D zL zH k / el.length) el e).bind (spread D zL zH ks)

/-- The members `m_error`, `m_errors`. -/
structure Result where
  error : ℝ
  errors : List ℝ

/-- Template parameter `_elWise`: 0, 1, 2. -/
inductive Mode where
  | total | elements | dofs
deriving Repr, DecidableEq

/-- `computeError_impl` and `computeSquaredError_impl` (l.1758-1782, 1871-1896, 1968-1991, 2071-2095,
2184-2208, 2280-2303).  The function-wise variant sets a local variable only. -/
noncomputable def estimate {α β γ : Type} (m : Mode) (sq : Bool) (f : Form) (withLoads : Bool)
    (D : Setup α β γ) (zL zH : Disc α β γ) (r : Result) : Outcome Result :=
  let loads := if withLoads then loadSum D zL zH else 0
  match m with
  | .total =>
    .ok { r with error := integral sq f D zL zH + loads
                  + if usesNeumann sq f withLoads then neumann D zL zH else 0 }
  | .elements =>
    let e := D.elems.map (elemError sq f D zL zH)
    (if withLoads then spread D zL zH D.loads e else .ok e).bind fun e =>
      .ok { error := integral sq f D zL zH + loads, errors := e }
  | .dofs => .ok r

/-- `computeError`, `computeSquaredError`: the member `m_error` afterwards. -/
noncomputable def totalError {α β γ : Type} (sq : Bool) (f : Form) (withLoads : Bool)
    (D : Setup α β γ) (zL zH : Disc α β γ) (r : Result) : Outcome ℝ :=
  (estimate .total sq f withLoads D zL zH r).map Result.error

/-- `computeErrorElements`, `computeErrorDofs` and the squared versions: the member `m_errors`. -/
noncomputable def listError {α β γ : Type} (m : Mode) (sq : Bool) (f : Form) (withLoads : Bool)
    (D : Setup α β γ) (zL zH : Disc α β γ) (r : Result) : Outcome (List ℝ) :=
  (estimate m sq f withLoads D zL zH r).map Result.errors

end Verif.DWR
