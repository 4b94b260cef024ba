import Verif.Model.Geometry

/-!
# Variations of the normal, the boundary vectors and the strains

Models the expressions of `src/gsThinShellUtils.h` (`var1_expr`, `var2dot_expr`,
`var2deriv2dot_expr`, `var2_expr`, `tvar1_expr`, `ovar1_expr`, `ovar2dot_expr`, `deriv2dot_expr`,
`flatdot_expr`, `flatdot2_expr`) and their combination into strains, forces and stiffness in
`src/gsThinShellAssembler.hpp`, at one point.

A variation field is given by its parametric derivatives at the point, in the same structure
`Surf` as the geometry: `u.a 0`, `u.a 1` the first derivatives (the columns of `jac(u)`),
`u.d11`, `u.d22`, `u.d12` the second ones.  The versions of the expressions for a discrete space
evaluate the same formulas for the fields `vecFun(d, b)`, one basis function in one component;
`basisField` builds these.
-/

namespace Verif.Variation

open V3 Verif.Geometry

/-- `vecFun(pos, val)` (`src/gsThinShellUtils.h` l.102-107, 273-278): one non-zero component. -/
def vecFun (d : Fin 3) (b : ℝ) : V3 :=
  ⟨if d = 0 then b else 0, if d = 1 then b else 0, if d = 2 then b else 0⟩

/-- The field of a scalar basis function with gradient `g` and second derivatives
`h = (h11, h22, h12)` acting in component `d` (`vecFun(d, bGrads.at(2*j))`, …,
`src/gsThinShellUtils.h` l.168-169). -/
def basisField (d : Fin 3) (g : Fin 2 → ℝ) (h : Voigt) : Surf :=
  ⟨fun i => vecFun d (g i), vecFun d (h 0), vecFun d (h 1), vecFun d (h 2)⟩

/-- `measure = (cJac.col3d(0).cross(cJac.col3d(1))).norm()` (`src/gsThinShellUtils.h` l.160, 207). -/
noncomputable def measure (s : Surf) : ℝ := V3.norm (cross (s.a 0) (s.a 1))

/-- `m_v` (`src/gsThinShellUtils.h` l.168-169, 209-210). -/
noncomputable def mvec (s u : Surf) : V3 :=
  (1 / measure s) • (cross (u.a 0) (s.a 1) - cross (u.a 1) (s.a 0))

/-- `var1_expr`: `m_v - (normal * m_vᵀ) * normal` (`src/gsThinShellUtils.h` l.172, 213). -/
noncomputable def var1 (s u : Surf) : V3 :=
  mvec s u - dot (mvec s u) (normal s) • normal s

/-- `m_uv` of the versions for spaces (`src/gsThinShellUtils.h` l.318-320, 446-448). -/
noncomputable def muv (s u v : Surf) : V3 :=
  (1 / measure s) • (cross (u.a 0) (v.a 1) + cross (v.a 0) (u.a 1))

/-- Second variation from its ingredient `m_uv`: `m_u_der`, `tmp`
(`src/gsThinShellUtils.h` l.322, 326; 450, 454; 612, 616). -/
noncomputable def var2From (s u v : Surf) (w : V3) : V3 :=
  let n := normal s
  let mu := mvec s u
  let nder := var1 s v
  let muDer := w - dot n (mvec s v) • mu
  muDer - (dot mu nder + dot n muDer) • n - dot n mu • nder

/-- Second variation of the normal in `var2dot_expr` and `var2deriv2dot_expr`
(`src/gsThinShellUtils.h` l.302-326, 430-454). -/
noncomputable def var2 (s u v : Surf) : V3 := var2From s u v (muv s u v)

/-- `m_uv` of `var2_expr` for two given fields: both terms use the same pair of derivatives
(`src/gsThinShellUtils.h` l.608-610). -/
noncomputable def muvFields (s u v : Surf) : V3 :=
  (1 / measure s) • (cross (u.a 0) (v.a 1) - cross (v.a 1) (u.a 0))

/-- `cDer2 * tmp`: the second derivatives of the geometry times a vector
(`src/gsThinShellUtils.h` l.458, 1321-1323). -/
def deriv2dot (s : Surf) (w : V3) : Voigt := vec3 (dot s.d11 w) (dot s.d22 w) (dot s.d12 w)

/-- Third entry doubled (`tmp.row(2) *= 2.0`, `reshape(m_m2,3,3)`;
`src/gsThinShellUtils.h` l.459, 621, 1731; `src/gsThinShellAssembler.hpp` l.1566-1575). -/
def dbl3 (w : Voigt) : Voigt := vec3 (w 0) (w 1) (2 * w 2)

/-- Result of `var2_expr` for two given fields (`src/gsThinShellUtils.h` l.573-624). -/
noncomputable def var2Fields (s u v : Surf) : Voigt :=
  dbl3 (deriv2dot s (var2From s u v (muvFields s u v)))

/-- `var2deriv2dot_expr` (`src/gsThinShellUtils.h` l.457-460). -/
noncomputable def var2deriv2 (s u v : Surf) (M : Voigt) : ℝ :=
  dotV M (dbl3 (deriv2dot s (var2 s u v)))

/-- `deriv2dot_expr` for a space: `hess(v_d) * n_d` (`src/gsThinShellUtils.h` l.1337-1345). -/
def deriv2Space (d : Fin 3) (h : Voigt) (n : V3) : Voigt := fun k =>
  h k * (if d = 0 then n.x else if d = 1 then n.y else n.z)

/-! ## Boundary tangent and outer normal -/

/-- `colwise().normalize()` of the Jacobian (`src/gsThinShellUtils.h` l.737, 1045). -/
noncomputable def unitCols (s : Surf) : Surf := ⟨fun i => normalized (s.a i), s.d11, s.d22, s.d12⟩

open Classical in
/-- Choice of the Jacobian column that is the tangent (`src/gsThinShellUtils.h` l.736-756,
1044-1065); `o` is the normalised outer normal.  `none` stands for `colIndex = -1`. -/
noncomputable def colIndex (s : Surf) (o : V3) : Option (Fin 2) :=
  let t0 := dot (normalized (s.a 0)) o
  let t1 := dot (normalized (s.a 1)) o
  let l := Real.sqrt (t0 * t0 + t1 * t1)
  if |t0 / l| < 1e-8 ∧ |t1 / l| > 1 - 1e-8 then some 0
  else if |t1 / l| < 1e-8 ∧ |t0 / l| > 1 - 1e-8 then some 1
  else none

open Classical in
/-- `sign = (0 < dot) - (dot < 0)` (`src/gsThinShellUtils.h` l.767, 1088). -/
noncomputable def sgn (x : ℝ) : ℝ := if 0 < x then 1 else if x < 0 then -1 else 0

/-- `tvar1_expr` for a space or a given field; `tv` is the value of G+Smo's `tangent_expr` and
`o` the outer normal (`src/gsThinShellUtils.h` l.727-788). -/
noncomputable def tvar1 (s : Surf) (o tv : V3) (u : Surf) : V3 :=
  match colIndex s o with
  | none => 0
  | some c =>
    let dtan := sgn (dot tv (normalized (s.a c))) • u.a c
    let ut := normalized tv
    (1 / V3.norm tv) • (dtan - dot ut dtan • ut)

/-- `ovar1_expr` (`src/gsThinShellUtils.h` l.927-962). -/
noncomputable def ovar1 (s : Surf) (o tv : V3) (u : Surf) : V3 :=
  cross (tvar1 s o tv u) (normal s) + cross (normalized tv) (var1 s u)

/-- `ovar2dot_expr`: the nine ingredients as coded (`src/gsThinShellUtils.h` l.1034-1163).  The
Jacobian columns have been normalised (l.1045) before they are used in `measure`, `mu`, `mv`
(l.1078, 1120-1122, 1136-1138); the normal is the true one. -/
noncomputable def ovar2 (s : Surf) (o tv : V3) (u v : Surf) : V3 :=
  match colIndex s o with
  | none => 0
  | some c =>
    let J := unitCols s
    let n := normal s
    let σ := sgn (dot tv (J.a c))
    let ut := normalized tv
    let dtanu := σ • u.a c
    let tvaru := (1 / V3.norm tv) • (dtanu - dot ut dtanu • ut)
    let mu := mvec J u
    let snvaru := mu - dot n mu • n
    let dtanv := σ • v.a c
    let tvarv := (1 / V3.norm tv) • (dtanv - dot ut dtanv • ut)
    let mv := mvec J v
    let snvarv := mv - dot n mv • n
    let tvar2 := (-1 / V3.norm tv) •
      (dot tvarv dtanu • ut + dot ut dtanv • tvaru + dot ut dtanu • tvarv)
    let muDer := muv J u v - dot n mv • mu
    let snvar2 := muDer - (dot mu snvarv + dot n muDer) • n - dot n mu • snvarv
    cross tvar2 n + cross tvaru snvarv + cross tvarv snvaru + cross ut snvar2

/-! ## Strains, forces, stiffness -/

/-- `m_Em_der = flat(jac(m_def).tr() * jac(m_space))` (`src/gsThinShellAssembler.hpp` l.1574,
1748, 2020): `flat` adds the off-diagonal entries. -/
def EmDer (s u : Surf) : Voigt :=
  vec3 (dot (s.a 0) (u.a 0)) (dot (s.a 1) (u.a 1)) (dot (s.a 0) (u.a 1) + dot (s.a 1) (u.a 0))

/-- `m_Ef_der = -(deriv2(m_space, n) + deriv2(m_def, var1(m_space,m_def))) * m2`
(`src/gsThinShellAssembler.hpp` l.1575, 1753, 2023). -/
noncomputable def EfDer (s u : Surf) : Voigt := fun k =>
  -(dbl3 (fun j => deriv2dot u (normal s) j + deriv2dot s (var1 s u) j) k)

/-- `m_Em_der2 = flatdot(jac(m_space), jac(m_space).tr(), m_N)` (`src/gsThinShellAssembler.hpp`
l.1749, `src/gsThinShellUtils.h` l.1655-1667). -/
def EmDer2 (u v : Surf) (N : Voigt) : ℝ :=
  dot (u.a 0) (v.a 0) * N 0 + dot (u.a 0) (v.a 1) * N 2 + dot (u.a 1) (v.a 0) * N 2
    + dot (u.a 1) (v.a 1) * N 1

/-- `flatdot2(deriv2(m_space), var1(m_space,m_def).tr(), m_M)` (`src/gsThinShellUtils.h`
l.1727-1733). -/
def flatdot2 (u : Surf) (w : V3) (M : Voigt) : ℝ := dotV M (dbl3 (deriv2dot u w))

/-- `m_Ef_der2 = -(flatdot2(…).symmetrize() + var2deriv2(…))` (`src/gsThinShellAssembler.hpp`
l.1754-1755); `symmetrize` adds the transpose. -/
noncomputable def EfDer2 (s u v : Surf) (M : Voigt) : ℝ :=
  -((flatdot2 u (var1 s v) M + flatdot2 v (var1 s u) M) + var2deriv2 s u v M)

/-- `row * reshape(mm,3,3)` (`src/gsThinShellAssembler.hpp` l.1757-1758). -/
def rowMul (r : Voigt) (A : T3) : Voigt := fun j => ∑ k, r k * A k j

/-- Integrand of the tangent stiffness (`src/gsThinShellAssembler.hpp` l.1757-1776): the four
moduli `A, B, C, D`, the resultants `N, M`; row field `u`, column field `v`. -/
noncomputable def stiffness (s u v : Surf) (A B C D : T3) (N M : Voigt) : ℝ :=
  dotV (fun j => rowMul (EmDer s u) A j + rowMul (EfDer s u) B j) (EmDer s v)
    + EmDer2 u v N
    + dotV (fun j => rowMul (EmDer s u) C j + rowMul (EfDer s u) D j) (EfDer s v)
    + EfDer2 s u v M

/-- Integrand of the linear stiffness (`src/gsThinShellAssembler.hpp` l.1577-1600). -/
noncomputable def linStiffness (s u v : Surf) (A B C D : T3) : ℝ :=
  dotV (fun j => rowMul (EmDer s u) A j + rowMul (EfDer s u) B j) (EmDer s v)
    + dotV (fun j => rowMul (EmDer s u) C j + rowMul (EfDer s u) D j) (EfDer s v)

/-- Integrand of the internal force in the residual (`src/gsThinShellAssembler.hpp`
l.2038-2042). -/
noncomputable def internalForce (s u : Surf) (N M : Voigt) : ℝ :=
  -(dotV N (EmDer s u) + dotV M (EfDer s u))

/-- Stiffness without bending (`src/gsThinShellAssembler.hpp` l.1818-1836). -/
def stiffnessMembrane (s u v : Surf) (A : T3) (N : Voigt) : ℝ :=
  dotV (rowMul (EmDer s u) A) (EmDer s v) + EmDer2 u v N

/-- Internal force without bending (`src/gsThinShellAssembler.hpp` l.2106-2110). -/
def internalForceMembrane (s u : Surf) (N : Voigt) : ℝ := -(dotV N (EmDer s u))

end Verif.Variation
