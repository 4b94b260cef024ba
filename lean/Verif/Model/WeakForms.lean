import Verif.Model.Variation

/-!
# Boundary, interface, pressure and foundation terms

Models the integrands of `_assembleWeakBCs_impl`, `_assembleWeakIfc_impl`, `_assemblePressure_impl`
and `_assembleFoundation_impl` (`src/gsThinShellAssembler.hpp` l.368-1302) and their sum over
quadrature points.

Conventions: `v` is the field of a row (test function), `w` the field of a column (trial function);
`m_space * x` becomes the inner product of `v` with `x`.  The penalty factors (`alpha_d`, `alpha_r`:
option × largest entry of the Cartesian membrane or bending modulus / element area) are parameters;
their dependence on the deformation through the material is not modelled.  Which side of the
interface `meas(m_ori)` refers to is left to G+Smo: the measure is a parameter.
-/

namespace Verif.WeakForms

open V3 Verif.Geometry Verif.Variation

/-- A vector with `d` components, `d = 2` (planar) or `d = 3`. -/
abbrev Vd (d : ℕ) := Fin d → ℝ

/-- Inner product. -/
def dotd {d : ℕ} (u v : Vd d) : ℝ := ∑ i, u i * v i

/-- Integration over a boundary or interface by a quadrature rule with points `Q` and weights
`wt`. -/
def quad {ι : Type} (Q : Finset ι) (wt : ι → ℝ) (f : ι → ℝ) : ℝ := ∑ q ∈ Q, wt q * f q

/-! ## Weak Dirichlet conditions -/

/-- `-(alpha_d * m_space * m_space.tr()) * meas(m_ori)` in linear and nonlinear assembly, planar and
spatial (l.603, 679, 745, 834). -/
def dirMat {d : ℕ} (α μ : ℝ) (v w : Vd d) : ℝ := -(α * dotd v w) * μ

/-- Linear, spatial right-hand side `-(alpha_d * m_space * g_N) * meas(m_ori)` (l.645). -/
def dirVecLin3 {d : ℕ} (α μ : ℝ) (g v : Vd d) : ℝ := -(α * dotd v g) * μ

/-- Linear, planar right-hand side
`(m_alpha_d_bc * (m_space*(m_ori - m_ori) - m_space * g_N)) * meas(m_ori)` (l.698): `c` is the
option `m_alpha_d_bc` itself, not `alpha_d`. -/
def dirVecLin2 {d : ℕ} (c μ : ℝ) (x g v : Vd d) : ℝ :=
  (c * (dotd v (fun i => x i - x i) - dotd v g)) * μ

/-- Nonlinear right-hand side `alpha_d * (m_space * du - m_space * g_N) * meas(m_ori)`, planar and
spatial (l.795, 865); `u = m_def - m_ori`. -/
def dirVec {d : ℕ} (α μ : ℝ) (u g v : Vd d) : ℝ := α * (dotd v u - dotd v g) * μ

/-! ## Weak C0 coupling -/

/-- The four blocks, spatial linear (l.907-915), spatial nonlinear (l.1065-1073), planar nonlinear
(l.1256-1264). -/
def c0Mat {d : ℕ} (α μ : ℝ) (vL vR wL wR : Vd d) : ℝ :=
  α * dotd vL wL * μ + -α * dotd vR wL * μ + -α * dotd vL wR * μ + α * dotd vR wR * μ

/-- The planar linear blocks contain the measure twice (l.993-1001). -/
def c0MatLin2 {d : ℕ} (α μ : ℝ) (vL vR wL wR : Vd d) : ℝ :=
  α * dotd vL wL * μ * μ + -α * dotd vR wL * μ * μ + -α * dotd vL wR * μ * μ
    + α * dotd vR wR * μ * μ

/-- Spatial nonlinear right-hand side (l.1199-1203); `uL`, `uR` are the displacements of the two
sides, `du` their difference. -/
def c0Vec3 {d : ℕ} (α μ : ℝ) (uL uR vL vR : Vd d) : ℝ :=
  -α * dotd vL (fun i => uL i - uR i) * μ + α * dotd vR (fun i => uL i - uR i) * μ

/-- Planar nonlinear right-hand side (l.1294-1298). -/
def c0Vec2 {d : ℕ} (α μ : ℝ) (uL uR vL vR : Vd d) : ℝ :=
  α * dotd vL (fun i => uL i - uR i) * μ + -α * dotd vR (fun i => uL i - uR i) * μ

/-! ## Weak C1 coupling -/

/-- What the rotational terms need to know about one side: unit normal `n` (`usn`), unit outer
normal `o` (`unv`), their first variations (`var1`, `ovar1`) and second variations (`var2`,
`ovar2`). -/
structure Side (F : Type) where
  n : V3
  o : V3
  n1 : F → V3
  o1 : F → V3
  n2 : F → F → V3
  o2 : F → F → V3

variable {F : Type}

/-- `dN_lr` and `dN_rl` (l.1052-1056, 1186-1190); `nn0` is the value `usn(ori.left)·usn(ori.right)`
in the reference state. -/
def dN (L R : Side F) (nn0 : ℝ) : ℝ := dot L.n R.n - nn0

/-- `dnN_lr` with `on0 = unv(ori.left)·usn(ori.right)`; `dnN_rl` is the same with the sides
exchanged (l.1058-1062, 1192-1196). -/
def dnN (L R : Side F) (on0 : ℝ) : ℝ := dot L.o R.n - on0

/-- Out-of-plane right-hand side: the four entries of the first `assembleIfc` (l.1206-1215). -/
def c1VecOut (α μ : ℝ) (L R : Side F) (nn0 : ℝ) (vL vR : F) : ℝ :=
  -α * dN L R nn0 * dot (L.n1 vL) R.n * μ
    + -α * dN L R nn0 * dot (R.n1 vR) L.n * μ
    + -α * dN R L nn0 * dot (R.n1 vR) L.n * μ
    + -α * dN R L nn0 * dot (L.n1 vL) R.n * μ

/-- In-plane right-hand side (l.1219-1228); `lr0`, `rl0` are the reference values of
`unv(left)·usn(right)` and `unv(right)·usn(left)`. -/
def c1VecIn (α μ : ℝ) (L R : Side F) (lr0 rl0 : ℝ) (vL vR : F) : ℝ :=
  -α * dnN L R lr0 * dot (L.o1 vL) R.n * μ
    + -α * dnN L R lr0 * dot (R.n1 vR) L.o * μ
    + -α * dnN R L rl0 * dot (R.o1 vR) L.n * μ
    + -α * dnN R L rl0 * dot (L.n1 vL) R.o * μ

/-- Out-of-plane matrix, "first line" (l.1079-1095). -/
def c1MatOut1 (α μ : ℝ) (L R : Side F) (nn0 : ℝ) (vL vR wL wR : F) : ℝ :=
  (α * dN L R nn0 * dot (L.n2 vL wL) R.n * μ + α * dN R L nn0 * dot (L.n2 vL wL) R.n * μ)
    + (α * dN L R nn0 * dot (L.n1 vL) (R.n1 wR) * μ + α * dN R L nn0 * dot (L.n1 vL) (R.n1 wR) * μ)
    + (α * dN L R nn0 * dot (R.n1 vR) (L.n1 wL) * μ + α * dN R L nn0 * dot (R.n1 vR) (L.n1 wL) * μ)
    + (α * dN L R nn0 * dot (R.n2 vR wR) L.n * μ + α * dN R L nn0 * dot (R.n2 vR wR) L.n * μ)

/-- Out-of-plane matrix, "second line": eight entries (l.1099-1116); the linear assembly has the
same entries in the reference state (l.920-938). -/
def c1MatOut2 (α μ : ℝ) (L R : Side F) (vL vR wL wR : F) : ℝ :=
  α * dot (L.n1 vL) R.n * dot (L.n1 wL) R.n * μ
    + α * dot (L.n1 vL) R.n * dot (R.n1 wR) L.n * μ
    + α * dot (R.n1 vR) L.n * dot (L.n1 wL) R.n * μ
    + α * dot (R.n1 vR) L.n * dot (R.n1 wR) L.n * μ
    + α * dot (R.n1 vR) L.n * dot (R.n1 wR) L.n * μ
    + α * dot (R.n1 vR) L.n * dot (L.n1 wL) R.n * μ
    + α * dot (L.n1 vL) R.n * dot (R.n1 wR) L.n * μ
    + α * dot (L.n1 vL) R.n * dot (L.n1 wL) R.n * μ

/-- In-plane matrix, "third line" as coded (l.1120-1136). -/
def c1MatIn1 (α μ : ℝ) (L R : Side F) (lr0 rl0 : ℝ) (vL vR wL wR : F) : ℝ :=
  (α * dnN L R lr0 * dot (L.o2 vL wL) R.n * μ + α * dnN R L rl0 * dot (L.o2 vL wL) R.n * μ)
    + (α * dnN L R lr0 * dot (L.o1 vL) (R.n1 wR) * μ
      + α * dnN R L rl0 * dot (L.o1 vL) (R.n1 wR) * μ)
    + (α * dnN L R lr0 * dot (R.o1 vR) (L.n1 wL) * μ
      + α * dnN R L rl0 * dot (R.o1 vR) (L.n1 wL) * μ)
    + (α * dnN L R lr0 * dot (R.o2 vR wR) L.n * μ + α * dnN R L rl0 * dot (R.o2 vR wR) L.n * μ)

/-- In-plane matrix, "fourth line" (l.1140-1156); the linear assembly has the same entries in the
reference state (l.942-958). -/
def c1MatIn2 (α μ : ℝ) (L R : Side F) (vL vR wL wR : F) : ℝ :=
  (α * dot (L.o1 vL) R.n * dot (L.o1 wL) R.n * μ + α * dot (L.n1 vL) R.o * dot (L.n1 wL) R.o * μ)
    + (α * dot (L.o1 vL) R.n * dot (R.n1 wR) L.o * μ
      + α * dot (L.n1 vL) R.o * dot (R.o1 wR) L.n * μ)
    + (α * dot (R.n1 vR) L.o * dot (L.o1 wL) R.n * μ
      + α * dot (R.o1 vR) L.n * dot (L.n1 wL) R.o * μ)
    + (α * dot (R.n1 vR) L.o * dot (R.n1 wR) L.o * μ
      + α * dot (R.o1 vR) L.n * dot (R.o1 wR) L.n * μ)

/-- The side given by a surface: `tv` is the boundary tangent (`tangent_expr` of G+Smo), the outer
normal is tangent × normal as in `ovar1_expr` (`src/gsThinShellUtils.h` l.955-962). -/
noncomputable def sideOf (s : Surf) (tv : V3) : Side Surf :=
  let o := cross (normalized tv) (normal s)
  ⟨normal s, o, var1 s, ovar1 s o tv, var2 s, ovar2 s o tv⟩

/-! ## Weak clamping -/

/-- Nonlinear right-hand side (l.788, 800-807): `N` is `nv(m_ori)`, not normalised, `n0` the normal
of the reference surface. -/
noncomputable def clampVec (α μ : ℝ) (s : Surf) (n0 N : V3) (v : Surf) : ℝ :=
  (-α * (dot (normal s) N - dot n0 N) * dot (var1 s v) n0) * μ

/-- Nonlinear matrix (l.738, 747-757): `ν` is `unv(m_ori)`; `var2deriv2` contracts the second
derivatives of the deformed geometry with the three components of its last argument. -/
noncomputable def clampMat (α μ : ℝ) (s : Surf) (n0 ν : V3) (v w : Surf) : ℝ :=
  (α * (dot (normal s) ν - dot n0 ν) * var2deriv2 s v w (vec3 ν.x ν.y ν.z)
    + α * (dot (var1 s v) ν * dot (var1 s w) ν)) * μ

/-- Linear matrix (l.607-615). -/
noncomputable def clampMatLin (α μ : ℝ) (ori : Surf) (ν : V3) (v w : Surf) : ℝ :=
  (α * (dot (var1 ori v) ν * dot (var1 ori w) ν)) * μ

/-! ## Pressure and foundation -/

/-- Right-hand side of the pressure (l.400-402, 456-458): `p v·n`; `vv` is the value of the test
field. -/
noncomputable def pressVec (p μ : ℝ) (s : Surf) (vv : V3) : ℝ := p * dot vv (normal s) * μ

/-- Matrix of the pressure in nonlinear assembly (l.435-438). -/
noncomputable def pressMat (p μ : ℝ) (s : Surf) (vv : V3) (w : Surf) : ℝ :=
  -p * dot vv (var1 s w) * μ

/-- Matrix of the pressure in linear assembly (l.378-384): none. -/
def pressMatLin (_p _μ : ℝ) : ℝ := 0

/-- `a diag(k) b`. -/
def diagDot (k a b : V3) : ℝ := a.x * k.x * b.x + a.y * k.y * b.y + a.z * k.z * b.z

/-- Matrix of the foundation, linear and nonlinear (l.489-491, 532-534). -/
def foundMat (μ : ℝ) (k v w : V3) : ℝ := diagDot k v w * μ

/-- Right-hand side of the foundation in nonlinear assembly (l.551-553), `u = m_def - m_ori`. -/
def foundVec (μ : ℝ) (k u v : V3) : ℝ := diagDot k v u * μ

/-- Right-hand side of the foundation in linear assembly (l.498-503): none. -/
def foundVecLin (_μ : ℝ) : ℝ := 0

end Verif.WeakForms
