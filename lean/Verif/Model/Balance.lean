import Verif.Model.Variation
import Verif.Model.Material

/-!
# Rows of the assembled vector and matrices

Models the rows that `m_assembler.assemble` adds for one scalar basis function in its three
components: internal force (`src/gsThinShellAssembler.hpp` l.2038-2042), body force (l.2032-2035),
tractions (l.349-357), pressure (l.456-458), the mass matrix (l.1436-1495) and the stiffness of the
mixed-integration-point method (l.1863-1975).

Quadrature points are a type `Q`; `μ` is `wt * meas(m_ori)`, weight and measure in one factor.
Eliminated degrees of freedom are not dropped: there is a row for every basis function.
-/

namespace Verif.Balance

open V3 Verif.Geometry Verif.Variation

/-- Value, gradient and second derivatives of a scalar basis function at one point. -/
structure Shape where
  val : ℝ
  grad : Fin 2 → ℝ
  hess : Voigt

/-- Vectors by components, summed over a finite set (accumulation into the right-hand side). -/
def vsum {ι : Type} (I : Finset ι) (f : ι → V3) : V3 :=
  ⟨∑ i ∈ I, (f i).x, ∑ i ∈ I, (f i).y, ∑ i ∈ I, (f i).z⟩

/-- Rows of the internal force for one basis function at one point
(`src/gsThinShellAssembler.hpp` l.2038-2042): the test fields are the basis function in each
component. -/
noncomputable def forceRow (s : Surf) (φ : Shape) (N M : Voigt) : V3 :=
  ⟨internalForce s (basisField 0 φ.grad φ.hess) N M,
    internalForce s (basisField 1 φ.grad φ.hess) N M,
    internalForce s (basisField 2 φ.grad φ.hess) N M⟩

/-- The same summed over the quadrature points. -/
noncomputable def forceRows {κ : Type} (Q : Finset κ) (μ : κ → ℝ) (s : κ → Surf) (φ : κ → Shape)
    (N M : κ → Voigt) : V3 := vsum Q fun q => μ q • forceRow (s q) (φ q) (N q) (M q)

/-- Rows of a given load `f`: `m_space * f * meas(m_ori)` (`src/gsThinShellAssembler.hpp` l.355,
2032-2035). -/
def loadRow (φ : Shape) (f : V3) : V3 :=
  ⟨dot (vecFun 0 φ.val) f, dot (vecFun 1 φ.val) f, dot (vecFun 2 φ.val) f⟩

/-- The same summed over the quadrature points (of the surface, or of the loaded boundaries). -/
def loadRows {κ : Type} (Q : Finset κ) (μ : κ → ℝ) (φ : κ → Shape) (f : κ → V3) : V3 :=
  vsum Q fun q => μ q • loadRow (φ q) (f q)

/-- The load of the pressure: `m_pressure.val() * m_space * sn(m_def).normalized() * meas(m_ori)`
(`src/gsThinShellAssembler.hpp` l.456-458). -/
noncomputable def pressureLoad (p : ℝ) (s : Surf) : V3 := p • normal s

/-! ## Mixed-integration-point stiffness -/

/-- The four moduli and two resultants at one point. -/
structure Section where
  A : T3
  B : T3
  C : T3
  D : T3
  N : Voigt
  M : Voigt

/-- `m_N = S0.tr() + m_N_c` (`src/gsThinShellAssembler.hpp` l.1913-1915, 1918): resultants and
moduli `p` of the previous state, strain increments of the update on the previous geometry. -/
noncomputable def mipN (prev du : Surf) (p : Section) : Voigt := fun j =>
  p.N j + (rowMul (EmDer prev du) p.A j + rowMul (EfDer prev du) p.B j)

/-- `m_M = S1.tr() + m_M_c` (`src/gsThinShellAssembler.hpp` l.1916, 1922). -/
noncomputable def mipM (prev du : Surf) (p : Section) : Voigt := fun j =>
  p.M j + (rowMul (EmDer prev du) p.C j + rowMul (EfDer prev du) p.D j)

/-- Integrand of the matrix (`src/gsThinShellAssembler.hpp` l.1918-1950) with the moduli `c` of the
current state. -/
noncomputable def mipStiffness (s prev du u v : Surf) (c p : Section) : ℝ :=
  stiffness s u v c.A c.B c.C c.D (mipN prev du p) (mipM prev du p)

/-- The section data an evaluator delivers: those of the deformed geometry its material holds when
it is evaluated (`Material.usedDeformed`). -/
def evaluated {F : Type} (law : Option Surf → Section) (w : Material.World Surf F)
    (e : Material.Evaluator Surf) : Section := law (Material.usedDeformed w e)

/-- The matrix with the evaluators as built by the routine (`src/gsThinShellAssembler.hpp`
l.1876-1905): six on the current, then six on the previous geometry, evaluated after all have been
built. -/
noncomputable def mipAssembled {F : Type} (law : Option Surf → Section) (w : Material.World Surf F)
    (m : Nat) (s prev du u v : Surf) : ℝ :=
  let w' := Material.buildAll w (Material.mipEvaluators m s prev)
  mipStiffness s prev du u v (evaluated law w' ⟨m, s⟩) (evaluated law w' ⟨m, prev⟩)

/-! ## Mass matrix -/

/-- Entry of the mass matrix, `mm0.val()*m_space*m_space.tr()*meas(m_ori)`
(`src/gsThinShellAssembler.hpp` l.1465-1466): basis functions `φ`, `ψ` in components `d`, `e`; `ρ` is
the mass per area. -/
def massEntry {κ : Type} (Q : Finset κ) (μ ρ : κ → ℝ) (φ ψ : κ → Shape) (d e : Fin 3) : ℝ :=
  ∑ q ∈ Q, ρ q * dot (vecFun d (φ q).val) (vecFun e (ψ q).val) * μ q

/-- `m_mass` after `assembleMass(lumped)` (`src/gsThinShellAssembler.hpp` l.1465-1470).  The lumped
expression `mm0.val()*(m_space.rowSum())*meas(m_ori)` has a test space and no trial space: G+Smo adds
it to the right-hand side, the matrix taken afterwards is the empty one. -/
def massMatrix {κ ι : Type} (lumped : Bool) (Q : Finset κ) (μ ρ : κ → ℝ) (φ : ι → κ → Shape)
    (i : ι) (d : Fin 3) (j : ι) (e : Fin 3) : ℝ :=
  if lumped then 0 else massEntry Q μ ρ (φ i) (φ j) d e

end Verif.Balance
