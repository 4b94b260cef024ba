import Verif.Model.System
import Verif.Model.WeakForms

/-!
# The linear system with weak boundary and interface conditions

Models what `assemble` (`src/gsThinShellAssembler.hpp` l.1540-1600) adds to the elastic matrix and to
the right-hand side for the conditions `Weak Dirichlet` and `Weak Clamped` (l.562-651, spatial) and
for the interfaces in `m_weakC0` and `m_weakC1` (l.869-959, spatial).

The penalty factor of a point is an option times the ratio of the largest entry of the stiffness and
the element size (l.595-596, 903-905); the ratio is the parameter `a`.  Rows and columns are kept for
all degrees of freedom, as in `Model/System`.  A basis function that does not live on one side of an
interface has the value zero there.
-/

namespace Verif.PenaltySystem

open V3 Verif.Geometry Verif.Variation Verif.Balance Verif.WeakForms Verif.System

variable {ι κ : Type}

/-- The options `WeakDirichlet`, `WeakClamped` and `IfcPenalty`; the last is used for displacements and
rotations (l.222-224). -/
structure Options where
  dBc : ℝ
  rBc : ℝ
  ifc : ℝ

/-- Weights, stiffness over element size and line measure at the points of a condition. -/
structure Points (κ : Type) where
  Q : Finset κ
  wt : κ → ℝ
  a : κ → ℝ
  μ : κ → ℝ

/-- Weak Dirichlet condition: values of the basis functions and prescribed displacement. -/
structure Dirichlet (ι κ : Type) extends Points κ where
  N : κ → ι → ℝ
  g : κ → Vd 3

/-- Weakly clamped side: surface, derivatives of the basis functions, outer normal. -/
structure Clamp (ι κ : Type) extends Points κ where
  s : κ → Surf
  φ : κ → ι → Shape
  ν : κ → V3

/-- Weak C0 interface: values of the basis functions on the two sides. -/
structure Joint (ι κ : Type) extends Points κ where
  NL : κ → ι → ℝ
  NR : κ → ι → ℝ

/-- Weak C1 interface: surfaces of the two sides, with boundary tangents `σ a_c`, and derivatives of
the basis functions. -/
structure Hinge (ι κ : Type) extends Points κ where
  sL : κ → Surf
  sR : κ → Surf
  cL : κ → Fin 2
  cR : κ → Fin 2
  σL : κ → ℝ
  σR : κ → ℝ
  φL : κ → ι → Shape
  φR : κ → ι → Shape

/-- All weak conditions. -/
structure Weak (ι κ : Type) where
  dir : Dirichlet ι κ
  clamp : Clamp ι κ
  joint : Joint ι κ
  hinge : Hinge ι κ

/-- The value of the field of a degree of freedom. -/
def dofValue (N : ι → ℝ) (p : ι × Fin 3) : Vd 3 := fun j => if j = p.2 then N p.1 else 0

/-- Matrix of the weak Dirichlet condition (l.599-604). -/
def dirMatrix (o : ℝ) (D : Dirichlet ι κ) (p p' : ι × Fin 3) : ℝ :=
  quad D.Q D.wt fun q => dirMat (o * D.a q) (D.μ q) (dofValue (D.N q) p) (dofValue (D.N q) p')

/-- Right-hand side of the weak Dirichlet condition (l.642-647). -/
def dirRhs (o : ℝ) (D : Dirichlet ι κ) (p : ι × Fin 3) : ℝ :=
  quad D.Q D.wt fun q => dirVecLin3 (o * D.a q) (D.μ q) (D.g q) (dofValue (D.N q) p)

/-- Matrix of the weakly clamped sides (l.607-614). -/
noncomputable def clampMatrix (o : ℝ) (D : Clamp ι κ) (p p' : ι × Fin 3) : ℝ :=
  quad D.Q D.wt fun q => clampMatLin (o * D.a q) (D.μ q) (D.s q) (D.ν q) (dofField (D.φ q) p)
    (dofField (D.φ q) p')

/-- Matrix of the weak C0 interfaces (l.907-915). -/
def jointMatrix (o : ℝ) (D : Joint ι κ) (p p' : ι × Fin 3) : ℝ :=
  quad D.Q D.wt fun q => c0Mat (o * D.a q) (D.μ q) (dofValue (D.NL q) p) (dofValue (D.NR q) p)
    (dofValue (D.NL q) p') (dofValue (D.NR q) p')

/-- Left and right side of a weak C1 interface. -/
noncomputable def Hinge.left (D : Hinge ι κ) (q : κ) : Side Surf :=
  sideOf (D.sL q) (D.σL q • (D.sL q).a (D.cL q))

/-- The right side. -/
noncomputable def Hinge.right (D : Hinge ι κ) (q : κ) : Side Surf :=
  sideOf (D.sR q) (D.σR q • (D.sR q).a (D.cR q))

/-- Matrix of the weak C1 interfaces (l.917-957). -/
noncomputable def hingeMatrix (o : ℝ) (D : Hinge ι κ) (p p' : ι × Fin 3) : ℝ :=
  quad D.Q D.wt fun q =>
    c1MatOut2 (o * D.a q) (D.μ q) (D.left q) (D.right q) (dofField (D.φL q) p)
        (dofField (D.φR q) p) (dofField (D.φL q) p') (dofField (D.φR q) p')
      + c1MatIn2 (o * D.a q) (D.μ q) (D.left q) (D.right q) (dofField (D.φL q) p)
        (dofField (D.φR q) p) (dofField (D.φL q) p') (dofField (D.φR q) p')

/-- All terms of the matrix. -/
noncomputable def weakMatrix (o : Options) (W : Weak ι κ) (p p' : ι × Fin 3) : ℝ :=
  dirMatrix o.dBc W.dir p p' + clampMatrix o.rBc W.clamp p p' + jointMatrix o.ifc W.joint p p'
    + hingeMatrix o.ifc W.hinge p p'

/-- All options times `τ`. -/
def Options.scale (o : Options) (τ : ℝ) : Options := ⟨τ * o.dBc, τ * o.rBc, τ * o.ifc⟩

/-- The matrix of the linear system: elastic part (`K`, see `Model/System`) and weak conditions. -/
noncomputable def systemMatrix (K : ι × Fin 3 → ι × Fin 3 → ℝ) (o : Options) (W : Weak ι κ)
    (p p' : ι × Fin 3) : ℝ := K p p' + weakMatrix o W p p'

/-- Its right-hand side, for the loads `F`. -/
def systemRhs (F : ι × Fin 3 → ℝ) (o : Options) (W : Weak ι κ) (p : ι × Fin 3) : ℝ :=
  F p + dirRhs o.dBc W.dir p

end Verif.PenaltySystem
