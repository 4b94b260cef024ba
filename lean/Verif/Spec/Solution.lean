import Verif.Model.Solution

/-! # Specification of solution vectors, displacement fields and boundary forces -/

namespace Verif.Solution

/-- `(p, c, k)` is a function of the space with `d` components. -/
def IsDof (m : Mapper) (d p c k : ℕ) : Prop := p < m.nPatches ∧ c < d ∧ k < m.size p c

/-- A complete numbering: every free index belongs to some function, every other index has Dirichlet
data, the solution vector has the size of the system, and the components have the same number of
functions. -/
structure Complete (m : Mapper) (d : ℕ) (ddofs : List ℝ) (len : ℕ) : Prop where
  length : len = m.freeSize
  onto : ∀ g, g < m.freeSize → ∃ p c k, IsDof m d p c k ∧ m.glob p c k = g
  bound : ∀ p c k, IsDof m d p c k → m.glob p c k < m.freeSize + ddofs.length
  same : ∀ p c, c < d → m.size p c = m.size p 0

/-- The field respects the numbering: coupled functions have the same coefficient and eliminated
functions have the Dirichlet data. -/
def Respects (m : Mapper) (d : ℕ) (ddofs : List ℝ) (u : Field) : Prop :=
  (∀ p c k p' c' k', IsDof m d p c k → IsDof m d p' c' k' → m.glob p c k = m.glob p' c' k' →
    u p c k = u p' c' k') ∧
  (∀ p c k, IsDof m d p c k → m.freeSize ≤ m.glob p c k →
    ddofs[m.glob p c k - m.freeSize]? = some (u p c k))

/-- Index `g` belongs to a function on one of the sides. -/
def OnSides (glob : ℕ → ℕ → ℕ → ℕ) (c : ℕ) (sides : List Side) (g : ℕ) : Prop :=
  ∃ s ∈ sides, ∃ k ∈ s.functions, glob s.patch c k = g

end Verif.Solution
