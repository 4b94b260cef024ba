import Verif.Model.Loads
import Mathlib.Algebra.BigOperators.Group.Finset.Basic

/-! # Specification of point loads and masses -/

namespace Verif.Loads

variable {P : Type}

/-- Sum of the basis values whose degree of freedom in component `j` is the free index `g`. -/
noncomputable def shape (m : Mapper) (p j : ℕ) (acts : List (ℕ × ℝ)) (g : ℕ) : ℝ :=
  (acts.map (fun a => if m.glob p j a.1 = g ∧ g < m.freeSize then a.2 else 0)).sum

/-- Nodal force of one point load. -/
noncomputable def nodal (d : ℕ) (m : Mapper) (S : Space P) (l : PointLoad P) (g : ℕ) : ℝ :=
  ∑ j ∈ Finset.range d, (l.value[j]?).getD 0 * shape m l.patch j (S.acts l) g

/-- Nodal force of a list of point loads. -/
noncomputable def nodalAll (d : ℕ) (m : Mapper) (S : Space P) (ls : List (PointLoad P)) (g : ℕ) :
    ℝ := (ls.map (fun l => nodal d m S l g)).sum

/-- Mass contribution of one point mass. -/
noncomputable def nodalMass (d : ℕ) (m : Mapper) (S : Space P) (l : PointLoad P) (g h : ℕ) : ℝ :=
  (l.value[0]?).getD 0 *
    ∑ j ∈ Finset.range d, shape m l.patch j (S.acts l) g * shape m l.patch j (S.acts l) h

/-- Mass contribution of a list of point masses. -/
noncomputable def nodalMassAll (d : ℕ) (m : Mapper) (S : Space P) (ls : List (PointLoad P))
    (g h : ℕ) : ℝ := (ls.map (fun l => nodalMass d m S l g h)).sum

end Verif.Loads
