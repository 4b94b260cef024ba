import Verif.Model.Hyper

/-!
# The zero-stress shortcut of the hyperelastic materials

Before the stress is computed from its formula the code compares the contravariant metrics of the
undeformed and the deformed geometry and returns zero if they are close.

Simplification: `gsAllCloseRelativeToMax` belongs to the G+Smo core, which is not part of `/repo`;
it is modelled by what its name and documentation say: the largest difference of the entries is at
most the tolerance times the largest absolute value of all entries of both matrices.
-/

namespace Verif.Shortcut

open Verif.Hyper

/-- Largest absolute value of the entries of a 3×3 matrix. -/
noncomputable def maxAbs (M : T3) : ℝ :=
  (Finset.univ : Finset (Fin 3 × Fin 3)).sup' ⟨(0, 0), Finset.mem_univ _⟩ fun q => |M q.1 q.2|

/-- `gsAllCloseRelativeToMax(a,b,tol)` (G+Smo core, called in
`src/gsMaterialMatrixNonlinear.hpp` l.801, 851, 897, 929). -/
def allClose (a b : T3) (tol : ℝ) : Prop :=
  maxAbs (fun i j => a i j - b i j) ≤ tol * max (maxAbs a) (maxAbs b)

open Classical in
/-- One entry of `_eval3D_Incompressible_stress` and, for a given thickness stretch inside `S`, of
`_eval3D_Compressible_stress`: zero if the 3×3 matrices `m_Gcon_ori` and `m_Gcon_def` are close,
the formula `S` otherwise (`src/gsMaterialMatrixNonlinear.hpp` l.797-820, 893-905).  The in-plane
stress only. -/
noncomputable def evalStress (S : Data → Fin 3 → Fin 3 → ℝ) (D : Data) (i j : Fin 2) : ℝ :=
  if allClose D.Gori D.gcon (1 / 10 ^ 12) then 0 else S D (up i) (up j)

end Verif.Shortcut
