import Verif.Model.Spectral
import Verif.Model.TFT

/-!
# Principal stresses and strains

Models `_evalPStress`, `_evalPStrain` of `src/gsMaterialMatrixBaseDim.hpp`, the functions
that call them for a set of points, and the outputs of the tension-field material that are
derived from them.  The eigenvalue solver is a parameter.  Arithmetic is exact.
-/

namespace Verif.Principal

open Verif.Spectral

/-- Two values and the directions that belong to them (`result.first`, `result.second`). -/
structure Princ where
  val : Fin 2 → ℝ
  vec : Fin 2 → Fin 3 → ℝ

/-- Columns `a` and `b` of the result of the solver, in this order. -/
def pick (e : Eig) (a b : Fin 3) : Princ := ⟨![e.val a, e.val b], ![e.vec a, e.vec b]⟩

open Classical in
/-- `max`: the largest modulus of the eigenvalues, or 1 if all vanish
(`src/gsMaterialMatrixBaseDim.hpp` l.1405-1406). -/
noncomputable def relMax (e : Eig) : ℝ :=
  if max (max |e.val 0| |e.val 1|) |e.val 2| = 0 then 1
  else max (max |e.val 0| |e.val 1|) |e.val 2|

/-- The comparison of a value relative to `max`; with a zero divisor and a zero value it compares NaN, which
is false (`src/gsMaterialMatrixBaseDim.hpp` l.1408). -/
def small (m a : ℝ) : Prop := m ≠ 0 ∧ |a| / m < 1e-14

open Classical in
/-- Selection of the two in-plane values (`src/gsMaterialMatrixBaseDim.hpp` l.1403-1425):
`zeroIdx` is the last index whose eigenvalue is below `1e-14` relative to the largest modulus
(relative to 1 if all vanish).  If there is none, the loop copies three columns into a matrix
with two columns: `ub` (the check at l.1412 is a debug assertion). -/
noncomputable def select (e : Eig) : Outcome Princ :=
  if small (relMax e) (e.val 2) then .ok (pick e 0 1)
  else if small (relMax e) (e.val 1) then .ok (pick e 0 2)
  else if small (relMax e) (e.val 0) then .ok (pick e 1 2)
  else .ub

/-- `_evalPStress(S)` with the basis `g` stored in `m_gcov_ori`
(`src/gsMaterialMatrixBaseDim.hpp` l.1383-1425). -/
noncomputable def evalPStress (solver : T3 → Eig) (g : Cols) (S : T2) : Outcome Princ :=
  select (solver (Bmat S g))

/-- `_evalPStrain(S)`, values, with the basis `g` stored in `m_gcon_ori`
(`src/gsMaterialMatrixBaseDim.hpp` l.1427-1471).  The third value is entry (2,2) of the
argument.  If no zero is found the three eigenvalues are copied; this case is not
distinguished here because it does not occur in exact arithmetic (`C111_total`). -/
noncomputable def evalPStrain (solver : T3 → Eig) (g : Cols) (E : T2) (E33 : ℝ) :
    Outcome (Fin 3 → ℝ) :=
  (select (solver (Bmat E g))).map fun p => vec3 (p.val 0) (p.val 1) E33

/-! ## Many points -/

/-- Order in which the loops over in-plane points `k` and heights `j` visit a set of points
(`src/gsMaterialMatrixLinear.hpp` l.477-489, `src/gsMaterialMatrixNonlinear.hpp` l.865-872,
`src/gsMaterialMatrixBaseDim.hpp` l.277-283). -/
def visits (n m : ℕ) : List (Fin n × Fin m) :=
  (List.finRange n).flatMap fun k => (List.finRange m).map fun j => (k, j)

/-- The basis stored in the member data after a loop that calls `_getMetric` at every point,
starting from the stored basis `g0`. -/
def stored {n m : ℕ} (g0 : Cols) (g : Fin n → Fin m → Cols) : Cols :=
  (visits n m).foldl (fun _ p => g p.1 p.2) g0

/-- `eval3D_pstress`, `eval3D_CauchyPStress` (values): the stresses `S` are evaluated for all
points first, and the second loop calls `_evalPStress` without calling `_getMetric`
(`src/gsMaterialMatrixLinear.hpp` l.361-392, 427-458, `src/gsMaterialMatrixNonlinear.hpp`
l.616-645, 676-706). -/
noncomputable def eval3DPStress (solver : T3 → Eig) {n m : ℕ} (g0 : Cols)
    (g : Fin n → Fin m → Cols) (S : Fin n → Fin m → T2) (k : Fin n) (j : Fin m) :
    Outcome (Fin 2 → ℝ) :=
  (evalPStress solver (stored g0 g) (S k j)).map Princ.val

/-- `eval3D_pstrain`: the strains `E` are evaluated for all points first, entry (2,2) is zero
(`src/gsMaterialMatrixBaseDim.hpp` l.242-268). -/
noncomputable def eval3DPStrain (solver : T3 → Eig) {n m : ℕ} (g0 : Cols)
    (g : Fin n → Fin m → Cols) (E : Fin n → Fin m → T2) (k : Fin n) (j : Fin m) :
    Outcome (Fin 3 → ℝ) :=
  evalPStrain solver (stored g0 g) (E k j) 0

/-! ## Outputs of the tension-field material at one point -/

/-- `eval3D_pstress` of the tension-field material; `p` are the values of the wrapped material
(`src/gsMaterialMatrixTFT.hpp` l.60-86). -/
noncomputable def tftPStress (tf : Int) (slack : ℝ) (p : Fin 2 → ℝ) : Outcome (Fin 2 → ℝ) :=
  if tf = 1 ∨ tf = 0 then .ok p else if tf = -1 then .ok (fun i => p i * slack) else .throws

/-- `eval3D_pstrain` of the tension-field material (`src/gsMaterialMatrixTFT.hpp` l.88-114). -/
noncomputable def tftPStrain (tf : Int) (slack : ℝ) (p : Fin 3 → ℝ) : Outcome (Fin 3 → ℝ) :=
  if tf = 1 ∨ tf = 0 then .ok p else if tf = -1 then .ok (fun i => p i * slack) else .throws

/-- `eval3D_strain` of the tension-field material (`src/gsMaterialMatrixTFT.hpp`
l.116-152). -/
noncomputable def tftStrain (tf : Int) (slack θ : ℝ) (C : T3) (S E : Voigt) : Outcome Voigt :=
  if tf = 1 then .ok E
  else if tf = -1 then .ok (fun i => E i * slack)
  else if tf = 0 then .ok (TFT.computeE θ C S E)
  else .throws

/-- `eval3D_CauchyPStress` of the tension-field material: the values of the wrapped material
in every state (`src/gsMaterialMatrixTFT.h` l.171-172). -/
def tftCauchyPStress (_tf : Int) (_slack : ℝ) (p : Fin 2 → ℝ) : Outcome (Fin 2 → ℝ) := .ok p

end Verif.Principal
