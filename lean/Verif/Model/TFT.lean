import Mathlib.Analysis.SpecialFunctions.Complex.Arg
import Mathlib.Analysis.SpecialFunctions.Trigonometric.Deriv
import Verif.Model.Geometry

/-!
# The tension-field material

Models `src/gsMaterialMatrixTFT.hpp` and the classification of
`src/gsMaterialMatrixBaseDim.hpp` at one point.
-/

namespace Verif.TFT

/-! ## Classification -/

/-- `_evalPStress`/`_evalPStrain` after the eigenvalue solver: `ev` are the eigenvalues in
ascending order; the last one whose modulus is below `1e-14` times the largest modulus (or
times 1 if all vanish) is dropped, the other two are returned in order
(`src/gsMaterialMatrixBaseDim.hpp` l.1402-1420, 1449-1469).  No such eigenvalue: debug
assertion (recorded as `throws`). -/
noncomputable def dropZero (e0 e1 e2 : ℝ) : Outcome (ℝ × ℝ) :=
  open Classical in
  let m0 := max (max |e0| |e1|) |e2|
  let m := if m0 = 0 then 1 else m0
  let tol : ℝ := 1e-14
  if |e2| / m < tol then .ok (e0, e1)
  else if |e1| / m < tol then .ok (e0, e2)
  else if |e0| / m < tol then .ok (e1, e2)
  else .throws

/-- Common shape of the three variants of `_tensionField`: `lo` and `mx` decide about taut
(smallest value, largest coefficient), `hi` about slack
(`src/gsMaterialMatrixBaseDim.hpp` l.347-385). -/
noncomputable def fieldOf (lo mx hi : ℝ) : Int :=
  open Classical in
  if lo > 0 ∨ |lo| ≤ mx * 1e-12 then 1 else if hi < 0 then -1 else 0

/-- `eval3D_tensionfield` at one point (`src/gsMaterialMatrixBaseDim.hpp` l.294-385).  The
principal stresses have two entries, the principal strains three, the third being zero
(l.261, 1461).  For other values of the option the result matrix is returned without having
been written: `ub`. -/
noncomputable def tensionField (opt : Int) (s0 s1 e0 e1 : ℝ) : Outcome Int :=
  if opt = 0 then .ok (fieldOf e0 (max (max e0 e1) 0) e1)
  else if opt = 1 then .ok (fieldOf s0 (max s0 s1) s1)
  else if opt = 2 then .ok (fieldOf s0 (max s0 s1) e1)
  else .ub

/-! ## Wrinkling vectors -/

/-- `n1_vec` (`src/gsMaterialMatrixTFT.hpp` l.587, 809, 826, 850, 984). -/
noncomputable def n1 (θ : ℝ) : Voigt :=
  vec3 (Real.cos θ * Real.cos θ) (Real.sin θ * Real.sin θ) (2 * Real.cos θ * Real.sin θ)

/-- `n2_vec` with `m1 = -sin`, `m2 = cos` (`src/gsMaterialMatrixTFT.hpp` l.851, 985). -/
noncomputable def n2 (θ : ℝ) : Voigt :=
  vec3 (-Real.sin θ * Real.cos θ) (Real.cos θ * Real.sin θ)
    (-Real.sin θ * Real.sin θ + Real.cos θ * Real.cos θ)

/-- `n4_vec` (`src/gsMaterialMatrixTFT.hpp` l.602, 852). -/
noncomputable def n4 (θ : ℝ) : Voigt :=
  vec3 (-Real.sin θ * -Real.sin θ) (Real.cos θ * Real.cos θ) (2 * -Real.sin θ * Real.cos θ)

/-- `u^T C v`. -/
noncomputable def quad (u : Voigt) (C : T3) (v : Voigt) : ℝ := dotV u (mulVec3 C v)

/-- `gamma` (`src/gsMaterialMatrixTFT.hpp` l.591, 812, 829, 855, 987). -/
noncomputable def gamma (θ : ℝ) (C : T3) (S : Voigt) : ℝ := -dotV (n1 θ) S / quad (n1 θ) C (n1 θ)

/-- `_compute_E` (`src/gsMaterialMatrixTFT.hpp` l.802-817). -/
noncomputable def computeE (θ : ℝ) (C : T3) (S E : Voigt) : Voigt :=
  fun i => E i + gamma θ C S * n1 θ i

/-- `_compute_S` (`src/gsMaterialMatrixTFT.hpp` l.819-834). -/
noncomputable def computeS (θ : ℝ) (C : T3) (S : Voigt) : Voigt :=
  fun i => S i + mulVec3 C (fun k => gamma θ C S * n1 θ k) i

/-- `objective::eval` (`src/gsMaterialMatrixTFT.hpp` l.969-1003). -/
noncomputable def objective (C : T3) (S : Voigt) (θ : ℝ) : ℝ :=
  dotV (n2 θ) S + gamma θ C S * quad (n2 θ) C (n1 θ)

/-- `_check_theta_full` (`src/gsMaterialMatrixTFT.hpp` l.594-608). -/
def checkTheta (θ : ℝ) (N E : Voigt) : Prop := dotV (n1 θ) N < 0 ∧ dotV (n4 θ) E > 0

/-- `eval3D_stress` at one point by tension-field value (`src/gsMaterialMatrixTFT.hpp`
l.155-196). -/
noncomputable def evalStress (tf : Int) (slack θ : ℝ) (C : T3) (S : Voigt) : Outcome Voigt :=
  if tf = 1 then .ok S
  else if tf = -1 then .ok (fun i => S i * slack)
  else if tf = 0 then .ok (computeS θ C S)
  else .throws

/-- `eval3D_CauchyStress` at one point; `σ` is the Cauchy stress of the wrapped material,
`j0sq` the squared area ratio (`src/gsMaterialMatrixTFT.hpp` l.199-246). -/
noncomputable def evalCauchy (tf : Int) (slack θ : ℝ) (C : T3) (S σ : Voigt) (j0sq : ℝ) :
    Outcome Voigt :=
  if tf = 1 then .ok σ
  else if tf = -1 then .ok (fun i => σ i * slack)
  else if tf = 0 then .ok (fun i => computeS θ C S i / Real.sqrt (Real.sqrt j0sq * 1))
  else .throws

/-! ## Tangent -/

/-- `tmp = (n2ᵀ C n1)/(n1ᵀ C n1)` (`src/gsMaterialMatrixTFT.hpp` l.863, 922). -/
noncomputable def tmp (θ : ℝ) (C : T3) : ℝ := quad (n2 θ) C (n1 θ) / quad (n1 θ) C (n1 θ)

/-- `dgammadT` (`src/gsMaterialMatrixTFT.hpp` l.864, 923). -/
noncomputable def dgammadT (θ : ℝ) (C : T3) (S : Voigt) : ℝ := -2 * gamma θ C S * tmp θ C

/-- `dfdT` (`src/gsMaterialMatrixTFT.hpp` l.875-876, 934-935). -/
noncomputable def dfdT (θ : ℝ) (C : T3) (S : Voigt) : ℝ :=
  dotV (n4 θ) S + dgammadT θ C S * quad (n2 θ) C (n1 θ)
    + gamma θ C S * (quad (n4 θ) C (n1 θ) + 2 * quad (n2 θ) C (n2 θ))

/-- `u^T C` as a vector. -/
noncomputable def rowMul (u : Voigt) (C : T3) : Voigt := fun j => ∑ i, u i * C i j

/-- `dgammadE` of the linear variant (`src/gsMaterialMatrixTFT.hpp` l.859-860). -/
noncomputable def dgammadELin (θ : ℝ) (C : T3) : Voigt :=
  fun j => -(rowMul (n1 θ) C j) / quad (n1 θ) C (n1 θ)

/-- `dfdE` of the linear variant (`src/gsMaterialMatrixTFT.hpp` l.868): note the minus sign. -/
noncomputable def dfdELin (θ : ℝ) (C : T3) : Voigt :=
  fun j => rowMul (n2 θ) C j - dgammadELin θ C j * quad (n2 θ) C (n1 θ)

/-- Linear variant of `_compute_C` (`src/gsMaterialMatrixTFT.hpp` l.836-884). -/
noncomputable def computeCLin (θ : ℝ) (C : T3) (S : Voigt) : T3 := fun i j =>
  C i j + ∑ k, C i k * (n1 θ k * dgammadELin θ C j
    + dgammadT θ C S * n1 θ k * (-(dfdELin θ C j) / dfdT θ C S)
    + 2 * gamma θ C S * n2 θ k * (-(dfdELin θ C j) / dfdT θ C S))

/-- `dCN1` (`src/gsMaterialMatrixTFT.hpp` l.906-911); `dC d` is the derivative of the
elasticity matrix in strain direction `d` (already doubled, l.443). -/
noncomputable def dCN1 (θ : ℝ) (dC : Fin 3 → T3) : T3 := fun i d => mulVec3 (dC d) (n1 θ) i

/-- `dgammadE` of the nonlinear variant (`src/gsMaterialMatrixTFT.hpp` l.918). -/
noncomputable def dgammadENl (θ : ℝ) (C : T3) (S : Voigt) (dC : Fin 3 → T3) : Voigt := fun j =>
  -(rowMul (n1 θ) C j + gamma θ C S * rowMul (n1 θ) (dCN1 θ dC) j) / quad (n1 θ) C (n1 θ)

/-- `dfdE` of the nonlinear variant (`src/gsMaterialMatrixTFT.hpp` l.927). -/
noncomputable def dfdENl (θ : ℝ) (C : T3) (S : Voigt) (dC : Fin 3 → T3) : Voigt := fun j =>
  rowMul (n2 θ) C j + dgammadENl θ C S dC j * quad (n2 θ) C (n1 θ)
    + gamma θ C S * rowMul (n2 θ) (dCN1 θ dC) j

/-- `dgamman1dE` (`src/gsMaterialMatrixTFT.hpp` l.941). -/
noncomputable def dgamman1dE (θ : ℝ) (C : T3) (S : Voigt) (dC : Fin 3 → T3) : T3 := fun k j =>
  n1 θ k * dgammadENl θ C S dC j
    + dgammadT θ C S * n1 θ k * (-(dfdENl θ C S dC j) / dfdT θ C S)
    + 2 * gamma θ C S * n2 θ k * (-(dfdENl θ C S dC j) / dfdT θ C S)

/-- Nonlinear variant of `_compute_C`: `C + (dgamman1dE)ᵀ C + gamma dCN1`
(`src/gsMaterialMatrixTFT.hpp` l.886-945). -/
noncomputable def computeCNl (θ : ℝ) (C : T3) (S : Voigt) (dC : Fin 3 → T3) : T3 := fun i j =>
  C i j + (∑ k, dgamman1dE θ C S dC k i * C k j) + gamma θ C S * dCN1 θ dC i j

/-! ## Angle search -/

/-- `math::atan2(y,x)`. -/
noncomputable def atan2 (y x : ℝ) : ℝ := Complex.arg ⟨x, y⟩

/-- `mod` (`src/gsMaterialMatrixTFT.hpp` l.951-955). -/
noncomputable def modR (x y : ℝ) : ℝ := x - ⌊x / y⌋ * y

/-- `_theta_interval` (`src/gsMaterialMatrixTFT.hpp` l.620-776).  The real part of the
complex square root of a real number is `Real.sqrt` (zero for negative arguments).  Printing
is left out. -/
noncomputable def thetaInterval (C : T3) (N E : Voigt) : ℝ × ℝ :=
  open Classical in
  let E11 := E 0
  let E22 := E 1
  let E12 := 0.5 * E 2
  let RE0 := Real.sqrt (((E11 - E22) / 2) ^ 2 + E12 * E12)
  let RE := if RE0 = 0 then 1 else RE0
  let t0E := atan2 (E12 / RE) ((E22 - E11) / (2 * RE))
  let t1E := atan2 (-Real.sqrt (E12 * E12 - E11 * E22) / RE) (-(E11 + E22) / (2 * RE))
  let t2E := atan2 (Real.sqrt (E12 * E12 - E11 * E22) / RE) (-(E11 + E22) / (2 * RE))
  let pi := Real.pi
  let N11 := N 0
  let N22 := N 1
  let N12 := N 2
  let RN0 := Real.sqrt (((N11 - N22) / 2) ^ 2 + N12 * N12)
  let RN := if RN0 = 0 then 1 else RN0
  let t0N := atan2 (-N12 / RN) ((N11 - N22) / RN)
  let t1N := atan2 (Real.sqrt (N12 * N12 - N11 * N22) / RN) (-(N11 + N22) / (2 * RN))
  let t2N := atan2 (-Real.sqrt (N12 * N12 - N11 * N22) / RN) (-(N11 + N22) / (2 * RN))
  let t1 := modR (t1N - t0N + t0E + pi) (2 * pi)
  let t2 := modR (t2N - t0N + t0E + pi) (2 * pi)
  let qEmin := t1E - t0E
  let qEmax := t2E - t0E
  if t1 < t2 then
    (max qEmin (t1 - pi - t0E) / 2, min qEmax (t2 - pi - t0E) / 2)
  else if t1 > t2 then
    let lo := max qEmin (t1 - pi - t0E) / 2
    let hi := min qEmax (pi - t0E) / 2
    if objective C N lo * objective C N hi > 0 then
      (max qEmin (-pi - t0E) / 2, min qEmax (t2 - pi - t0E) / 2)
    else (lo, hi)
  else (0, 0)

/-- Data of one column of `eval_theta`. -/
structure Pt where
  C : T3
  N : Voigt
  E : Voigt

/-- One pass of the loop of `eval_theta` (`src/gsMaterialMatrixTFT.hpp` l.466-575): `prev` is
the content of the variable `theta`, declared before the loop (l.462).  `root` stands for the
chain Brent / bisection / Newton on an interval (it always assigns `theta`: bisection
assigns its argument, l.1084), `scan` for the 51-point search (which also always assigns
`theta`, l.500-574). -/
noncomputable def thetaStep (root : Pt → ℝ → ℝ → ℝ) (scan : Pt → ℝ) (prev : ℝ) (p : Pt) : ℝ :=
  open Classical in
  let iv := thetaInterval p.C p.N p.E
  let θ := if iv.1 ≠ 0 ∧ iv.2 ≠ 0 then root p iv.1 iv.2 else prev
  if ¬ checkTheta θ p.N p.E ∨ (iv.1 = 0 ∧ iv.2 = 0) then scan p else θ

/-- `eval_theta` for a list of columns (`src/gsMaterialMatrixTFT.hpp` l.455-578). -/
noncomputable def evalTheta (root : Pt → ℝ → ℝ → ℝ) (scan : Pt → ℝ) : ℝ → List Pt → List ℝ
  | _, [] => []
  | prev, p :: ps =>
    thetaStep root scan prev p :: evalTheta root scan (thetaStep root scan prev p) ps

end Verif.TFT
