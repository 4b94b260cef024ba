import Mathlib.Data.Real.Basic
import Verif.Outcome

/-!
# The scalar root finders of the tension-field material

Models `objective::findRootBisection` and `objective::findRootBrent`,
`src/gsMaterialMatrixTFT.hpp` l.1069-1245, for an arbitrary objective.
-/

namespace Verif.RootFind

/-- The `while` loop of `findRootBisection` with `fuel = itmax - it` remaining passes; `c` is
computed once before the loop.  Returns the final bracket
(`src/gsMaterialMatrixTFT.hpp` l.1075-1083). -/
noncomputable def bisectLoop (f : ℝ → ℝ) (t c : ℝ) : ℕ → ℝ → ℝ → ℝ × ℝ
  | 0, a, b => (a, b)
  | n + 1, a, b =>
    open Classical in
    if |b - a| > t then
      if f c = 0 then (a, b)
      else if f c * f a < 0 then bisectLoop f t c n a c
      else bisectLoop f t c n c b
    else (a, b)

/-- `findRootBisection`: success flag and `x` (`src/gsMaterialMatrixTFT.hpp` l.1069-1089). -/
noncomputable def bisection (f : ℝ → ℝ) (A B t : ℝ) (itmax : ℕ) : Bool × ℝ :=
  open Classical in
  let c := (B - A) / 2
  let r := bisectLoop f t c itmax A B
  (if |r.2 - r.1| < t then true else false, c)

/-- The local variables of `findRootBrent` which live across iterations. -/
structure BState where
  sa : ℝ
  sb : ℝ
  c : ℝ
  d : ℝ
  e : ℝ
  fa : ℝ
  fb : ℝ
  fc : ℝ

/-- The first `if` of the loop body (`src/gsMaterialMatrixTFT.hpp` l.1151-1159). -/
noncomputable def bSwap (s : BState) : BState :=
  open Classical in
  if |s.fc| < |s.fb| then
    { s with sa := s.sb, sb := s.c, c := s.sb, fa := s.fb, fb := s.fc, fc := s.fb }
  else s

/-- `tol` (`src/gsMaterialMatrixTFT.hpp` l.1161); `eps` is the machine epsilon. -/
noncomputable def bTol (eps t : ℝ) (s : BState) : ℝ := 2 * eps * |s.sb| + t

/-- `m` (`src/gsMaterialMatrixTFT.hpp` l.1162). -/
noncomputable def bM (s : BState) : ℝ := 0.5 * (s.c - s.sb)

/-- The raw interpolation `(p, q)` before the sign normalisation
(`src/gsMaterialMatrixTFT.hpp` l.1180-1193).  A division by zero is `ub` (in floating point
it would produce infinities or NaN). -/
noncomputable def bInterp (s : BState) : Outcome (ℝ × ℝ) :=
  open Classical in
  if s.fa = 0 then .ub
  else
    let r0 := s.fb / s.fa
    if s.sa = s.c then .ok (2 * bM s * r0, 1 - r0)
    else if s.fc = 0 then .ub
    else
      let q := s.fa / s.fc
      let r := s.fb / s.fc
      .ok (r0 * (2 * bM s * q * (q - r) - (s.sb - s.sa) * (r - 1)),
        (q - 1) * (r - 1) * (r0 - 1))

/-- The new pair `(e, d)` (`src/gsMaterialMatrixTFT.hpp` l.1172-1217). -/
noncomputable def bStep (tol : ℝ) (s : BState) : Outcome (ℝ × ℝ) :=
  open Classical in
  if |s.e| < tol ∨ |s.fa| ≤ |s.fb| then .ok (bM s, bM s)
  else
    (bInterp s).bind fun pq =>
      let p := if 0 < pq.1 then pq.1 else -pq.1
      let q := if 0 < pq.1 then -pq.2 else pq.2
      if 2 * p < 3 * bM s * q - |tol * q| ∧ p < |0.5 * s.e * q| then
        if q = 0 then .ub else .ok (s.d, p / q)
      else .ok (bM s, bM s)

/-- The new abscissa (`src/gsMaterialMatrixTFT.hpp` l.1221-1232). -/
noncomputable def bNext (tol d : ℝ) (s : BState) : ℝ :=
  open Classical in
  if tol < |d| then s.sb + d else if 0 < bM s then s.sb + tol else s.sb - tol

/-- The end of the loop body after `(e, d)` are known (`src/gsMaterialMatrixTFT.hpp`
l.1218-1242). -/
noncomputable def bAdvance (f : ℝ → ℝ) (tol e d : ℝ) (s : BState) : BState :=
  open Classical in
  let nb := bNext tol d s
  let fnb := f nb
  if (0 < fnb ∧ 0 < s.fc) ∨ (fnb ≤ 0 ∧ s.fc ≤ 0) then
    ⟨s.sb, nb, s.sb, nb - s.sb, nb - s.sb, s.fb, fnb, s.fb⟩
  else ⟨s.sb, nb, s.c, d, e, s.fb, fnb, s.fc⟩

/-- The `for` loop of `findRootBrent` with `fuel` iterations left; running out of iterations
is `GISMO_ERROR` (`src/gsMaterialMatrixTFT.hpp` l.1149-1245).  The result is `x`. -/
noncomputable def brentLoop (f : ℝ → ℝ) (eps t : ℝ) : ℕ → BState → Outcome ℝ
  | 0, _ => .throws
  | n + 1, s0 =>
    open Classical in
    let s := bSwap s0
    let tol := bTol eps t s
    if |bM s| ≤ tol ∨ s.fb = 0 then .ok s.sb
    else (bStep tol s).bind fun ed => brentLoop f eps t n (bAdvance f tol ed.1 ed.2 s)

/-- The initial state: `std::swap(fa,fb)` exchanges the values without exchanging the points
(`src/gsMaterialMatrixTFT.hpp` l.1132-1145). -/
noncomputable def brentInit (f : ℝ → ℝ) (a b : ℝ) : BState :=
  open Classical in
  let fa := if f a > f b then f b else f a
  let fb := if f a > f b then f a else f b
  ⟨a, b, a, b - a, b - a, fa, fb, fa⟩

/-- `findRootBrent`: `none` is the return value `false` (where `x` is not assigned), `some x`
is `true` (`src/gsMaterialMatrixTFT.hpp` l.1105-1245). -/
noncomputable def brent (f : ℝ → ℝ) (eps a b t : ℝ) (itmax : ℕ) : Outcome (Option ℝ) :=
  open Classical in
  if f a * f b ≥ 0 then .ok none
  else (brentLoop f eps t itmax (brentInit f a b)).map some

end Verif.RootFind
