import Verif.Model.TFT
import Verif.Model.RootFind

/-!
# The search for the wrinkling angle at one point

Models the body of the loop of `eval_theta`, `src/gsMaterialMatrixTFT.hpp` l.464-575, including
the search on 50 intervals.
-/

namespace Verif.TFTSearch

open Verif.TFT Verif.RootFind

/-- The chain Brent, bisection, Newton on one interval; `eps` is the machine epsilon, `newton`
stands for `gsFunction::newtonRaphson` of the G+Smo core, started at the left end
(`src/gsMaterialMatrixTFT.hpp` l.481-492, 519-530). -/
noncomputable def rootOf (eps : ℝ) (newton : (ℝ → ℝ) → ℝ → ℝ) (f : ℝ → ℝ) (a b : ℝ) : Outcome ℝ :=
  (brent f eps a b 1e-18 1000).bind fun r =>
    match r with
    | some x => .ok x
    | none =>
      if (bisection f a b 1e-6 1000).1 = true then .ok (bisection f a b 1e-6 1000).2
      else .ok (newton f a)

/-- The points `LinSpaced(51,0,EIGEN_PI)` (`src/gsMaterialMatrixTFT.hpp` l.500); `EIGEN_PI` is
taken as the exact number. -/
noncomputable def sample (i : ℕ) : ℝ := i * (Real.pi / 50)

/-- The intervals between neighbouring points where the sign changes
(`src/gsMaterialMatrixTFT.hpp` l.510-513). -/
noncomputable def brackets (f : ℝ → ℝ) : List ℕ :=
  open Classical in
  (List.range 50).filter fun i => f (sample i) * f (sample (i + 1)) < 0

/-- The roots on these intervals, in order (`src/gsMaterialMatrixTFT.hpp` l.515-532). -/
noncomputable def roots (eps : ℝ) (newton : (ℝ → ℝ) → ℝ → ℝ) (f : ℝ → ℝ) : List ℕ → Outcome (List ℝ)
  | [] => .ok []
  | i :: is => (rootOf eps newton f (sample i) (sample (i + 1))).bind fun x =>
      (roots eps newton f is).bind fun l => .ok (x :: l)

/-- The candidates: the roots, and 0 if the values at both ends do not have the same sign
(`src/gsMaterialMatrixTFT.hpp` l.515-535). -/
noncomputable def candidates (eps : ℝ) (newton : (ℝ → ℝ) → ℝ → ℝ) (f : ℝ → ℝ) : Outcome (List ℝ) :=
  open Classical in
  (roots eps newton f (brackets f)).bind fun l =>
    .ok (l ++ if f (sample 0) * f (sample 50) ≤ 0 then [0] else [])

/-- The search on the 50 intervals: the first accepted candidate, or 0 with a warning if no
candidate is accepted (`src/gsMaterialMatrixTFT.hpp` l.497-574). -/
noncomputable def scan (eps : ℝ) (newton : (ℝ → ℝ) → ℝ → ℝ) (p : Pt) : Outcome ℝ :=
  open Classical in
  (candidates eps newton (objective p.C p.N)).bind fun l =>
    .ok ((l.find? fun θ => decide (checkTheta θ p.N p.E)).getD 0)

/-- The angle of one point; `prev` is the content of the variable `theta` before
(`src/gsMaterialMatrixTFT.hpp` l.466-575). -/
noncomputable def angle (eps : ℝ) (newton : (ℝ → ℝ) → ℝ → ℝ) (prev : ℝ) (p : Pt) : Outcome ℝ :=
  open Classical in
  let iv := thetaInterval p.C p.N p.E
  (if iv.1 ≠ 0 ∧ iv.2 ≠ 0 then rootOf eps newton (objective p.C p.N) iv.1 iv.2 else .ok prev).bind
    fun θ => if ¬ checkTheta θ p.N p.E ∨ (iv.1 = 0 ∧ iv.2 = 0) then scan eps newton p else .ok θ

end Verif.TFTSearch
