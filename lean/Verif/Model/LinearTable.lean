import Verif.Model.DWRError
import Verif.Model.ModalProgram

/-!
# The table of the linear example of the error estimator

`examples/example_shell3D_DWR.cpp` l.355-489: the linear solution in a basis, the dual solutions in this basis and in a
finer one, the estimate and the printed numbers, for the goal `Displacement`.

Simplifications: exact arithmetic; the solver solves; quadrature points are those of the finer basis for all integrals;
the container of sides `bContainer` is empty, as in both test cases; homogeneous Dirichlet conditions, as in both test
cases, so all functions of the bases are free.
-/

namespace Verif.LinearTable

open V3 Verif.Geometry Verif.Variation Verif.DWR
open Verif.Balance (vsum)
open Verif.ModalProgram (Row)

variable {κ β γ π : Type} {n m : ℕ}

/-- What is the same for all bases: quadrature points and loads (`Setup`), positions of the quadrature points, integrated
moduli, and the points at which the goal is evaluated (`points`) with the geometry there. -/
structure Plate (κ β γ π : Type) where
  set : Setup κ β γ
  X : κ → V3
  mm : κ → T3 × T3 × T3 × T3
  pts : List π
  pori : π → Surf
  pX : π → V3

/-- A function evaluated where the program needs it. -/
structure Fn (κ β γ π : Type) where
  disc : Disc κ β γ
  p : π → V3

/-- The function of a vector of coefficients (`constructMultiPatchL`, `constructMultiPatchH`,
`src/gsThinShellAssemblerDWR.h` l.205-206). -/
noncomputable def comb (φ : Fin n → Fn κ β γ π) (c : EuclideanSpace ℝ (Fin n)) : Fn κ β γ π where
  disc :=
    { w := fun q => vsum Finset.univ fun i => c i • (φ i).disc.w q
      d := fun q =>
        ⟨fun k => vsum Finset.univ fun i => c i • ((φ i).disc.d q).a k,
          vsum Finset.univ fun i => c i • ((φ i).disc.d q).d11, vsum Finset.univ fun i => c i • ((φ i).disc.d q).d22,
          vsum Finset.univ fun i => c i • ((φ i).disc.d q).d12⟩
      b := fun q => vsum Finset.univ fun i => c i • (φ i).disc.b q
      l := fun k => vsum Finset.univ fun i => c i • (φ i).disc.l k }
  p q := vsum Finset.univ fun i => c i • (φ i).p q

/-- Entry of `matrixL()`, `matrixH()` (`src/gsThinShellAssembler.hpp` l.1577-1600). -/
noncomputable def entry (P : Plate κ β γ π) (φ : Fin n → Fn κ β γ π) (i j : Fin n) : ℝ :=
  (P.set.elems.flatten.map fun q => P.set.wt q * (linStiffness (P.set.ori q) ((φ i).disc.d q) ((φ j).disc.d q)
    (P.mm q).1 (P.mm q).2.1 (P.mm q).2.2.1 (P.mm q).2.2.2 * Variation.measure (P.set.ori q))).sum

/-- Entry of `primalL()`: body force (`src/gsThinShellAssembler.hpp` l.2032-2036), tractions (l.347-356 there) and point
loads (l.1324-1384 there).  `meas(m_ori)` on a side is taken to be the length of its tangent, `tv(Gori).norm()` in the
estimator. -/
noncomputable def rhs (P : Plate κ β γ π) (φ : Fin n → Fn κ β γ π) (i : Fin n) : ℝ :=
  (P.set.elems.flatten.map fun q => P.set.wt q
      * (dot ((φ i).disc.w q) (P.set.F q) * Variation.measure (P.set.ori q))).sum
    + (P.set.bdr.map fun q => P.set.bwt q * (dot ((φ i).disc.b q) (P.set.gN q) * P.set.tv q)).sum
    + (P.set.loads.map fun k => dot ((φ i).disc.l k) (P.set.load k).value).sum

/-- State of a point with displacement `u`; only the fields that the goal `Displacement` reads
(`src/gsThinShellAssemblerDWR.hpp` l.305-339, 2824-2836) are meaningful. -/
noncomputable def state (s : Surf) (X u : V3) : Pt :=
  { ori := s, X := X, defo := s, x := X + u, primal := u
    T := fun _ _ => 0, Tp := fun _ _ => 0, mmA := fun _ _ => 0, mmD := fun _ _ => 0
    mmAi := fun _ _ => 0, mmBi := fun _ _ => 0, mmCi := fun _ _ => 0, mmDi := fun _ _ => 0
    S0 := fun _ => 0, S1 := fun _ => 0, N := fun _ => 0, M := fun _ => 0, P0 := fun _ => 0 }

/-- `numGoal[r]` (`examples/example_shell3D_DWR.cpp` l.476). -/
noncomputable def goal (P : Plate κ β γ π) (c : ℕ) (f : Fn κ β γ π) : Outcome ℝ :=
  (DWR.goal .domain .displacement c (P.set.elems.flatten.map fun q =>
    (P.set.wt q, state (P.set.ori q) (P.X q) (f.disc.w q)))).bind fun a =>
  (DWR.goal .points .displacement c (P.pts.map fun q => (1, state (P.pori q) (P.pX q) (f.p q)))).bind fun b =>
  .ok (a + b)

/-- Entry of `rhsL`, `rhsH` (`examples/example_shell3D_DWR.cpp` l.409-416, 429-436); derivatives of the test function
are not read at the points. -/
noncomputable def dual (P : Plate κ β γ π) (c : ℕ) (φ : Fin n → Fn κ β γ π) (f : Fn κ β γ π) (i : Fin n) : Outcome ℝ :=
  (DWR.dual .domain .displacement c (P.set.elems.flatten.map fun q =>
    (P.set.wt q, state (P.set.ori q) (P.X q) (f.disc.w q), ⟨(φ i).disc.w q, (φ i).disc.d q, i⟩))).bind fun a =>
  (DWR.dual .points .displacement c (P.pts.map fun q =>
    (1, state (P.pori q) (P.pX q) (f.p q), ⟨(φ i).p q, ⟨fun _ => 0, 0, 0, 0⟩, i⟩))).bind fun b =>
  .ok (a + b)

/-- The three linear systems (`examples/example_shell3D_DWR.cpp` l.398-443): primal solution, dual solution in the same
basis, dual solution in the finer basis. -/
structure Solved (P : Plate κ β γ π) (c : ℕ) (ψ : Fin n → Fn κ β γ π) (φ : Fin m → Fn κ β γ π)
    (uL zL : EuclideanSpace ℝ (Fin n)) (zH : EuclideanSpace ℝ (Fin m)) : Prop where
  primal : ∀ i, ∑ j, entry P ψ i j * uL j = rhs P ψ i
  dualL : ∀ i, dual P c ψ (comb ψ uL) i = .ok (∑ j, entry P ψ i j * zL j)
  dualH : ∀ i, dual P c φ (comb ψ uL) i = .ok (∑ j, entry P φ i j * zH j)

/-- The row of the table (`examples/example_shell3D_DWR.cpp` l.458-488): `computeError(dualL,dualH)` is called without
its third argument, so `withLoads` is false. -/
noncomputable def row (P : Plate κ β γ π) (c : ℕ) (ψ : Fin n → Fn κ β γ π) (φ : Fin m → Fn κ β γ π)
    (uL zL : EuclideanSpace ℝ (Fin n)) (zH : EuclideanSpace ℝ (Fin m)) (withLoads : Bool := false) : Outcome Row :=
  (goal P c (comb ψ uL)).bind fun g =>
  (totalError false .linear withLoads P.set (comb ψ zL).disc (comb φ zH).disc ⟨0, []⟩).bind fun e =>
  .ok ⟨g, e, g + e⟩

/-- `efficiencies[r] = approxs[r]/exacts[r]` with `exacts[r] = exactGoal - numGoal[r]` (l.475, 484-490 there;
the same in `examples/example_shell3D_DWR_modal.cpp` l.496-507 and, for two references, in
`examples/example_shell3D_DWR_buckling.cpp` l.505-518); `none` is the division by zero, whose result is not a number
or infinite. -/
noncomputable def efficiency (exactGoal : ℝ) (r : Row) : Option ℝ :=
  if exactGoal - r.num = 0 then none else some (r.approx / (exactGoal - r.num))

end Verif.LinearTable
