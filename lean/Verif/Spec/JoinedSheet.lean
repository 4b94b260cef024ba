import Verif.Model.JoinedSheet
import Verif.Spec.PlanarSystem

/-!
# Specification: planar patches joined and held by springs

Independent of the assembled forms: the energy of springs between the two sides of an interface and between a side
and its prescribed place.
-/

namespace Verif.Spec.JoinedSheet

open Verif.PlanarSystem Verif.JoinedSheet

variable {J κ ι : Type} [Fintype J]

/-- Energy density of the planar linear material with the coefficient `c` of the squared trace and `μ` of the squared
strain, indices raised by the matrix the planar code uses, the undeformed metric `A`. -/
noncomputable def energyPlain (c μ : ℝ) (A C : T2) : ℝ :=
  1 / 2 * (c * (∑ i, ∑ j, A i j * ((C i j - A i j) / 2)) ^ 2
    + 2 * μ * ∑ i, ∑ j, ∑ k, ∑ l, A i k * A j l * ((C i j - A i j) / 2) * ((C k l - A k l) / 2))

/-- Squared distance of the two sides of an interface. -/
def gap (G : Joins J ι) (x : EuclideanSpace ℝ J) (q : ι) : ℝ :=
  ∑ i, ((G.gL q i + ∑ j, x j * G.uL q j i) - (G.gR q i + ∑ j, x j * G.uR q j i)) ^ 2

/-- Squared distance of a point of a side from its prescribed place. -/
def off (G : Joins J ι) (x : EuclideanSpace ℝ J) (q : ι) : ℝ :=
  ∑ i, (G.u0 q i + ∑ j, x j * G.u q j i - G.g q i) ^ 2

/-- Potential of the sheet with springs along sides and interfaces. -/
noncomputable def potential (P : Problem J κ) (G : Joins J ι) (ψ : κ → T2 → T2 → ℝ) (x : EuclideanSpace ℝ J) : ℝ :=
  Spec.PlanarSystem.potential P ψ x
    + ∑ q ∈ G.Qd, G.wd q * (G.opt * G.m q / 2 * off G x q * G.μd q)
    + ∑ q ∈ G.Q0, G.w0 q * (G.a0 q / 2 * gap G x q * G.μ0 q)

/-- Work of the stretched springs on the field of an unknown. -/
def pull (G : Joins J ι) (x : EuclideanSpace ℝ J) (j : J) : ℝ :=
  (∑ q ∈ G.Qd, G.wd q * (G.opt * G.m q * (∑ i, (G.u0 q i + ∑ k, x k * G.u q k i - G.g q i) * G.u q j i) * G.μd q))
    + ∑ q ∈ G.Q0, G.w0 q * (G.a0 q * (∑ i, ((G.gL q i + ∑ k, x k * G.uL q k i) - (G.gR q i + ∑ k, x k * G.uR q k i))
        * (G.uL q j i - G.uR q j i)) * G.μ0 q)

/-- Twice the energy that the displacement `v` stores in the springs of the interfaces. -/
def joint (G : Joins J ι) (v : J → ℝ) : ℝ :=
  ∑ q ∈ G.Q0, G.w0 q * (G.a0 q * (∑ i, (∑ j, v j * (G.uL q j i - G.uR q j i)) ^ 2) * G.μ0 q)

/-- Twice the energy that the displacement `v` stores in the springs of the sides. -/
def side (G : Joins J ι) (v : J → ℝ) : ℝ :=
  ∑ q ∈ G.Qd, G.wd q * (G.opt * G.m q * (∑ i, (∑ j, v j * G.u q j i) ^ 2) * G.μd q)

/-- All springs push instead of pull. -/
def opposite {J ι : Type} (G : Joins J ι) : Joins J ι := { G with a0 := fun q => -G.a0 q, opt := -G.opt }

/-- The springs of the interfaces push instead of pull. -/
def apart {J ι : Type} (G : Joins J ι) : Joins J ι := { G with a0 := fun q => -G.a0 q }

/-- The same with another value of the option `WeakDirichlet`. -/
def withOpt {J ι : Type} (G : Joins J ι) (c : ℝ) : Joins J ι := { G with opt := c }

/-- One of the iterates of Newton's method after the other. -/
def Iterates (R : EuclideanSpace ℝ J → EuclideanSpace ℝ J)
    (K : EuclideanSpace ℝ J → EuclideanSpace ℝ J →L[ℝ] EuclideanSpace ℝ J) (x : ℕ → EuclideanSpace ℝ J) : Prop :=
  ∀ n, K (x n) (x (n + 1) - x n) = R (x n)

/-- The displacement `v` vanishes on the sides. -/
def Vanishes (G : Joins J ι) (v : J → ℝ) : Prop := ∀ q ∈ G.Qd, ∀ i, ∑ j, v j * G.u q j i = 0

/-- `x` is the solution of the linear problem with matrix `K` and loads `F` with the displacement `d` of the sides:
displaced so, and in balance for all displacements that vanish there. -/
structure Prescribed (K : J → J → ℝ) (F : J → ℝ) (G : Joins J ι) (d : ι → Fin 2 → ℝ) (x : J → ℝ) : Prop where
  place : ∀ q ∈ G.Qd, ∀ i, ∑ j, x j * G.u q j i = d q i
  balance : ∀ v, Vanishes G v → ∑ j, v j * ((∑ j', K j j' * x j') - F j) = 0

/-- The sheet is undeformed when all unknowns vanish, the sides are in their places and the interfaces closed. -/
structure AtRest {J ι : Type} (P : Problem J κ) (G : Joins J ι) : Prop where
  sheet : P.pre = P.ori
  side : ∀ q ∈ G.Qd, G.u0 q = 0
  closed : ∀ q ∈ G.Q0, G.gL q = G.gR q

end Verif.Spec.JoinedSheet
