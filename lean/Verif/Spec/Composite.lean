import Mathlib.Analysis.SpecialFunctions.Integrals.Basic
import Verif.Model.Composite

/-! # Specification: laminates as functions of the height -/

namespace Verif.Composite

/-- Sum of the layer thicknesses. -/
noncomputable def thickness (ls : List Layer) : ℝ := (ls.map Layer.t).sum

/-- Stiffness at height `z` of a stack whose top is at height `h`: the layers are listed from
the top; below the stack there is nothing. -/
noncomputable def stiffAt : List Layer → ℝ → ℝ → T3
  | [], _, _ => fun _ _ => 0
  | l :: ls, h, z => if h - l.t ≤ z then plyD l else stiffAt ls (h - l.t) z

/-- `m`-th moment of the stiffness over the laminate, heights measured from the middle. -/
noncomputable def stiffMoment (ls : List Layer) (m : Nat) (i j : Fin 3) : ℝ :=
  ∫ z in (-(thickness ls / 2))..(thickness ls / 2), z ^ m * stiffAt ls (thickness ls / 2) z i j

/-- Density at height `z` of a stack whose top is at height `h`. -/
noncomputable def densAt : List Layer → ℝ → ℝ → ℝ
  | [], _, _ => 0
  | l :: ls, h, z => if h - l.t ≤ z then l.ρ else densAt ls (h - l.t) z

/-- Voigt index of a pair of in-plane indices. -/
def vi (i j : Fin 2) : Fin 3 := if i = j then (if i = 0 then 0 else 1) else 2

/-- Components of a plane fourth-order tensor in another basis: `D` holds the components in
the frame `e`, `x i α` the components of the new dual basis vectors in that frame. -/
noncomputable def tensorComp (D : T3) (x : T2) (i j k l : Fin 2) : ℝ :=
  ∑ α, ∑ β, ∑ γ, ∑ η, x i α * x j β * x k γ * x l η * D (vi α β) (vi γ η)

/-- Voigt vector with doubled shear of a symmetric tensor. -/
def strainVec (e : T2) : Voigt := vec3 (e 0 0) (e 1 1) (2 * e 0 1)

/-- Components of a plane tensor in axes rotated by `φ`. -/
noncomputable def rotated (φ : ℝ) (e : T2) : T2 :=
  let q : T2 := ![![Real.cos φ, Real.sin φ], ![-Real.sin φ, Real.cos φ]]
  fun i j => ∑ k, ∑ l, q i k * q j l * e k l

end Verif.Composite
