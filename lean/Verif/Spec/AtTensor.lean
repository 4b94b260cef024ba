import Verif.Model.Geometry

/-!
# Specification: deformation tensors

Independent of the model: the deformation tensor of a shell at a height, metrics.
-/

namespace Verif.Spec.AtTensor

open Verif.Geometry V3

/-- The point at the height `z` over the surface moves with the vectors `a_i + z n_i`; their products,
`(11, 22, 12)`. -/
noncomputable def deformation (s : Surf) (z : ℝ) : Voigt :=
  vec3 (dot (s.a 0 + z • ncov s 0) (s.a 0 + z • ncov s 0)) (dot (s.a 1 + z • ncov s 1) (s.a 1 + z • ncov s 1))
    (dot (s.a 0 + z • ncov s 0) (s.a 1 + z • ncov s 1))

/-- The entries are the products of two vectors that are not parallel. -/
def IsMetric (c : Voigt) : Prop := 0 < c 0 ∧ 0 < c 1 ∧ c 2 ^ 2 < c 0 * c 1

/-- Rate of the tensor `(C11, C22, C12)` for the rate `e` of the strain with doubled shear. -/
def rate (e : Voigt) : Voigt := vec3 (2 * e 0) (2 * e 1) (e 2)

/-- A plane. -/
def plane : Surf := ⟨fun i => if i = 0 then ⟨1, 0, 0⟩ else ⟨0, 1, 0⟩, 0, 0, 0⟩

/-- A point of a cylinder of radius one. -/
def cylinder : Surf := ⟨fun i => if i = 0 then ⟨1, 0, 0⟩ else ⟨0, 1, 0⟩, ⟨0, 0, 1⟩, 0, 0⟩

end Verif.Spec.AtTensor
