import Verif.Model.Balance
import Verif.Spec.Variation

/-! # Specification notions: resultants, moments, discrete surfaces -/

namespace Verif.Balance

open V3 Verif.Geometry Verif.Variation

variable {ι κ : Type}

/-- At every point the basis functions sum to one: value, and so also the derivatives. -/
structure PartitionOfUnity (I : Finset ι) (φ : ι → Shape) : Prop where
  val : ∑ i ∈ I, (φ i).val = 1
  grad : ∀ k, ∑ i ∈ I, (φ i).grad k = 0
  hess : ∀ k, ∑ i ∈ I, (φ i).hess k = 0

/-- Derivatives of the surface with control points `P`. -/
def surface (I : Finset ι) (P : ι → V3) (φ : ι → Shape) : Surf :=
  ⟨fun k => vsum I fun i => (φ i).grad k • P i, vsum I fun i => (φ i).hess 0 • P i,
    vsum I fun i => (φ i).hess 1 • P i, vsum I fun i => (φ i).hess 2 • P i⟩

/-- Position of the surface with control points `P`. -/
def position (I : Finset ι) (P : ι → V3) (φ : ι → Shape) : V3 := vsum I fun i => (φ i).val • P i

/-- The velocity field of an infinitesimal rotation, applied to derivatives of a field. -/
def spin (ω : V3) (u : Surf) : Surf :=
  ⟨fun i => cross ω (u.a i), cross ω u.d11, cross ω u.d22, cross ω u.d12⟩

/-- Half the product of the first derivatives of a field: the second-order part of the membrane
strain. -/
noncomputable def halfSquare (u : Surf) : Voigt :=
  vec3 (dot (u.a 0) (u.a 0) / 2) (dot (u.a 1) (u.a 1) / 2) (dot (u.a 0) (u.a 1))

/-- Component of a vector. -/
def comp (v : V3) (d : Fin 3) : ℝ := vec3 v.x v.y v.z d

/-- Area element of a surface. -/
noncomputable def areaOf (s : Surf) : ℝ :=
  Real.sqrt (dot (cross (s.a 0) (s.a 1)) (cross (s.a 0) (s.a 1)))

end Verif.Balance
