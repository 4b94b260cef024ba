import Verif.Model.Transform

/-! # Specification: the stiffness of a membrane in a Cartesian frame -/

namespace Verif.Spec.Penalty

open V3 Verif.Geometry

/-- Value on the vectors `u`, `v` of the strain with Cartesian components `(ε11, ε22, 2 ε12)` in the
frame `f1`, `f2`. -/
noncomputable def strainOn (f1 f2 : V3) (ε : Voigt) (u v : V3) : ℝ :=
  ε 0 * (dot u f1 * dot v f1) + ε 1 * (dot u f2 * dot v f2)
    + ε 2 / 2 * (dot u f1 * dot v f2 + dot u f2 * dot v f1)

/-- Covariant components `(E11, E22, 2 E12)` of that strain with respect to the tangents. -/
noncomputable def covariantStrain (f1 f2 : V3) (ε : Voigt) (s : Surf) : Voigt :=
  vec3 (strainOn f1 f2 ε (s.a 0) (s.a 0)) (strainOn f1 f2 ε (s.a 1) (s.a 1))
    (2 * strainOn f1 f2 ε (s.a 0) (s.a 1))

/-- Value on `u`, `v` of the stress with contravariant components `(S11, S22, S12)`. -/
noncomputable def stressOn (s : Surf) (S : Voigt) (u v : V3) : ℝ :=
  S 0 * (dot u (s.a 0) * dot v (s.a 0)) + S 1 * (dot u (s.a 1) * dot v (s.a 1))
    + S 2 * (dot u (s.a 0) * dot v (s.a 1) + dot u (s.a 1) * dot v (s.a 0))

/-- `M` is the stiffness `A` (contravariant stress per covariant strain) expressed in the frame `f1`,
`f2`: it takes the Cartesian strain to the Cartesian components of the resulting stress. -/
def IsCartesianStiffness (f1 f2 : V3) (s : Surf) (A M : T3) : Prop :=
  ∀ ε : Voigt,
    (∑ k, M 0 k * ε k) = stressOn s (mulVec3 A (covariantStrain f1 f2 ε s)) f1 f1 ∧
    (∑ k, M 1 k * ε k) = stressOn s (mulVec3 A (covariantStrain f1 f2 ε s)) f2 f2 ∧
    (∑ k, M 2 k * ε k) = stressOn s (mulVec3 A (covariantStrain f1 f2 ε s)) f1 f2

/-- Plane stress stiffness of an isotropic material in an orthonormal frame: Young's modulus `E`,
Poisson's ratio `ν`, factor `t` (thickness for the membrane, `thickness³/12` for bending). -/
noncomputable def planeStress (E ν t : ℝ) : T3 :=
  mk3 (t * (E / (1 - ν ^ 2))) (t * (E * ν / (1 - ν ^ 2))) 0
    (t * (E * ν / (1 - ν ^ 2))) (t * (E / (1 - ν ^ 2))) 0
    0 0 (t * (E / (2 * (1 + ν))))

/-- Positive definite. -/
def PosDef (A : T3) : Prop := ∀ x : Voigt, x ≠ 0 → 0 < ∑ i, ∑ j, x i * A i j * x j

end Verif.Spec.Penalty
