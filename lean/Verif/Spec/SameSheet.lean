import Verif.Model.Balance
import Verif.Spec.Integrate

/-!
# Specification: the isotropic sheet

The textbook moduli of a homogeneous isotropic shell of thickness `t` with Young's modulus `E` and Poisson's ratio
`ν` in curvilinear coordinates with tangents `a`.
-/

namespace Verif.Spec.SameSheet

open V3 Verif.Balance

/-- Metric coefficients with upper indices: the inverse of the matrix of the `a i · a j`. -/
noncomputable def upper (a : Fin 2 → V3) (i j : Fin 2) : ℝ :=
  (if i = j then dot (a (1 - i)) (a (1 - i)) else -dot (a 0) (a 1)) /
    (dot (a 0) (a 0) * dot (a 1) (a 1) - dot (a 0) (a 1) * dot (a 0) (a 1))

/-- Plane-stress elasticity tensor. -/
noncomputable def planeStress (E ν : ℝ) (G : Fin 2 → Fin 2 → ℝ) (i j k l : Fin 2) : ℝ :=
  E / (1 - ν ^ 2) * ((1 - ν) / 2 * (G i k * G j l + G i l * G j k) + ν * (G i j * G k l))

/-- Pair of indices of an entry of the matrices. -/
def pair (I : Fin 3) : Fin 2 × Fin 2 := if I = 0 then (0, 0) else if I = 1 then (1, 1) else (0, 1)

/-- Matrix of the plane-stress tensor. -/
noncomputable def planeMatrix (E ν : ℝ) (a : Fin 2 → V3) : T3 := fun I J =>
  planeStress E ν (upper a) (pair I).1 (pair I).2 (pair J).1 (pair J).2

/-- The section: membrane stiffness `t C`, bending stiffness `t³/12 C`, no coupling. -/
noncomputable def isotropic (E ν t : ℝ) (a : Fin 2 → V3) : Section where
  A := fun I J => t * planeMatrix E ν a I J
  B := fun _ _ => 0
  C := fun _ _ => 0
  D := fun I J => t ^ 3 / 12 * planeMatrix E ν a I J
  N := fun _ => 0
  M := fun _ => 0

end Verif.Spec.SameSheet
