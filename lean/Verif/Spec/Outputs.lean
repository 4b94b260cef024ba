import Verif.Model.Outputs

/-!
# Specification of the evaluator outputs

The contract of an evaluator: one column per point and height (per point only for the quantities
that do not depend on the height), as many rows as the evaluator declares.
-/

namespace Verif.Outputs

open Verif.Linear (Output)

/-- Quantities without a height. -/
def PerPoint (o : Output) : Prop := o = .density ∨ o = .thickness ∨ o = .parameters

/-- The result has the declared rows and the right number of columns. -/
def Delivers (m : Mat) (o : Output) (n h : ℕ) : Prop :=
  ∃ s, eval m o n h = .ok s ∧ declared m o = some s.rows ∧
    (PerPoint o → s.cols = n) ∧ (¬ PerPoint o → s.cols = n * h)

/-- The matrices of change of basis. -/
def Transform (o : Output) : Prop :=
  o = .spec2cov ∨ o = .spec2con ∨ o = .cov2cart ∨ o = .con2cart ∨ o = .stretchTransform ∨
    o = .pstressTransform

/-- The principal strains. -/
def PrincipalStrain (o : Output) : Prop := o = .pstrainN ∨ o = .pstrainM

/-- Quantities computed from the stress at a point. -/
def StressLike (o : Output) : Prop :=
  o = .generic ∨ o = .cauchyVectorN ∨ o = .cauchyVectorM ∨ o = .pstress ∨ o = .pstressN ∨
    o = .pstressM ∨ o = .pcauchyStressN ∨ o = .pcauchyStressM ∨ o = .pstressDir ∨ o = .stress ∨
    o = .stressN ∨ o = .stressM ∨ o = .cauchyStress ∨ o = .cauchyStressN ∨ o = .cauchyStressM ∨
    o = .tensionField ∨ o = .theta ∨ o = .gamma

/-- Quantities computed from the metric of the deformed surface alone. -/
def Kinematic (o : Output) : Prop :=
  o = .strain ∨ o = .strainN ∨ o = .strainM ∨ PrincipalStrain o ∨ o = .stretch ∨ o = .stretchDir ∨
    o = .deformation ∨ Transform o

/-- The stiffness and the force and moment vectors. -/
def Resultant (o : Output) : Prop :=
  o = .matrixA ∨ o = .matrixB ∨ o = .matrixC ∨ o = .matrixD ∨ o = .vectorN ∨ o = .vectorM

end Verif.Outputs
