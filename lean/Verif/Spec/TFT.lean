import Mathlib.Analysis.SpecialFunctions.Trigonometric.Deriv
import Verif.Model.TFT

/-! # Specification notions for tension fields -/

namespace Verif.TFT

/-- The symmetric tensor of a stress in Voigt form `(S11, S22, S12)`. -/
def stressTensor (S : Voigt) : T2 := ![![S 0, S 2], ![S 2, S 1]]

/-- The symmetric tensor of a strain in Voigt form `(E11, E22, 2 E12)`. -/
noncomputable def strainTensor (E : Voigt) : T2 := ![![E 0, E 2 / 2], ![E 2 / 2, E 1]]

/-- The wrinkling direction. -/
noncomputable def dirN (θ : ℝ) : Fin 2 → ℝ := ![Real.cos θ, Real.sin θ]

/-- The tension direction. -/
noncomputable def dirM (θ : ℝ) : Fin 2 → ℝ := ![-Real.sin θ, Real.cos θ]

/-- Component `u · T · v` of a tensor. -/
def comp (T : T2) (u v : Fin 2 → ℝ) : ℝ := ∑ i, ∑ j, u i * T i j * v j

/-- The matrix is symmetric. -/
def Symm (C : T3) : Prop := ∀ i j, C i j = C j i

/-- The matrix is positive definite on the space of strains. -/
def PosDef (C : T3) : Prop := ∀ v : Voigt, v ≠ 0 → 0 < ∑ i, ∑ j, v i * C i j * v j

/-- A differentiable one-parameter family of wrinkled states: stress, elasticity matrix and
wrinkling angle, with strain velocity `d` at parameter zero.  The stress velocity is the
elasticity matrix times `d`, the matrix velocity is the directional derivative `dC · d`, and
the wrinkling condition holds throughout. -/
structure WrinklePath where
  S : ℝ → Voigt
  C : ℝ → T3
  θ : ℝ → ℝ
  d : Voigt
  dC : Fin 3 → T3
  θ' : ℝ
  hS : ∀ i, HasDerivAt (fun t => S t i) (∑ j, C 0 i j * d j) 0
  hC : ∀ i j, HasDerivAt (fun t => C t i j) (∑ k, dC k i j * d k) 0
  hθ : HasDerivAt θ θ' 0
  root : ∀ t, objective (C t) (S t) (θ t) = 0
  symm : Symm (C 0)
  stiff : quad (n1 (θ 0)) (C 0) (n1 (θ 0)) ≠ 0

/-- The velocity of the wrinkled stress along a path is `v`. -/
def WrinklePath.StressVelocity (P : WrinklePath) (v : Voigt) : Prop :=
  ∀ i, HasDerivAt (fun t => computeS (P.θ t) (P.C t) (P.S t) i) (v i) 0

end Verif.TFT
