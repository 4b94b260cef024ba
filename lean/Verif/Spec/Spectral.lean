import Verif.Model.Tensor
import Mathlib.Analysis.SpecialFunctions.Log.Basic
import Mathlib.Analysis.SpecialFunctions.Pow.Real
import Mathlib.Analysis.Calculus.Deriv.Basic

/-!
# Specification vocabulary for the spectral implementation

Independent of the model definitions: chain rules along curves of stretches, energy
functions, eigenvalues of the deformation relative to the reference metric, and what a
symmetric eigenvalue solver has to return.
-/

namespace Verif.Spec.Spectral

/-- `d` is the gradient of `W`: along every differentiable curve of positive stretches the
rate of `W` is the contraction of `d` with the velocity. -/
def IsGradient (W : (Fin 3 → ℝ) → ℝ) (d : (Fin 3 → ℝ) → Fin 3 → ℝ) : Prop :=
  ∀ (L : ℝ → Fin 3 → ℝ) (h : Fin 3 → ℝ) (t : ℝ),
    (∀ c, HasDerivAt (fun s => L s c) (h c) t) → (∀ c, 0 < L t c) →
    HasDerivAt (fun s => W (L s)) (∑ b, d (L t) b * h b) t

/-- `d2` is the derivative of the vector field `d1`. -/
def IsJacobian (d1 : (Fin 3 → ℝ) → Fin 3 → ℝ) (d2 : (Fin 3 → ℝ) → Fin 3 → Fin 3 → ℝ) : Prop :=
  ∀ a, IsGradient (fun l => d1 l a) (fun l b => d2 l a b)

/-- First and second invariants and squared Jacobian of the stretches. -/
def invI (l : Fin 3 → ℝ) : ℝ := l 0 ^ 2 + l 1 ^ 2 + l 2 ^ 2
def invII (l : Fin 3 → ℝ) : ℝ := (l 0 * l 1) ^ 2 + (l 1 * l 2) ^ 2 + (l 2 * l 0) ^ 2
def invIII (l : Fin 3 → ℝ) : ℝ := (l 0 * l 1 * l 2) ^ 2

/-- Neo-Hookean energy, shear modulus `mu`. -/
noncomputable def energyNH (mu : ℝ) (l : Fin 3 → ℝ) : ℝ := mu / 2 * (invI l - 3)

/-- Mooney–Rivlin energy. -/
noncomputable def energyMR (c1 c2 : ℝ) (l : Fin 3 → ℝ) : ℝ :=
  c1 / 2 * (invI l - 3) + c2 / 2 * (invII l - 3)

/-- Ogden energy with terms `(mu_i, alpha_i)`. -/
noncomputable def energyOG (terms : List (ℝ × ℝ)) (l : Fin 3 → ℝ) : ℝ :=
  (terms.map fun t => t.1 / t.2 * (l 0 ^ t.2 + l 1 ^ t.2 + l 2 ^ t.2 - 3)).sum

/-- Volumetric energy with bulk modulus `K`. -/
noncomputable def energyVol (K : ℝ) (l : Fin 3 → ℝ) : ℝ :=
  K / 4 * (invIII l - 1 - Real.log (invIII l))

/-- Compressible neo-Hookean energy (isochoric part and volumetric part). -/
noncomputable def energyNHc (mu K : ℝ) (l : Fin 3 → ℝ) : ℝ :=
  mu / 2 * (invIII l ^ (-1 / 3 : ℝ) * invI l - 3) + energyVol K l

/-- Compressible Mooney–Rivlin energy. -/
noncomputable def energyMRc (c1 c2 K : ℝ) (l : Fin 3 → ℝ) : ℝ :=
  c1 / 2 * (invIII l ^ (-1 / 3 : ℝ) * invI l - 3) + c2 / 2 * (invIII l ^ (-2 / 3 : ℝ) * invII l - 3)
    + energyVol K l

/-- Compressible Ogden energy. -/
noncomputable def energyOGc (terms : List (ℝ × ℝ)) (K : ℝ) (l : Fin 3 → ℝ) : ℝ :=
  (terms.map fun t => t.1 / t.2
    * (invIII l ^ (-t.2 / 6) * (l 0 ^ t.2 + l 1 ^ t.2 + l 2 ^ t.2) - 3)).sum + energyVol K l

/-- Extended neo-Hookean energy. -/
noncomputable def energyNHe (mu lam : ℝ) (l : Fin 3 → ℝ) : ℝ :=
  mu / 2 * (invI l - 3 - Real.log (invIII l)) + lam / 4 * (invIII l - 1 - Real.log (invIII l))

/-- `x` and `y` are the eigenvalues of the deformation `C` relative to the reference metric
`A` (with multiplicity): the roots of `det (C - t A)`. -/
def AreEigenvalues (A C : T2) (x y : ℝ) : Prop :=
  ∀ t, (C 0 0 - t * A 0 0) * (C 1 1 - t * A 1 1) - (C 0 1 - t * A 0 1) * (C 1 0 - t * A 1 0)
    = (A 0 0 * A 1 1 - A 0 1 * A 1 0) * ((t - x) * (t - y))

/-- What a solver for symmetric eigenvalue problems returns: ascending eigenvalues `val` and
orthonormal eigenvectors `vec`. -/
structure IsEigenDecomposition (B : T3) (val : Fin 3 → ℝ) (vec : Fin 3 → Fin 3 → ℝ) : Prop where
  ascending : val 0 ≤ val 1 ∧ val 1 ≤ val 2
  orthonormal : ∀ a b, (∑ i, vec a i * vec b i) = if a = b then 1 else 0
  eigen : ∀ a i, (∑ j, B i j * vec a j) = val a * vec a i

/-- Symmetric positive definite. -/
structure SPD (C : T2) : Prop where
  symm : C 0 1 = C 1 0
  pos : ∀ x y : ℝ, (x ≠ 0 ∨ y ≠ 0) → 0 < C 0 0 * x * x + (C 0 1 + C 1 0) * x * y + C 1 1 * y * y

end Verif.Spec.Spectral
