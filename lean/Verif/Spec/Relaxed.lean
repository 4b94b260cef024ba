import Verif.Spec.TFT
import Verif.Spec.PosDef

/-!
# Specification: the state of a membrane that cannot bear compression

A thin membrane wrinkles instead of bearing compression.  Its state is described by a stress
and a wrinkling strain: the length that disappears in the wrinkles.
-/

namespace Verif.Spec.Relaxed

open Verif.TFT

/-- The work of a stress on a strain, both in Voigt form. -/
def work (S W : Voigt) : ℝ := ∑ i, S i * W i

/-- No direction is under compression. -/
def NoCompression (S : Voigt) : Prop := ∀ v : Fin 2 → ℝ, 0 ≤ comp (stressTensor S) v v

/-- The strain lengthens or keeps every direction. -/
def Lengthens (W : Voigt) : Prop := ∀ v : Fin 2 → ℝ, 0 ≤ comp (strainTensor W) v v

/-- State of a membrane with stiffness `C` whose stress without wrinkles would be `S`: the
wrinkles give the strain `W` and the remaining stress `T`. -/
structure State (C : T3) (S T W : Voigt) : Prop where
  /-- the wrinkling strain changes the stress by the stiffness -/
  law : ∀ i, T i = S i + ∑ j, C i j * W j
  /-- no compression remains -/
  tension : NoCompression T
  /-- wrinkles only take up length -/
  wrinkles : Lengthens W
  /-- no tension across a wrinkle -/
  idle : work T W = 0

/-- The stored energy of a strain. -/
noncomputable def energy (C : T3) (E : Voigt) : ℝ := (1 / 2) * ∑ i, ∑ j, E i * C i j * E j

/-- The principal stresses of the contravariant stress `S` in a surface with metric `A`, in
ascending order: eigenvalues of the mixed components. -/
def PrincipalStress (A : T2) (S : Voigt) (lo hi : ℝ) : Prop :=
  lo ≤ hi ∧ (∑ i, ∑ j, A i j * stressTensor S j i) = lo + hi ∧
    det2 A * det2 (stressTensor S) = lo * hi

/-- The principal strains of the covariant strain `E` in a surface with metric `A`. -/
def PrincipalStrain (A : T2) (E : Voigt) (lo hi : ℝ) : Prop :=
  lo ≤ hi ∧ (∑ i, ∑ j, inv2 A i j * strainTensor E j i) = lo + hi ∧
    det2 (strainTensor E) = det2 A * (lo * hi)

/-- The covariant components of the strain `E` in other coordinates, `J` being the matrix of
derivatives of the old with respect to the new coordinates. -/
noncomputable def pull (J : T2) (E : Voigt) : Voigt :=
  vec3 (comp (strainTensor E) (fun i => J i 0) (fun i => J i 0))
    (comp (strainTensor E) (fun i => J i 1) (fun i => J i 1))
    (2 * comp (strainTensor E) (fun i => J i 0) (fun i => J i 1))

/-- `S` and `S'` are the components of one stress in the two coordinate systems. -/
def SameStress (J : T2) (S S' : Voigt) : Prop := ∀ E, work S E = work S' (pull J E)

/-- `C` and `C'` are the components of one stiffness in the two coordinate systems. -/
def SameStiffness (J : T2) (C C' : T3) : Prop :=
  ∀ E F : Voigt, (∑ i, ∑ j, E i * C i j * F j) = ∑ i, ∑ j, pull J E i * C' i j * pull J F j

end Verif.Spec.Relaxed
