import Verif.Model.Outputs
import Verif.Model.Transform

/-!
# The stress output function

Models `gsShellStressFunction` (`src/gsThinShellFunctions.h`, `.hpp`): which patch each kind of
output is evaluated on, the declared number of rows, the von Mises formulas and the strain
output in the local Cartesian frame.
-/

namespace Verif.StressFun

open V3 Verif.Geometry Verif.Transform Verif.Linear

/-- `stress_type::type` (`src/gsThinShellFunctions.h` l.38-69). -/
inductive Kind where
  | displacement | vonMises | vonMisesMembrane | vonMisesFlexural
  | membrane | membraneForce | membranePK2 | membraneForcePK2
  | flexural | flexuralPK2 | flexuralMoment | flexuralMomentPK2
  | total | membraneStrain | flexuralStrain
  | principalMembraneStrain | principalFlexuralStrain
  | principalStretch | principalStress | principalStressMembrane | principalStressFlexural
  | principalStretchDir1 | principalStretchDir2 | principalStretchDir3
  | principalStressDir1 | principalStressDir2 | principalStressDir3
  | tensionField
deriving Repr, DecidableEq

/-- `targetDim()` (`src/gsThinShellFunctions.h` l.116-225). -/
def targetDim : Kind → ℕ
  | .total => 0
  | .vonMises | .principalStress | .principalStressMembrane | .principalStressFlexural => 2
  | .vonMisesMembrane | .vonMisesFlexural | .tensionField => 1
  | _ => 3

/-- The patch index passed to `ev.eval` in `eval_into` for a function built for patch `p`
(`src/gsThinShellFunctions.hpp` l.110-271): `m_patchID` in most cases; `principal_stress`
(l.209) and `principal_stress_dir1/2/3` (l.243, 250, 257) pass nothing, so the default argument
0 of `gsExprEvaluator::eval` applies; `total` evaluates nothing (l.269). -/
def patchPassed (k : Kind) (p : ℕ) : Option ℕ :=
  match k with
  | .total => none
  | .principalStress | .principalStressDir1 | .principalStressDir2 | .principalStressDir3 => some 0
  | _ => some p

/-- `eval_into` of the stress function of patch `p` at a point `u`, given for each kind the
quantity `field k q u` on patch `q` (`src/gsThinShellFunctions.hpp` l.23-273). -/
def evalInto {P V : Type} (field : Kind → ℕ → P → V) (k : Kind) (p : ℕ) (u : P) : Option V :=
  (patchPassed k p).map (fun q => field k q u)

/-- `constructStress`: one stress function per patch, in the order of the patches
(`src/gsThinShellAssembler.hpp` l.2806-2815). -/
def constructStress {P V : Type} (field : Kind → ℕ → P → V) (k : Kind) (nPatches : ℕ) :
    List (P → Option V) :=
  (List.range nPatches).map (fun p u => evalInto field k p u)

/-- The material output(s) a kind is computed from (`src/gsThinShellFunctions.hpp` l.56-106, 110-271);
the displacement and the two strains use the geometries only.  Forces and moments use the
evaluator integrated over the thickness, the others the one at height 0. -/
def sources : Kind → List Output
  | .displacement | .total | .membraneStrain | .flexuralStrain => []
  | .vonMises => [.stressN, .stressM]
  | .vonMisesMembrane | .membranePK2 => [.stressN]
  | .vonMisesFlexural | .flexuralPK2 => [.stressM]
  | .membrane => [.cauchyStressN]
  | .flexural => [.cauchyStressM]
  | .membraneForce => [.cauchyVectorN]
  | .flexuralMoment => [.cauchyVectorM]
  | .membraneForcePK2 => [.vectorN]
  | .flexuralMomentPK2 => [.vectorM]
  | .principalMembraneStrain => [.pstrainN]
  | .principalFlexuralStrain => [.pstrainM]
  | .principalStretch => [.stretch]
  | .principalStress => [.pstress]
  | .principalStressMembrane => [.pcauchyStressN]
  | .principalStressFlexural => [.pcauchyStressM]
  | .principalStretchDir1 | .principalStretchDir2 | .principalStretchDir3 => [.stretchDir]
  | .principalStressDir1 | .principalStressDir2 | .principalStressDir3 => [.pstressDir]
  | .tensionField => [.tensionField]

/-- Rows of the column of the result that `eval_into` assigns, from the rows `r` of the (first)
material output (`src/gsThinShellFunctions.hpp` l.110-271): the difference of the geometries has
`d` rows; strains, stresses, forces and moments are multiplied by a 3×3 transformation; von Mises
values are computed from three rows; a direction is a column of `tmp.reshape(3,3)`, which needs
nine entries; the other kinds are passed on. -/
def rowsFrom (d : ℕ) (k : Kind) (r : ℕ) : Outcome ℕ :=
  match k with
  | .displacement => .ok d
  | .total => .ok 0
  | .membraneStrain | .flexuralStrain => .ok 3
  | .vonMises => .ok 2
  | .vonMisesMembrane | .vonMisesFlexural => .ok 1
  | .principalStretchDir1 | .principalStretchDir2 | .principalStretchDir3
  | .principalStressDir1 | .principalStressDir2 | .principalStressDir3 =>
    if r = 9 then .ok 3 else .ub
  | _ => .ok r

/-- The first failure of the material outputs a kind needs, or the rows of the first one. -/
def sourceRows (m : Outputs.Mat) : List Output → Outcome ℕ
  | [] => .ok 0
  | o :: l => (Outputs.eval m o 1 1).bind fun s => (sourceRows m l).bind fun _ => .ok s.rows

/-- Number of rows of the value assigned to one column of the result of `eval_into`, for a
geometry in dimension `d` and a material `m` (`src/gsThinShellFunctions.hpp` l.110-271).  All
expressions are built beforehand, but only those of the kind are evaluated. -/
def evalRows (d : ℕ) (m : Outputs.Mat) (k : Kind) : Outcome ℕ :=
  (sourceRows m (sources k)).bind fun r => rowsFrom d k r

/-- Von Mises formula for plane stress (`src/gsThinShellFunctions.hpp` l.164, 166, 174, 182). -/
noncomputable def vm (S : Voigt) : ℝ :=
  Real.sqrt (S 0 * S 0 + S 1 * S 1 - S 0 * S 1 + 3 * S 2 * S 2)

/-- `S_m = S0.tr() * Ttilde.tr()` for the linear material: membrane stress in the local frame
(`src/gsThinShellFunctions.hpp` l.101); `Em` is the membrane strain. -/
noncomputable def Sm (s : Surf) (E ν : ℝ) (Em : T2) : Voigt :=
  mulVec3 (cartcov s) (stress E ν (Acon s) Em)

/-- `S_f = S1.tr() * Ttilde.tr()` for the linear material (`src/gsThinShellFunctions.hpp`
l.102): `StressM` at `z = 0` applies the material law to the bending strain `Ef` itself, without
a height. -/
noncomputable def Sf (s : Surf) (E ν : ℝ) (Ef : T2) : Voigt :=
  mulVec3 (cartcov s) (stress E ν (Acon s) Ef)

/-- `von_mises`: the two rows (`src/gsThinShellFunctions.hpp` l.157-168). -/
noncomputable def vonMises (s : Surf) (E ν : ℝ) (Em Ef : T2) : ℝ × ℝ :=
  (vm (fun i => Sm s E ν Em i + Sf s E ν Ef i), vm (fun i => Sm s E ν Em i - Sf s E ν Ef i))

/-- `von_mises_flexural` (`src/gsThinShellFunctions.hpp` l.178-184). -/
noncomputable def vonMisesFlexural (s : Surf) (E ν : ℝ) (Ef : T2) : ℝ := vm (Sf s E ν Ef)

/-- `flat`: Voigt vector of a 2×2 matrix, the off-diagonal entries added (G+Smo expression used
in `src/gsThinShellFunctions.hpp` l.92). -/
def flat (A : T2) : Voigt := vec3 (A 0 0) (A 1 1) (A 0 1 + A 1 0)

/-- Membrane strain output `E_m` (`src/gsThinShellFunctions.hpp` l.92): half the difference of
the flattened metrics, third entry halved, transformed by `cartcon(m_ori)`. -/
noncomputable def membraneOut (ori defo : Surf) : Voigt :=
  mulVec3 (cartcon ori)
    (vec3 (0.5 * (flat (Acov defo) 0 - flat (Acov ori) 0))
      (0.5 * (flat (Acov defo) 1 - flat (Acov ori) 1))
      (0.5 * (0.5 * (flat (Acov defo) 2 - flat (Acov ori) 2))))

/-- Flexural strain output `E_f` (`src/gsThinShellFunctions.hpp` l.93): difference of the
curvatures `(b11, b22, b12)`, third entry doubled, transformed by `cartcon(m_ori)`. -/
noncomputable def flexuralOut (ori defo : Surf) : Voigt :=
  mulVec3 (cartcon ori)
    (vec3 (Bcov ori 0 0 - Bcov defo 0 0) (Bcov ori 1 1 - Bcov defo 1 1)
      (2 * (Bcov ori 0 1 - Bcov defo 0 1)))

end Verif.StressFun
