import Verif.Spec.Outputs

/-! # Property C113: sizes of the outputs of the material evaluators -/

namespace Verif.Outputs

open Verif.Linear (Output strainKind)

local macro "outs" : tactic => `(tactic|
  simp_all [Delivers, PerPoint, Transform, PrincipalStrain, StressLike, Kinematic, Resultant, eval,
    evalPlain, evalTFT, member, declared, density, thickness, vector, stress, cauchyStress, matrix,
    pstress, cauchyPStress, pstressDir, strain, pstrain, deformation, pstretch, pstretchDir,
    tensionfield, computePoints, hasThickness, strainKind, pointColumns, numParameters,
    wrinkledData, Outcome.bind])

/-- **C113** (partial: linear material; without the principal strains, and the matrices of change
of basis at one height only) Every output has the declared size or is refused. -/
theorem C113_linear_partial (np : ℕ) (o : Output) (n h : ℕ) (hp : ¬ PrincipalStrain o)
    (ht : Transform o → h = 1) :
    Delivers (.plain (.linear np)) o n h ∨ eval (.plain (.linear np)) o n h = .throws := by
  cases o <;> outs

/-- **C113** The linear material refuses exactly four outputs: the principal stress directions, the
full Cauchy stress, and the wrinkling angle and strain. -/
theorem C113_linear_refused (np : ℕ) (o : Output) (n h : ℕ) :
    eval (.plain (.linear np)) o n h = .throws ↔
      o = .pstressDir ∨ o = .cauchyStress ∨ o = .theta ∨ o = .gamma := by
  cases o <;> outs <;> split_ifs <;> simp

/-- **C113** (partial: nonlinear material; without the principal strains and the principal stress
directions, the matrices of change of basis at one height only) Every declared output has the
declared size or is refused. -/
theorem C113_nonlinear_partial (np : ℕ) (o : Output) (n h : ℕ) (hp : ¬ PrincipalStrain o)
    (hd : o ≠ .pstressDir) (hc : o ≠ .cauchyStress) (ht : Transform o → h = 1) :
    Delivers (.plain (.nonlinear np)) o n h ∨ eval (.plain (.nonlinear np)) o n h = .throws := by
  cases o <;> outs

/-- **C113** The nonlinear material refuses exactly the wrinkling angle and strain. -/
theorem C113_nonlinear_refused (np : ℕ) (o : Output) (n h : ℕ) :
    eval (.plain (.nonlinear np)) o n h = .throws ↔ o = .theta ∨ o = .gamma := by
  cases o <;> outs <;> split_ifs <;> simp

/-- Non-vacuity: three points, two heights, two parameters. -/
example : eval (.plain (.linear 2)) .stressM 3 2 = .ok ⟨3, 6⟩ ∧
    eval (.plain (.linear 2)) .parameters 3 2 = .ok ⟨2, 3⟩ ∧
    eval (.plain (.nonlinear 2)) .matrixB 3 2 = .ok ⟨9, 6⟩ ∧
    eval (.plain (.nonlinear 2)) .spec2cov 3 1 = .ok ⟨9, 3⟩ := ⟨rfl, rfl, rfl, rfl⟩

/-- **C113** (partial: laminate at one height) The stiffness and the force and moment vectors, and
the density if densities were given, have the declared size. -/
theorem C113_laminate_partial (rho : Bool) (o : Output) (n : ℕ)
    (h : Resultant o ∨ o = .density ∧ rho = true) :
    Delivers (.plain (.composite rho)) o n 1 := by
  cases o <;> cases rho <;> outs

/-- **C113** The laminate refuses every output computed from the stress at a point, and the
parameters, at any number of heights. -/
theorem C113_laminate_refused (rho : Bool) (o : Output) (n h : ℕ) :
    eval (.plain (.composite rho)) o n h = .throws ↔ StressLike o ∨ o = .parameters := by
  cases o <;> cases rho <;> outs

/-- **C113** (partial: wrapped linear or nonlinear material; without the principal strains and the
transformations from the principal axes, the quantities stored per point at one height only)
Every declared output of the tension-field material has the declared size or is refused. -/
theorem C113_tft_partial (i : Inner) (hi : hasThickness i) (o : Output) (n h : ℕ)
    (hp : ¬ PrincipalStrain o) (hc : o ≠ .cauchyStress)
    (hs : o ≠ .spec2cov ∧ o ≠ .spec2con ∧ o ≠ .stretchTransform ∧ o ≠ .pstressTransform)
    (ht : o = .cov2cart ∨ o = .con2cart ∨ o = .theta ∨ o = .gamma → h = 1) :
    Delivers (.tft i) o n h ∨ eval (.tft i) o n h = .throws := by
  cases i <;> cases o <;> outs

/-- **C113** The wrapper of a linear or nonlinear material refuses exactly the principal stress
directions and the Cauchy force and moment vectors; the latter both materials provide when they
are not wrapped. -/
theorem C113_tft_refused (i : Inner) (hi : hasThickness i) (o : Output) (n h : ℕ) :
    eval (.tft i) o n h = .throws ↔ o = .pstressDir ∨ o = .cauchyVectorN ∨ o = .cauchyVectorM := by
  cases i <;> cases o <;> outs <;> split_ifs <;> simp

/-- Non-vacuity: a wrapped linear material at two points and two heights. -/
example : hasThickness (.linear 2) ∧ eval (.tft (.linear 2)) .stress 2 2 = .ok ⟨3, 4⟩ ∧
    eval (.tft (.linear 2)) .theta 2 1 = .ok ⟨1, 2⟩ := ⟨rfl, rfl, rfl⟩

/-- **C113** is violated: the principal strains have three rows where two are declared, for linear
and nonlinear materials, wrapped or not, for all points and heights. -/
theorem C113_principal_strain_violated (i : Inner) (hi : hasThickness i) (o : Output)
    (ho : PrincipalStrain o) (n h : ℕ) :
    eval (.plain i) o n h = .ok ⟨3, n * h⟩ ∧ eval (.tft i) o n h = .ok ⟨3, n * h⟩ ∧
    declared (.plain i) o = some 2 ∧ declared (.tft i) o = some 2 := by
  rcases ho with rfl | rfl <;> cases i <;> outs

/-- **C113** is violated: the principal stress directions of a nonlinear material have two rows
where nine are declared. -/
theorem C113_directions_violated (np n h : ℕ) :
    eval (.plain (.nonlinear np)) .pstressDir n h = .ok ⟨2, n * h⟩ ∧
    declared (.plain (.nonlinear np)) .pstressDir = some 9 := ⟨rfl, rfl⟩

/-- **C113** is violated: at two or more heights the matrices of change of basis are written out of
bounds, for linear and nonlinear materials. -/
theorem C113_heights_violated (i : Inner) (hi : hasThickness i) (o : Output) (ho : Transform o)
    (n h : ℕ) (hh : 2 ≤ h) : eval (.plain i) o n h = .ub := by
  have h1 : ¬ h ≤ 1 := by omega
  rcases ho with rfl | rfl | rfl | rfl | rfl | rfl <;> cases i <;> outs

/-- **C113** is violated: … and so are the wrinkling angle and strain of the tension-field
material. -/
theorem C113_tft_heights_violated (i : Inner) (hi : hasThickness i) (o : Output)
    (ho : o = .theta ∨ o = .gamma) (n h : ℕ) (hh : 2 ≤ h) : eval (.tft i) o n h = .ub := by
  have h1 : ¬ h ≤ 1 := by omega
  rcases ho with rfl | rfl <;> cases i <;> outs

/-- **C113** is violated: every output of a laminate that is computed from the metric alone follows
the unset thickness pointer of the base class; so does the thickness, and the density without
densities, at any number of points and heights. -/
theorem C113_laminate_violated (rho : Bool) (o : Output) (n h : ℕ) :
    eval (.plain (.composite rho)) o n h = .ub ↔
      Kinematic o ∨ o = .thickness ∨ o = .density ∧ rho = false := by
  cases o <;> cases rho <;> outs

/-- **C113** is violated: at two or more heights the force and moment vectors and the stiffness of
a laminate have one column per point only. -/
theorem C113_laminate_heights_violated (rho : Bool) (o : Output) (ho : Resultant o) (n h : ℕ)
    (hn : 1 ≤ n) (hh : 2 ≤ h) :
    (∃ r, eval (.plain (.composite rho)) o n h = .ok ⟨r, n⟩) ∧
      ¬ Delivers (.plain (.composite rho)) o n h := by
  have h1 : n ≠ n * h := by nlinarith
  rcases ho with rfl | rfl | rfl | rfl | rfl | rfl <;> outs

/-- **C113** is violated: the transformations from the principal axes of a fresh wrapped material
read point data that were never computed. -/
theorem C113_tft_transform_violated (i : Inner) (o : Output)
    (ho : o = .spec2cov ∨ o = .spec2con ∨ o = .stretchTransform ∨ o = .pstressTransform)
    (n h : ℕ) : eval (.tft i) o n h = .ub := by
  rcases ho with rfl | rfl | rfl | rfl <;> cases i <;> outs

/-- **C113** is violated: the wrapped material reports no parameters whatever the wrapped one
has. -/
theorem C113_tft_parameters_violated (np n h : ℕ) (hnp : 1 ≤ np) :
    eval (.tft (.linear np)) .parameters n h = .ok ⟨0, n⟩ ∧
    eval (.plain (.linear np)) .parameters n h = .ok ⟨np, n⟩ ∧
    eval (.tft (.linear np)) .parameters n h ≠ eval (.plain (.linear np)) .parameters n h := by
  refine ⟨rfl, rfl, ?_⟩
  outs
  omega

end Verif.Outputs
