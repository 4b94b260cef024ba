import Verif.Lemmas.Planar

/-! # Property C125: a planar problem is the flat sheet in space -/

set_option linter.unusedSimpArgs false

namespace Verif.Planar

open V3 Verif.Geometry Verif.Hyper

/-- **C125** What a nonlinear material gets to know about a planar geometry is what it gets to know
at every height about the flat sheet in space, whatever the second derivatives in the plane; there is
no curvature. -/
theorem C125_metric (J K : Jac) (h k : Fin 3 → Fin 2 → ℝ) (hJ : jdet J ≠ 0) (hK : jdet K ≠ 0)
    (z : ℝ) :
    Hyper.data (Gblock (sheet J h) z) (Gblock (sheet K k) z) = data J K ∧
    (∀ i j, membraneStrain (sheet J h) (sheet K k) i j = strain J K i j) ∧
    (∀ i j, bendingStrain (sheet J h) (sheet K k) i j = bending J K i j) := by
  refine ⟨data_sheet J K h k hJ hK z, fun i j => ?_, fun i j => ?_⟩
  · simp only [membraneStrain, Acov_sheet, strain]
  · simp only [bendingStrain, Bcov_sheet J h hJ, Bcov_sheet K k hK, bending]

example : jdet ![![2, 0], ![3, 1]] ≠ 0 ∧ jdet ![![0, 1], ![1, 0]] < 0 := by
  norm_num [jdet]

/-- **C125** The bases agree for an orientation preserving parametrisation; otherwise the third
vector has the opposite direction. -/
theorem C125_basis (J : Jac) (h : Fin 3 → Fin 2 → ℝ) (z : ℝ) (hJ : jdet J ≠ 0) :
    Geometry.gcov (sheet J h) z 0 = gcov J 0 ∧ Geometry.gcov (sheet J h) z 1 = gcov J 1 ∧
    Geometry.gcon (sheet J h) z 0 = gcon J 0 ∧ Geometry.gcon (sheet J h) z 1 = gcon J 1 ∧
    (0 < jdet J → Geometry.gcov (sheet J h) z 2 = gcov J 2 ∧
      Geometry.gcon (sheet J h) z 2 = gcon J 2) ∧
    (jdet J < 0 → Geometry.gcov (sheet J h) z 2 = -gcov J 2 ∧
      Geometry.gcon (sheet J h) z 2 = -gcon J 2) := by
  obtain ⟨ε, _, hn, hp, hm⟩ := normal_sheet J h hJ
  have h0 : Geometry.gcov (sheet J h) z 0 = gcov J 0 := by
    have e : (sheet J h).a 0 = ⟨J 0 0, J 0 1, 0⟩ := rfl
    simp only [Geometry.gcov, gcov, vec3_zero, ncov_sheet J h hJ, e]
    ext <;> simp
  have h1 : Geometry.gcov (sheet J h) z 1 = gcov J 1 := by
    have e : (sheet J h).a 1 = ⟨J 1 0, J 1 1, 0⟩ := rfl
    simp only [Geometry.gcov, gcov, vec3_one, ncov_sheet J h hJ, e]
    ext <;> simp
  have h2 : Geometry.gcov (sheet J h) z 2 = ⟨0, 0, ε⟩ := by
    simp [Geometry.gcov, hn]
  have hG : Geometry.Gcon (sheet J h) z = GconPlanar J := by
    simp only [Geometry.Gcon, Geometry.Gcov, Gblock_sheet J h hJ, GconPlanar]
  have e := GconPlanar_eq J hJ
  have c02 : GconPlanar J 0 2 = 0 := by rw [e]; simp [embed]
  have c12 : GconPlanar J 1 2 = 0 := by rw [e]; simp [embed]
  have c20 : GconPlanar J 2 0 = 0 := by rw [e]; simp [embed]
  have c21 : GconPlanar J 2 1 = 0 := by rw [e]; simp [embed]
  refine ⟨h0, h1, ?_, ?_, fun hd => ?_, fun hd => ?_⟩
  · simp only [Geometry.gcon, gcon, hG, h0, h1, h2, c02]
    ext <;> simp
  · simp only [Geometry.gcon, gcon, hG, h0, h1, h2, c12]
    ext <;> simp
  · have : Geometry.gcov (sheet J h) z 2 = gcov J 2 := by
      rw [h2, hp hd]; ext <;> simp [gcov]
    refine ⟨this, ?_⟩
    simp only [Geometry.gcon, gcon, hG, h0, h1, this]
  · have : Geometry.gcov (sheet J h) z 2 = -gcov J 2 := by
      rw [h2, hm hd]; ext <;> simp [gcov]
    refine ⟨this, ?_⟩
    simp only [Geometry.gcon, gcon, hG, h0, h1, this, c20, c21]
    ext <;> simp

/-- **C125** Stress resultants and moduli of every hyperelastic material, whatever the rule through
the thickness. -/
theorem C125_resultants (M : Material) (r : Integrate.Rule) (t : ℝ) (m : Nat) (J K : Jac)
    (h k : Fin 3 → Fin 2 → ℝ) (hJ : jdet J ≠ 0) (hK : jdet K ≠ 0) :
    ShellTangent.resultant (M.law (sheet J h)) r t m (sheet K k) = resultant M r t m J K ∧
    ShellTangent.modulus (M.law (sheet J h)) r t m (sheet K k) = modulus M r t m J K := by
  constructor
  · funext c
    simp only [ShellTangent.resultant, resultant, Material.law, data_sheet J K h k hJ hK]
  · funext i j
    simp only [ShellTangent.modulus, modulus, Material.law, data_sheet J K h k hJ hK]

/-- The incompressible materials are instances. -/
example (p : Par) (ori : Surf) :
    (⟨sNH p, cNH p⟩ : Material).law ori = ShellTangent.nh p ori ∧
    (⟨sMR p, cMR p⟩ : Material).law ori = ShellTangent.mr p ori := ⟨rfl, rfl⟩

/-- **C125** The planar residual is the residual of the shell (with its bending terms) for all
motions in the plane. -/
theorem C125_force (M : Material) (r : Integrate.Rule) (t : ℝ) (J K U : Jac)
    (h k g : Fin 3 → Fin 2 → ℝ) (hJ : jdet J ≠ 0) (hK : jdet K ≠ 0) :
    ShellTangent.force (M.law (sheet J h)) r t (sheet K k) (sheet U g)
      = internalForce K U (resultant M r t 0 J K) := by
  simp only [ShellTangent.force, Variation.internalForce, internalForce,
    (C125_resultants M r t 0 J K h k hJ hK).1, EmDer_sheet]
  simp [dotV, EfDer_sheet K U k g hK]

/-- **C125** The planar tangent is the tangent of the shell for all motions in the plane. -/
theorem C125_tangent (M : Material) (r : Integrate.Rule) (t : ℝ) (J K U V : Jac)
    (h k g l : Fin 3 → Fin 2 → ℝ) (hJ : jdet J ≠ 0) (hK : jdet K ≠ 0) :
    ShellTangent.tangentStiffness (M.law (sheet J h)) r t (sheet K k) (sheet U g) (sheet V l)
      = stiffness K U V (modulus M r t 0 J K) (resultant M r t 0 J K) := by
  simp only [ShellTangent.tangentStiffness, Variation.stiffness, stiffness,
    (C125_resultants M r t 0 J K h k hJ hK).1, (C125_resultants M r t 0 J K h k hJ hK).2,
    EmDer_sheet, EmDer2_sheet, EfDer2_sheet K U V k l g hK]
  have hU : ∀ B : T3, Variation.rowMul (Variation.EfDer (sheet K k) (sheet U g)) B = fun _ => 0 := by
    intro B; funext j; simp [Variation.rowMul, EfDer_sheet K U k g hK]
  have hV : ∀ x : Voigt, dotV x (Variation.EfDer (sheet K k) (sheet V l)) = 0 := by
    intro x; simp [dotV, EfDer_sheet K V k l hK]
  simp only [hU, hV, add_zero]

/-- **C125** The sheet in space exerts no membrane force along `z`, and motions in the plane and along
`z` are not coupled by the membrane terms. -/
theorem C125_decoupled (K U : Jac) (k g : Fin 3 → Fin 2 → ℝ) (w : Fin 2 → ℝ) (q : Fin 3 → ℝ)
    (A : T3) (N : Voigt) :
    Variation.internalForceMembrane (sheet K k) (upright w q) N = 0 ∧
    Variation.stiffnessMembrane (sheet K k) (sheet U g) (upright w q) A N = 0 ∧
    Variation.stiffnessMembrane (sheet K k) (upright w q) (sheet U g) A N = 0 := by
  have h0 : Variation.EmDer (sheet K k) (upright w q) = fun _ => 0 := by
    funext c
    rcases fin3_cases c with rfl | rfl | rfl <;>
      simp [Variation.EmDer, dot, sheet, lift, upright]
  have h1 : Variation.EmDer2 (sheet U g) (upright w q) N = 0 := by
    simp [Variation.EmDer2, dot, sheet, lift, upright]
  have h2 : Variation.EmDer2 (upright w q) (sheet U g) N = 0 := by
    simp [Variation.EmDer2, dot, sheet, lift, upright]
  refine ⟨?_, ?_, ?_⟩
  · simp [Variation.internalForceMembrane, h0, dotV]
  · simp [Variation.stiffnessMembrane, h0, h1, dotV]
  · simp [Variation.stiffnessMembrane, h0, h2, dotV, Variation.rowMul]

/-- **C125** A pressure on the sheet in space has no effect on test functions in the plane: leaving
it out of the planar problem is right. -/
theorem C125_pressure (p μ : ℝ) (K : Jac) (k : Fin 3 → Fin 2 → ℝ) (hK : jdet K ≠ 0)
    (v : Fin 2 → ℝ) : WeakForms.pressVec p μ (sheet K k) (lift v) = pressVec p μ v := by
  obtain ⟨ε, _, hn, _⟩ := normal_sheet K k hK
  simp [WeakForms.pressVec, pressVec, hn, dot, lift]

/-- **C125** (missing: foundations with a stiffness in the plane) The planar problem contains the
forces and stiffnesses of the foundation of the sheet exactly for foundations that act along `z`
only. -/
theorem C125_foundation_partial (μ : ℝ) (hμ : μ ≠ 0) (k : V3) :
    (∀ u v : Fin 2 → ℝ, WeakForms.foundVec μ k (lift u) (lift v) = foundVec μ k u v ∧
      WeakForms.foundMat μ k (lift v) (lift u) = foundMat μ k v u) ↔ (k.x = 0 ∧ k.y = 0) := by
  constructor
  · intro h
    have h0 := (h ![1, 0] ![1, 0]).1
    have h1 := (h ![0, 1] ![0, 1]).1
    simp [WeakForms.foundVec, WeakForms.diagDot, lift, foundVec, hμ] at h0 h1
    exact ⟨h0, h1⟩
  · rintro ⟨hx, hy⟩ u v
    simp [WeakForms.foundVec, WeakForms.foundMat, WeakForms.diagDot, lift, foundVec, foundMat, hx, hy]

example : ∃ k : V3, (k.x = 0 ∧ k.y = 0) ∧ k.z ≠ 0 := ⟨⟨0, 0, 5⟩, by simp, by norm_num⟩

/-- **C125 violated** A foundation that resists motions in the plane is ignored by the planar
code. -/
theorem C125_foundation_violated :
    ∃ (μ : ℝ) (k : V3) (u v : Fin 2 → ℝ), 0 < μ ∧
      WeakForms.foundVec μ k (lift u) (lift v) ≠ foundVec μ k u v ∧
      WeakForms.foundMat μ k (lift v) (lift u) ≠ foundMat μ k v u := by
  refine ⟨1, ⟨1, 1, 1⟩, ![1, 0], ![1, 0], one_pos, ?_, ?_⟩ <;>
    simp [WeakForms.foundVec, WeakForms.foundMat, WeakForms.diagDot, lift, foundVec, foundMat]

/-- **C125** (missing: parametrisations that are not isometric) For the linear material the planar
tangent is that of the sheet exactly if the columns of the Jacobian are orthonormal. -/
theorem C125_linear_partial (E ν : ℝ) (hE : 0 < E) (h1 : -1 < ν) (h2 : ν < 1 / 2) (J : Jac)
    (h : Fin 3 → Fin 2 → ℝ) (hJ : jdet J ≠ 0) :
    linMatrix E ν J = Linear.matrix E ν (Acon (sheet J h)) ↔ Orthonormal J := by
  have hc := modulus_pos E ν hE h1 h2
  have hA : Acon (sheet J h) = inv2 (AcovPlanar J) := by rw [Acon, Acov_sheet]
  have hd : 0 < det2 (AcovPlanar J) := by rw [det2_planar]; positivity
  have hs : AcovPlanar J 1 0 = AcovPlanar J 0 1 := by simp [AcovPlanar]; ring
  have ha : 0 ≤ AcovPlanar J 0 0 := by
    have : AcovPlanar J 0 0 = J 0 0 * J 0 0 + J 0 1 * J 0 1 := rfl
    rw [this]; nlinarith [mul_self_nonneg (J 0 0), mul_self_nonneg (J 0 1)]
  have hc1 : 0 ≤ AcovPlanar J 1 1 := by
    have : AcovPlanar J 1 1 = J 1 0 * J 1 0 + J 1 1 * J 1 1 := rfl
    rw [this]; nlinarith [mul_self_nonneg (J 1 0), mul_self_nonneg (J 1 1)]
  have key : (AcovPlanar J 0 0 = 1 ∧ AcovPlanar J 1 1 = 1 ∧ AcovPlanar J 0 1 = 0) ↔
      Orthonormal J := by
    simp only [Orthonormal, AcovPlanar, pow_two]
  rw [← key, hA, linMatrix, storedAconPlanar]
  exact matrix_inv_iff E ν hc _ hs ha hc1 hd

example : Orthonormal ![![3 / 5, 4 / 5], ![-4 / 5, 3 / 5]] := by norm_num [Orthonormal]

/-- **C125 violated** Stretched parametrisation, uniaxial stretch: the planar stress of the linear
material is 256 times the stress of the sheet. -/
theorem C125_linear_violated (E ν : ℝ) (hE : 0 < E) (h1 : -1 < ν) (h2 : ν < 1 / 2)
    (h k : Fin 3 → Fin 2 → ℝ) :
    ∃ J K : Jac, jdet J ≠ 0 ∧ jdet K ≠ 0 ∧
      0 < Linear.stress E ν (Acon (sheet J h)) (membraneStrain (sheet J h) (sheet K k)) 0 ∧
      linStress E ν J K 0
        = 256 * Linear.stress E ν (Acon (sheet J h)) (membraneStrain (sheet J h) (sheet K k)) 0 := by
  have hc := modulus_pos E ν hE h1 h2
  refine ⟨![![2, 0], ![0, 1]], ![![4, 0], ![0, 1]], by norm_num [jdet], by norm_num [jdet], ?_⟩
  have hA : Acon (sheet ![![2, 0], ![0, 1]] h) = inv2 (AcovPlanar ![![2, 0], ![0, 1]]) := by
    rw [Acon, Acov_sheet]
  have e1 : Linear.stress E ν (Acon (sheet ![![2, 0], ![0, 1]] h))
      (membraneStrain (sheet ![![2, 0], ![0, 1]] h) (sheet ![![4, 0], ![0, 1]] k)) 0
      = (Linear.Cconst E ν + 2 * Linear.mu E ν) * (3 / 8) := by
    simp only [Linear.stress, vec3_zero, Linear.Sij, Linear.Cval, hA, membraneStrain, Acov_sheet]
    simp [inv2, det2, AcovPlanar]
    norm_num
    ring
  have e2 : linStress E ν ![![2, 0], ![0, 1]] ![![4, 0], ![0, 1]] 0
      = (Linear.Cconst E ν + 2 * Linear.mu E ν) * 96 := by
    simp only [linStress, Linear.stress, vec3_zero, Linear.Sij, Linear.Cval, strain, storedAconPlanar]
    simp [AcovPlanar]
    norm_num
    ring
  rw [e1, e2]
  exact ⟨by positivity, by ring⟩

end Verif.Planar
