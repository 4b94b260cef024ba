import Verif.Model.StressFun
import Verif.Props.Transform

/-! # Properties C60, C61, C83, C84: the stress output function -/

set_option linter.unusedSimpArgs false

namespace Verif.StressFun

open V3 Verif.Geometry Verif.Transform Verif.Linear

/-! ## C60: evaluated on the own patch -/

/-- Specification: the kinds that are not evaluated on the own patch. -/
def Forgetful (k : Kind) : Prop :=
  k = .principalStress ∨ k = .principalStressDir1 ∨ k = .principalStressDir2 ∨
    k = .principalStressDir3

/-- **C60** (partial: every kind except the principal stress, its directions and the
unimplemented `total`) The stress function of patch `p` returns the quantity of patch `p`. -/
theorem C60_partial {P V : Type} (field : Kind → ℕ → P → V) (k : Kind) (p : ℕ) (u : P)
    (hk : ¬ Forgetful k) (ht : k ≠ .total) : evalInto field k p u = some (field k p u) := by
  unfold Forgetful at hk
  cases k <;> first | rfl | simp at hk ht

/-- **C60** (partial: single patch) On the first patch every implemented kind is right. -/
theorem C60_first_patch_partial {P V : Type} (field : Kind → ℕ → P → V) (k : Kind) (u : P)
    (ht : k ≠ .total) : evalInto field k 0 u = some (field k 0 u) := by
  cases k <;> first | rfl | simp at ht

/-- **C60** (partial) The stress field of the whole geometry has one function per patch, and the
one of patch `p` returns the quantity of patch `p`. -/
theorem C60_field_partial {P V : Type} (field : Kind → ℕ → P → V) (k : Kind) (n : ℕ)
    (hk : ¬ Forgetful k) (ht : k ≠ .total) :
    (constructStress field k n).length = n ∧
    ∀ (p : ℕ), p < n → ∀ f : P → Option V, (constructStress field k n)[p]? = some f →
      ∀ u, f u = some (field k p u) := by
  refine ⟨by simp [constructStress], ?_⟩
  intro p hp f hf u
  simp [constructStress, hp] at hf
  subst hf
  exact C60_partial field k p u hk ht

/-- Non-vacuity: the von Mises stress of the second of two patches. -/
example : evalInto (fun _ q (u : ℝ) => (q : ℝ) + u) .vonMises 1 5 = some 6 := by
  rw [C60_partial _ _ _ _ (by simp [Forgetful]) (by simp)]; norm_num

/-- **C60** is violated: the principal stress and its directions are always taken from the first
patch, whatever the patch and the fields. -/
theorem C60_always_first_violated {P V : Type} (field : Kind → ℕ → P → V) (k : Kind)
    (hk : Forgetful k) (p : ℕ) (u : P) : evalInto field k p u = some (field k 0 u) := by
  rcases hk with rfl | rfl | rfl | rfl <;> rfl

/-- **C60** is violated: … so that they are wrong on every other patch where the fields
differ. -/
theorem C60_violated {P V : Type} (field : Kind → ℕ → P → V) (k : Kind) (hk : Forgetful k)
    (p : ℕ) (u : P) (hne : field k p u ≠ field k 0 u) :
    evalInto field k p u ≠ some (field k p u) := by
  rw [C60_always_first_violated field k hk p u]
  intro h
  exact hne (Option.some.inj h).symm

/-- Non-vacuity: two patches with principal stresses 1 and 2. -/
example : evalInto (fun _ q (_ : Unit) => q + 1) .principalStress 1 () = some 1 := rfl

/-- **C60** is violated: the kind `total` is offered but never evaluated. -/
theorem C60_total_violated {P V : Type} (field : Kind → ℕ → P → V) (p : ℕ) (u : P) :
    evalInto field .total p u = none := rfl

/-! ## C61: von Mises stress -/

/-- The radicand as a sum of squares. -/
theorem vm_radicand (S : Voigt) :
    S 0 * S 0 + S 1 * S 1 - S 0 * S 1 + 3 * S 2 * S 2
      = (S 0 - S 1 / 2) ^ 2 + 3 / 4 * S 1 ^ 2 + 3 * S 2 ^ 2 := by ring

/-- **C61** The square root is taken of a non-negative number, for every stress. -/
theorem C61_well_defined (S : Voigt) :
    0 ≤ S 0 * S 0 + S 1 * S 1 - S 0 * S 1 + 3 * S 2 * S 2 ∧
    vm S ^ 2 = S 0 * S 0 + S 1 * S 1 - S 0 * S 1 + 3 * S 2 * S 2 ∧ 0 ≤ vm S := by
  have h : 0 ≤ S 0 * S 0 + S 1 * S 1 - S 0 * S 1 + 3 * S 2 * S 2 := by
    rw [vm_radicand]; positivity
  exact ⟨h, Real.sq_sqrt h, Real.sqrt_nonneg _⟩

/-- **C61** The value is zero exactly for zero stress. -/
theorem C61_zero_iff (S : Voigt) : vm S = 0 ↔ S 0 = 0 ∧ S 1 = 0 ∧ S 2 = 0 := by
  obtain ⟨h, _, _⟩ := C61_well_defined S
  unfold vm
  rw [Real.sqrt_eq_zero h, vm_radicand]
  constructor
  · intro e
    have h0 := sq_nonneg (S 0 - S 1 / 2)
    have h1 := sq_nonneg (S 1)
    have h2 := sq_nonneg (S 2)
    have e1 : S 1 = 0 := by
      have : S 1 ^ 2 = 0 := by linarith
      simpa using this
    have e2 : S 2 = 0 := by
      have : S 2 ^ 2 = 0 := by linarith
      simpa using this
    have e0 : S 0 - S 1 / 2 = 0 := by
      have : (S 0 - S 1 / 2) ^ 2 = 0 := by linarith
      simpa using this
    exact ⟨by linarith, e1, e2⟩
  · rintro ⟨e0, e1, e2⟩; rw [e0, e1, e2]; ring

/-- **C61** Multiplying the stress by `c` multiplies the value by `|c|`. -/
theorem C61_homogeneous (c : ℝ) (S : Voigt) : vm (fun i => c * S i) = |c| * vm S := by
  unfold vm
  rw [← Real.sqrt_sq_eq_abs, ← Real.sqrt_mul (sq_nonneg c)]
  congr 1; ring

/-- Specification: Voigt components of `Q S Qᵀ` for a plane orthogonal matrix `Q` with rows
`(c, -s)`, `(s, c)` (rotation) or its reflection. -/
def rotated (c s : ℝ) (S : Voigt) : Voigt :=
  vec3 (c * c * S 0 + s * s * S 1 - 2 * c * s * S 2) (s * s * S 0 + c * c * S 1 + 2 * c * s * S 2)
    (c * s * S 0 - c * s * S 1 + (c * c - s * s) * S 2)

/-- **C61** The value does not depend on the orthonormal frame in the tangent plane. -/
theorem C61_rotation (c s : ℝ) (h : c ^ 2 + s ^ 2 = 1) (S : Voigt) : vm (rotated c s S) = vm S := by
  unfold vm rotated
  congr 1
  simp
  have h2 : (c ^ 2 + s ^ 2) ^ 2 = 1 := by rw [h]; norm_num
  linear_combination (S 0 * S 0 + S 1 * S 1 - S 0 * S 1 + 3 * S 2 * S 2) * h2

/-- **C61** Uniaxial stress and pure shear give the textbook values `|σ|` and `√3·|τ|`. -/
theorem C61_uniaxial_shear (σ τ : ℝ) :
    vm (vec3 σ 0 0) = |σ| ∧ vm (vec3 0 σ 0) = |σ| ∧ vm (vec3 0 0 τ) = Real.sqrt 3 * |τ| := by
  refine ⟨?_, ?_, ?_⟩
  · unfold vm; simp [Real.sqrt_mul_self_eq_abs]
  · unfold vm; simp [Real.sqrt_mul_self_eq_abs]
  · unfold vm
    rw [← Real.sqrt_sq_eq_abs, ← Real.sqrt_mul (by norm_num)]
    congr 1; simp; ring

/-- Non-vacuity: rotation by the angle with cosine 3/5. -/
example : vm (rotated (3 / 5) (4 / 5) (vec3 1 2 3)) = vm (vec3 1 2 3) :=
  C61_rotation _ _ (by norm_num) _

/-- Specification: stress of the linear material at height `z` in the local frame, from the
strain `Em + z Ef`. -/
noncomputable def stressAtHeight (s : Surf) (E ν : ℝ) (Em Ef : T2) (z : ℝ) : Voigt :=
  mulVec3 (cartcov s) (stress E ν (Acon s) (fun i j => Em i j + z * Ef i j))

theorem stressAtHeight_eq (s : Surf) (E ν : ℝ) (Em Ef : T2) (z : ℝ) :
    stressAtHeight s E ν Em Ef z = fun i => Sm s E ν Em i + z * Sf s E ν Ef i := by
  funext i
  simp [stressAtHeight, Sm, Sf, mulVec3, stress, Sij, Fin.sum_univ_three]
  ring

/-- **C61** (partial: thickness 2) The two rows of the von Mises output are the von Mises
stresses at the heights `±1`; these are the outer fibres only if the thickness is 2. -/
theorem C61_outer_fibre_partial (s : Surf) (E ν : ℝ) (Em Ef : T2) :
    vonMises s E ν Em Ef =
      (vm (stressAtHeight s E ν Em Ef (2 / 2)), vm (stressAtHeight s E ν Em Ef (-(2 / 2)))) := by
  unfold vonMises
  rw [stressAtHeight_eq, stressAtHeight_eq]
  norm_num
  congr 1

/-- **C61** The flexural value is the outer-fibre value divided by half the thickness, for every
thickness `t > 0`. -/
theorem C61_flexural_factor_partial (s : Surf) (E ν : ℝ) (Ef : T2) (t : ℝ) (ht : 0 < t) :
    t / 2 * vonMisesFlexural s E ν Ef = vm (stressAtHeight s E ν (fun _ _ => 0) Ef (t / 2)) := by
  rw [stressAtHeight_eq]
  have : (fun i => Sm s E ν (fun _ _ => 0) i + t / 2 * Sf s E ν Ef i)
      = fun i => t / 2 * Sf s E ν Ef i := by
    funext i
    simp [Sm, mulVec3, stress, Sij, Fin.sum_univ_three]
  rw [this, C61_homogeneous, abs_of_pos (by linarith)]
  rfl

/-- **C61** is violated: for every thickness other than 2 and every non-zero bending stress the
flexural von Mises output is not the value at the outer fibre. -/
theorem C61_flexural_violated (s : Surf) (E ν : ℝ) (Ef : T2) (t : ℝ) (ht : 0 < t) (h2 : t ≠ 2)
    (hS : vonMisesFlexural s E ν Ef ≠ 0) :
    vonMisesFlexural s E ν Ef ≠ vm (stressAtHeight s E ν (fun _ _ => 0) Ef (t / 2)) := by
  rw [← C61_flexural_factor_partial s E ν Ef t ht]
  intro h
  apply h2
  have : (t / 2 - 1) * vonMisesFlexural s E ν Ef = 0 := by linarith
  rcases mul_eq_zero.mp this with h | h
  · linarith
  · exact absurd h hS

/-- Non-vacuity: a plane strip of modulus 1, Poisson ratio 0, bent about one axis. -/
example : vonMisesFlexural ⟨![⟨1, 0, 0⟩, ⟨0, 1, 0⟩], 0, 0, 0⟩ 1 0 ![![1, 0], ![0, 0]] ≠ 0 := by
  have hA : Acon ⟨![⟨1, 0, 0⟩, ⟨0, 1, 0⟩], 0, 0, 0⟩ = ![![1, 0], ![0, 1]] := by
    funext i j
    rcases fin2_cases i with rfl | rfl <;> rcases fin2_cases j with rfl | rfl <;>
      simp [Acon, inv2, det2, Acov, dot]
  have he1 : e1 ⟨![⟨1, 0, 0⟩, ⟨0, 1, 0⟩], 0, 0, 0⟩ = ⟨1, 0, 0⟩ := by
    ext <;> simp [e1, normalized, V3.norm, dot]
  have he2 : e2 ⟨![⟨1, 0, 0⟩, ⟨0, 1, 0⟩], 0, 0, 0⟩ = ⟨0, 1, 0⟩ := by
    unfold e2; rw [he1]; ext <;> simp [normalized, V3.norm, dot]
  intro h
  unfold vonMisesFlexural at h
  rw [C61_zero_iff] at h
  obtain ⟨h0, -, -⟩ := h
  unfold Sf cartcov at h0
  rw [hA, he1, he2] at h0
  simp [mulVec3, cartMat, stress, Sij, Cval, Cconst, lam, mu, Fin.sum_univ_three, dot] at h0

/-! ## C83: strain output in the local Cartesian frame -/

/-- Specification: value of the strain tensor `Σ E_ab a^a ⊗ a^b` on the vectors `u`, `v`. -/
noncomputable def tensorValue (ori : Surf) (E : T2) (u v : V3) : ℝ :=
  ∑ i, ∑ j, E i j * (dot (acon ori i) u * dot (acon ori j) v)

/-- **C83** The membrane strain output consists of the components `(ε11, ε22, ε12)` of the
strain tensor in the local Cartesian frame, for every pair of surfaces. -/
theorem C83_membrane (ori defo : Surf) :
    membraneOut ori defo 0 = tensorValue ori (membraneStrain ori defo) (e1 ori) (e1 ori) ∧
    membraneOut ori defo 1 = tensorValue ori (membraneStrain ori defo) (e2 ori) (e2 ori) ∧
    membraneOut ori defo 2 = tensorValue ori (membraneStrain ori defo) (e1 ori) (e2 ori) := by
  obtain ⟨h0, h1, h2⟩ := C36_cartcon ori
    (vec3 (0.5 * (flat (Acov defo) 0 - flat (Acov ori) 0))
      (0.5 * (flat (Acov defo) 1 - flat (Acov ori) 1))
      (0.5 * (0.5 * (flat (Acov defo) 2 - flat (Acov ori) 2))))
  have s1 : dot (ori.a 1) (ori.a 0) = dot (ori.a 0) (ori.a 1) := dot_comm _ _
  have s2 : dot (defo.a 1) (defo.a 0) = dot (defo.a 0) (defo.a 1) := dot_comm _ _
  refine ⟨h0.trans ?_, h1.trans ?_, h2.trans ?_⟩ <;>
    simp only [bilin, tensorValue, membraneStrain, flat, Acov, Fin.sum_univ_two, vec3_zero, vec3_one,
      vec3_two, s1, s2, dot_comm (e1 ori) (acon ori 0), dot_comm (e1 ori) (acon ori 1),
      dot_comm (e2 ori) (acon ori 0), dot_comm (e2 ori) (acon ori 1)] <;> ring

/-- **C83** (partial: no twist) The flexural strain output consists of the components of the
bending strain tensor when its mixed covariant component vanishes. -/
theorem C83_flexural_partial (ori defo : Surf) (h : bendingStrain ori defo 0 1 = 0) :
    flexuralOut ori defo 0 = tensorValue ori (bendingStrain ori defo) (e1 ori) (e1 ori) ∧
    flexuralOut ori defo 1 = tensorValue ori (bendingStrain ori defo) (e2 ori) (e2 ori) ∧
    flexuralOut ori defo 2 = tensorValue ori (bendingStrain ori defo) (e1 ori) (e2 ori) := by
  obtain ⟨h0, h1, h2⟩ := C36_cartcon ori
    (vec3 (Bcov ori 0 0 - Bcov defo 0 0) (Bcov ori 1 1 - Bcov defo 1 1)
      (2 * (Bcov ori 0 1 - Bcov defo 0 1)))
  have hs : bendingStrain ori defo 1 0 = 0 := by rw [← h]; simp [bendingStrain, Bcov]
  have h' : Bcov ori 0 1 - Bcov defo 0 1 = 0 := h
  refine ⟨h0.trans ?_, h1.trans ?_, h2.trans ?_⟩ <;>
    simp only [bilin, tensorValue, Fin.sum_univ_two, vec3_zero, vec3_one, vec3_two, h, hs, h',
      dot_comm (e1 ori) (acon ori 0), dot_comm (e1 ori) (acon ori 1),
      dot_comm (e2 ori) (acon ori 0), dot_comm (e2 ori) (acon ori 1)] <;>
    simp only [bendingStrain] <;> ring

/-- **C83** (partial) In general the twist enters the flexural strain output with a factor two
too many, in every component. -/
theorem C83_flexural_excess_partial (ori defo : Surf) :
    flexuralOut ori defo 0 - tensorValue ori (bendingStrain ori defo) (e1 ori) (e1 ori)
      = 2 * bendingStrain ori defo 0 1 * (dot (acon ori 0) (e1 ori) * dot (acon ori 1) (e1 ori)) ∧
    flexuralOut ori defo 1 - tensorValue ori (bendingStrain ori defo) (e2 ori) (e2 ori)
      = 2 * bendingStrain ori defo 0 1 * (dot (acon ori 0) (e2 ori) * dot (acon ori 1) (e2 ori)) := by
  obtain ⟨h0, h1, -⟩ := C36_cartcon ori
    (vec3 (Bcov ori 0 0 - Bcov defo 0 0) (Bcov ori 1 1 - Bcov defo 1 1)
      (2 * (Bcov ori 0 1 - Bcov defo 0 1)))
  have hs : bendingStrain ori defo 1 0 = bendingStrain ori defo 0 1 := by
    simp [bendingStrain, Bcov]
  constructor
  · have : flexuralOut ori defo 0 = _ := h0
    rw [this]
    simp only [bilin, tensorValue, Fin.sum_univ_two, vec3_zero, vec3_one, vec3_two, hs,
      dot_comm (e1 ori) (acon ori 0), dot_comm (e1 ori) (acon ori 1)]
    simp only [bendingStrain]; ring
  · have : flexuralOut ori defo 1 = _ := h1
    rw [this]
    simp only [bilin, tensorValue, Fin.sum_univ_two, vec3_zero, vec3_one, vec3_two, hs,
      dot_comm (e2 ori) (acon ori 0), dot_comm (e2 ori) (acon ori 1)]
    simp only [bendingStrain]; ring

/-- Witness: a plane with oblique tangents … -/
def skewPlane : Surf := ⟨![⟨1, 0, 0⟩, ⟨1, 1, 0⟩], 0, 0, 0⟩
/-- … twisted. -/
def skewTwisted : Surf := ⟨![⟨1, 0, 0⟩, ⟨1, 1, 0⟩], 0, 0, ⟨0, 0, -1⟩⟩

/-- **C83** is violated: for a twisted plane with oblique tangents even the normal component of
the flexural strain output is wrong (−4 instead of −2). -/
theorem C83_flexural_violated :
    Indep (skewPlane.a 0) (skewPlane.a 1) ∧
    flexuralOut skewPlane skewTwisted 1 ≠
      tensorValue skewPlane (bendingStrain skewPlane skewTwisted) (e2 skewPlane) (e2 skewPlane) := by
  refine ⟨?_, ?_⟩
  · intro c d h
    have hx := congrArg V3.x h
    have hy := congrArg V3.y h
    simp [skewPlane] at hx hy
    subst hy; simp at hx; exact ⟨hx, rfl⟩
  · have hex := (C83_flexural_excess_partial skewPlane skewTwisted).2
    have hn : normal skewTwisted = ⟨0, 0, 1⟩ := by
      ext <;> simp [normal, skewTwisted, normalized, V3.norm, dot, cross]
    have hb : bendingStrain skewPlane skewTwisted 0 1 = 1 := by
      unfold bendingStrain Bcov
      rw [hn]; simp [skewPlane, skewTwisted, dot]
    have he1 : e1 skewPlane = ⟨1, 0, 0⟩ := by
      ext <;> simp [e1, skewPlane, normalized, V3.norm, dot]
    have he2 : e2 skewPlane = ⟨0, 1, 0⟩ := by
      unfold e2; rw [he1]; ext <;> simp [skewPlane, normalized, V3.norm, dot]
    have hc0 : acon skewPlane 0 = ⟨1, -1, 0⟩ := by
      ext <;> simp [acon, Acon, inv2, det2, Acov, skewPlane, dot]
    have hc1 : acon skewPlane 1 = ⟨0, 1, 0⟩ := by
      ext <;> simp [acon, Acon, inv2, det2, Acov, skewPlane, dot]
    rw [hb, he2, hc0, hc1] at hex
    intro h
    rw [he2] at h
    rw [h] at hex
    simp [dot] at hex

/-- Non-vacuity of the partial statement: bending about one axis only. -/
example : bendingStrain skewPlane ⟨![⟨1, 0, 0⟩, ⟨1, 1, 0⟩], ⟨0, 0, 1⟩, 0, 0⟩ 0 1 = 0 := by
  simp [bendingStrain, Bcov, skewPlane, dot]

/-! ## C84: declared number of rows -/

/-- Specification: the principal stress directions. -/
def StressDirection (k : Kind) : Prop :=
  k = .principalStressDir1 ∨ k = .principalStressDir2 ∨ k = .principalStressDir3

/-- Specification: the forces and moments per unit deformed length. -/
def CauchyResultant (k : Kind) : Prop := k = .membraneForce ∨ k = .flexuralMoment

/-- Specification: the kinds that need no stress of the material at a point and no stretch. -/
def NoPointStress (k : Kind) : Prop :=
  k = .displacement ∨ k = .total ∨ k = .membraneStrain ∨ k = .flexuralStrain ∨
    k = .membraneForcePK2 ∨ k = .flexuralMomentPK2

/-- **C84** (partial: spatial shells) A linear or nonlinear material returns as many rows as
declared for every kind other than the principal stress directions. -/
theorem C84_partial (np : ℕ) (k : Kind) (hk : ¬ StressDirection k) :
    evalRows 3 (.plain (.linear np)) k = .ok (targetDim k) ∧
    evalRows 3 (.plain (.nonlinear np)) k = .ok (targetDim k) := by
  unfold StressDirection at hk
  cases k <;> first | exact ⟨rfl, rfl⟩ | simp at hk

/-- **C84** (partial: every dimension) … and so in every dimension, for the kinds other than the
displacement. -/
theorem C84_kinds_partial (d np : ℕ) (k : Kind) (h : k ≠ .displacement)
    (hk : ¬ StressDirection k) :
    evalRows d (.plain (.linear np)) k = .ok (targetDim k) ∧
    evalRows d (.plain (.nonlinear np)) k = .ok (targetDim k) := by
  unfold StressDirection at hk
  cases k <;> first | exact ⟨rfl, rfl⟩ | simp at hk h

/-- **C84** (partial: wrapped materials) The tension-field material returns as many rows as
declared for every kind other than the principal stress directions and the two resultants of the
Cauchy stress, which it refuses. -/
theorem C84_tft_partial (i : Outputs.Inner) (hi : Outputs.hasThickness i) (k : Kind) :
    (¬ StressDirection k ∧ ¬ CauchyResultant k → evalRows 3 (.tft i) k = .ok (targetDim k)) ∧
    (StressDirection k ∨ CauchyResultant k → evalRows 3 (.tft i) k = .throws) := by
  unfold StressDirection CauchyResultant
  cases i <;> first | (simp [Outputs.hasThickness] at hi; done) | skip
  all_goals cases k <;> refine ⟨fun h => ?_, fun h => ?_⟩ <;> first | rfl | simp at h

/-- **C84** (partial: laminates) Displacement, strains and the resultants of the second
Piola-Kirchhoff stress have the declared rows … -/
theorem C84_laminate_partial (rho : Bool) (k : Kind) (hk : NoPointStress k) :
    evalRows 3 (.plain (.composite rho)) k = .ok (targetDim k) := by
  rcases hk with rfl | rfl | rfl | rfl | rfl | rfl <;> rfl

/-- Non-vacuity. -/
example : evalRows 3 (.plain (.linear 2)) .vonMises = .ok 2 ∧
    evalRows 3 (.tft (.nonlinear 2)) .tensionField = .ok 1 ∧
    evalRows 3 (.plain (.composite true)) .membraneForcePK2 = .ok 3 := ⟨rfl, rfl, rfl⟩

/-- **C84** is violated: … and no other kind is available for a laminate: the principal strains and
stretches follow an unset pointer, the rest is refused. -/
theorem C84_laminate_violated (d : ℕ) (rho : Bool) (k : Kind) :
    (¬ NoPointStress k ↔ ∀ r, evalRows d (.plain (.composite rho)) k ≠ .ok r) ∧
    (evalRows d (.plain (.composite rho)) k = .ub ↔
      k = .principalMembraneStrain ∨ k = .principalFlexuralStrain ∨ k = .principalStretch ∨
      k = .principalStretchDir1 ∨ k = .principalStretchDir2 ∨ k = .principalStretchDir3) := by
  cases k <;> simp [NoPointStress, evalRows, sourceRows, sources, rowsFrom, Outputs.eval,
    Outputs.evalPlain, Outputs.member, Outputs.stress, Outputs.cauchyStress, Outputs.pstress,
    Outputs.cauchyPStress, Outputs.pstressDir, Outputs.pstrain, Outputs.strain,
    Outputs.computePoints, Outputs.hasThickness, Outputs.pstretch, Outputs.pstretchDir,
    Outputs.deformation, Outputs.tensionfield, Outputs.vector, Outcome.bind]

/-- **C84** is violated: the displacement output of a planar geometry declares three rows and
gets two. -/
theorem C84_displacement_violated (m : Outputs.Mat) :
    evalRows 2 m .displacement ≠ .ok (targetDim .displacement) := by
  simp [evalRows, sourceRows, sources, rowsFrom, targetDim, Outcome.bind]

/-- **C84** is violated: no material provides the principal stress directions.  The linear material
refuses its own output kind, the nonlinear one reads past the end of a two-row matrix. -/
theorem C84_directions_violated (d np : ℕ) (k : Kind) (h : StressDirection k) :
    evalRows d (.plain (.linear np)) k = .throws ∧ evalRows d (.plain (.nonlinear np)) k = .ub := by
  rcases h with rfl | rfl | rfl <;> exact ⟨rfl, rfl⟩

end Verif.StressFun
