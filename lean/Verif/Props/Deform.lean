import Verif.Model.Deform
import Verif.Spec.Deform
import Verif.Props.SpectralAgree

/-! # Property C115: thickness stretch of the deformation output -/

namespace Verif.Deform

open Verif.Hyper Verif.Spectral Verif.Spec.Spectral Verif.Geometry

/-- **C115** (partial: incompressible materials) The deformation tensor output preserves the volume,
for every regular reference and deformed metric. -/
theorem C115_isochoric_partial (A C : T2) (hA : d2 A ≠ 0) (hC : d2 C ≠ 0) :
    (∀ i j, deformation A C (up i) (up j) = C i j) ∧
    volumeSq A C (deformation A C 2 2) = 1 := by
  constructor
  · intro i j
    rcases fin2_cases i with rfl | rfl <;> rcases fin2_cases j with rfl | rfl <;>
      simp [deformation, withThickness, data, embed]
  · have e : deformation A C 2 2 = d2 A / d2 C := by
      simp [deformation, withThickness, data, det2, d2]
    rw [e, volumeSq]
    field_simp

/-- **C115** (partial: incompressible materials, stretches not close to the shortcut) The product of
the three principal stretches is one. -/
theorem C115_product_partial {A C : T2} {g : Cols} {solver : T3 → Eig} (hdet : 0 < det2 A)
    (hsA : A 0 1 = A 1 0) (hC : SPD C)
    (hdual : ∀ i j, cdot (g (up i)) (g (up j)) = inv2 A i j)
    (hn : ∀ i, cdot (g (up i)) (g 2) = 0) (hn0 : cdot (g 2) (g 2) ≠ 0)
    (hsolve : IsEigenDecomposition (Bmat C g) (solver (Bmat C g)).val (solver (Bmat C g)).vec)
    (hshort : ¬ shortcut (Bmat C g)) :
    pstretch solver A C g 0 * pstretch solver A C g 1 * pstretch solver A C g 2 = 1 := by
  have hdC : 0 < det2 C := by
    obtain ⟨hs, hp⟩ := hC
    have h0 := hp 1 0 (Or.inl one_ne_zero)
    have h1 := hp (-C 0 1) (C 0 0) (Or.inr (by nlinarith))
    unfold det2
    nlinarith
  have he : deformation A C 2 2 = det2 A / det2 C := by
    simp [deformation, withThickness, data]
  have hc : 0 < deformation A C 2 2 := by rw [he]; positivity
  obtain ⟨h12, h3, hpos⟩ := C58_partial hdet hsA hC hdual hn hn0 hsolve hshort hc
  have hz := h12 0
  unfold pstretch
  set l := stretches solver C (deformation A C 2 2) g with hl
  have hsq : (l 0 * l 1 * l 2) ^ 2 = 1 := by
    have h01 : det2 A * (l 0 ^ 2 * l 1 ^ 2) = det2 C := by
      unfold det2; linarith
    have hA0 := hdet.ne'
    have hC0 := hdC.ne'
    have : (l 0 * l 1 * l 2) ^ 2 = (l 0 ^ 2 * l 1 ^ 2) * l 2 ^ 2 := by ring
    rw [this, h3, he]
    field_simp
    linarith
  have hp : 0 < l 0 * l 1 * l 2 := mul_pos (mul_pos (hpos 0) (hpos 1)) (hpos 2)
  nlinarith

/-- Non-vacuity of the product: a plane stretched by 2 and 3 gets the stretches 2, 3 and 1/6 (the
solver hypotheses are met, see the examples for C58). -/
example : pstretch (fun _ => ⟨vec3 0 4 9, mk3 0 0 1 1 0 0 0 1 0⟩) ![![1, 0], ![0, 1]]
    ![![4, 0], ![0, 9]] (mk3 1 0 0 0 1 0 0 0 1) 2 = 1 / 6 := by
  simp only [pstretch, stretches, vec3_two]
  have : deformation ![![1, 0], ![0, 1]] ![![4, 0], ![0, 9]] 2 2 = (1 / 6) ^ 2 := by
    simp [deformation, withThickness, data, det2]; norm_num
  rw [this, Real.sqrt_sq (by norm_num)]

/-- **C115** (partial: linear material) The transverse normal stress of the reported state vanishes
exactly when the in-plane strain and the area ratio fit, for all moduli. -/
theorem C115_linear_partial (E ν : ℝ) (A C : T2) (hE : E ≠ 0) (h1 : 1 + ν ≠ 0) (h2 : 1 - 2 * ν ≠ 0) :
    transverse E ν A C (deformation A C 2 2) = 0 ↔
      ν * (2 * planeTrace A C) = -(1 - ν) * (d2 A / d2 C - 1) := by
  have e : deformation A C 2 2 = d2 A / d2 C := by
    simp [deformation, withThickness, data, det2, d2]
  rw [e]
  have hf : transverse E ν A C (d2 A / d2 C)
      = E / (2 * ((1 + ν) * (1 - 2 * ν)))
        * (ν * (2 * planeTrace A C) + (1 - ν) * (d2 A / d2 C - 1)) := by
    unfold transverse
    have h3 : 1 - ν * 2 ≠ 0 := by rwa [mul_comm]
    field_simp
    ring
  have hne : E / (2 * ((1 + ν) * (1 - 2 * ν))) ≠ 0 := by positivity
  rw [hf, mul_eq_zero, or_iff_right hne]
  constructor <;> intro h <;> linarith

/-- Non-vacuity: in the reference configuration the condition holds. -/
example : transverse 1 (3 / 10) ![![1, 0], ![0, 1]] ![![1, 0], ![0, 1]]
    (deformation ![![1, 0], ![0, 1]] ![![1, 0], ![0, 1]] 2 2) = 0 := by
  rw [C115_linear_partial _ _ _ _ (by norm_num) (by norm_num) (by norm_num)]
  simp [planeTrace, d2]

/-- Non-vacuity: equal stretching of a square by a factor two is isochoric with thickness entry
1/16. -/
example : deformation ![![1, 0], ![0, 1]] ![![4, 0], ![0, 4]] 2 2 = 1 / 16 := by
  simp [deformation, withThickness, data, det2]; norm_num

/-- **C115** is violated: without lateral contraction (Poisson's ratio 0) the linear material keeps
its thickness, but every change of area is reported with a change of thickness, and the reported
state is not one of plane stress. -/
theorem C115_linear_violated (E : ℝ) (A C : T2) (hE : E ≠ 0) (hC : d2 C ≠ 0)
    (hne : d2 C ≠ d2 A) :
    transverse E 0 A C 1 = 0 ∧ deformation A C 2 2 ≠ 1 ∧
    transverse E 0 A C (deformation A C 2 2) ≠ 0 := by
  have e : deformation A C 2 2 = d2 A / d2 C := by
    simp [deformation, withThickness, data, det2, d2]
  have h1 : deformation A C 2 2 ≠ 1 := by
    rw [e]; intro h
    rw [div_eq_one_iff_eq hC] at h
    exact hne h.symm
  refine ⟨by simp [transverse], h1, ?_⟩
  intro h
  rw [C115_linear_partial E 0 A C hE (by norm_num) (by norm_num)] at h
  apply h1
  rw [e]
  linarith

/-- **C115** is violated: the volume ratio of the reported deformation is one, the one used for the
Cauchy stress of the linear material is the area ratio; they differ for every change of area. -/
theorem C115_linear_detF_violated (A C : T2) (hA : 0 < d2 A) (hC : 0 < d2 C) (hne : d2 C ≠ d2 A) :
    volumeSq A C (deformation A C 2 2) = 1 ∧ linearDetF A C ^ 2 = d2 C / d2 A ∧
    linearDetF A C ^ 2 ≠ volumeSq A C (deformation A C 2 2) := by
  have h1 := (C115_isochoric_partial A C hA.ne' hC.ne').2
  have h2 : linearDetF A C ^ 2 = d2 C / d2 A := by
    unfold linearDetF
    rw [Real.sq_sqrt]
    · simp [data, det2, d2]
    · have : 0 < d2 C / d2 A := by positivity
      simpa [data, det2, d2] using this.le
  refine ⟨h1, h2, ?_⟩
  rw [h1, h2]
  intro h
  rw [div_eq_one_iff_eq hA.ne'] at h
  exact hne h

/-- **C115** (partial: compressible materials) The third principal stretch belongs to the thickness
entry of the deformation output exactly when that entry preserves the volume. -/
theorem C115_compressible_partial (solver : T3 → Eig) (A C : T2) (g : Cols) (c33 : ℝ)
    (hc : 0 < c33) (hA : 0 < d2 A) (hC : 0 < d2 C) :
    pstretchComp solver C c33 g 2 ^ 2 = deformation A C 2 2 ↔ volumeSq A C c33 = 1 := by
  have e : deformation A C 2 2 = d2 A / d2 C := by
    simp [deformation, withThickness, data, det2, d2]
  have e2 : pstretchComp solver C c33 g 2 ^ 2 = c33 := by
    simp only [pstretchComp, stretches, vec3_two]
    exact Real.sq_sqrt hc.le
  rw [e, e2, volumeSq, eq_div_iff hC.ne', div_eq_one_iff_eq hA.ne', mul_comm]

/-- **C115** is violated: for the extended neo-Hookean material with Poisson's ratio 0 the plane
stress state has thickness entry 1 for every deformation; the two outputs disagree whenever the area
changes. -/
theorem C115_compressible_violated (E r : ℝ) (hE : E ≠ 0) (solver : T3 → Eig) (A C : T2) (g : Cols)
    (hA : 0 < d2 A) (hC : 0 < d2 C) (hne : d2 C ≠ d2 A) :
    (∀ c33, c33 ≠ 0 → (sNHe ⟨E, 0, r⟩ (cdata (data A C) c33) 2 2 = 0 ↔ c33 = 1)) ∧
    pstretchComp solver C 1 g 2 ^ 2 ≠ deformation A C 2 2 := by
  constructor
  · intro c33 h0
    have : sNHe ⟨E, 0, r⟩ (cdata (data A C) c33) 2 2 = E / 2 * (1 - 1 / c33) := by
      simp [sNHe, cdata, withThickness, data, embed, Par.mu, Par.lam]
      ring
    rw [this]
    constructor
    · intro h
      rcases mul_eq_zero.mp h with h | h
      · exact absurd h (by simpa using hE)
      · field_simp at h; linarith
    · rintro rfl; simp
  · intro h
    rw [C115_compressible_partial solver A C g 1 one_pos hA hC, volumeSq, mul_one,
      div_eq_one_iff_eq hA.ne'] at h
    exact hne h

/-- Non-vacuity: a square stretched to area four. -/
example : 0 < d2 (![![1, 0], ![0, 1]] : T2) ∧ 0 < d2 (![![4, 0], ![0, 4]] : T2) ∧
    d2 (![![4, 0], ![0, 4]] : T2) ≠ d2 (![![1, 0], ![0, 1]] : T2) := by
  simp [d2]; norm_num

end Verif.Deform
