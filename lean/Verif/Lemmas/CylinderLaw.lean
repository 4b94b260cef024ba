import Verif.Lemmas.Cylinder

/-! # Lemmas: sections and modes of cylinders -/

namespace Verif.Cylinder

open V3 Geometry Fields MeasureTheory Verif.Variation Verif.Balance Spec.Balloon Spec.Plate Spec.Cylinder
open Verif.Balloon Verif.Plate
open Verif.Integrate (Rule)

section
variable {E ν : ℝ}

theorem Cconst_eq (hE : E ≠ 0) (h1 : 1 + ν ≠ 0) (h2 : 1 - 2 * ν ≠ 0) (h3 : 1 - ν ≠ 0) :
    Linear.Cconst E ν = ν * (E / (1 - ν ^ 2)) := by
  have m := flat_linear hE h1 h2 h3
  have := congrFun (congrFun m 0) 1
  rw [flat_Acon] at this
  simpa [Linear.matrix, Linear.Cval, iso] using this

theorem mu_eq (h1 : 1 + ν ≠ 0) (h3 : 1 - ν ≠ 0) :
    2 * Linear.mu E ν = E / (1 - ν ^ 2) - ν * (E / (1 - ν ^ 2)) := by
  have e : (1 - ν ^ 2) = (1 - ν) * (1 + ν) := by ring
  rw [e, Linear.mu]; field_simp

theorem diag_con {s : Surf} {x : ℝ} (hx : x ≠ 0) (h : Acov s = ![![x, 0], ![0, 1]]) :
    Acon s = ![![1 / x, 0], ![0, 1]] := by
  have d : det2 (Acov s) = x := by rw [h]; simp [det2]
  have e : Acon s = inv2 (Acov s) := rfl
  rw [e, inv2, d, h]
  funext i j
  rcases fin2_cases i with rfl | rfl <;> rcases fin2_cases j with rfl | rfl <;> simp [hx]

/-- Moduli for an orthogonal parametrisation. -/
theorem diag_moduli {s : Surf} {x : ℝ} (hE : E ≠ 0) (h1 : 1 + ν ≠ 0) (h2 : 1 - 2 * ν ≠ 0) (h3 : 1 - ν ≠ 0)
    (hx : x ≠ 0) (h : Acov s = ![![x, 0], ![0, 1]]) :
    Linear.matrix E ν (Acon s) 0 0 = E / (1 - ν ^ 2) / x ^ 2 ∧
    Linear.matrix E ν (Acon s) 0 1 = ν * (E / (1 - ν ^ 2)) / x ∧ Linear.matrix E ν (Acon s) 0 2 = 0 := by
  have m := mu_eq (E := E) h1 h3
  rw [diag_con hx h]
  refine ⟨?_, ?_, ?_⟩ <;> simp [Linear.matrix, Linear.Cval, Cconst_eq hE h1 h2 h3]
  · field_simp
    linear_combination m
  · ring

theorem diag_stress {s : Surf} {x : ℝ} (hE : E ≠ 0) (h1 : 1 + ν ≠ 0) (h2 : 1 - 2 * ν ≠ 0) (h3 : 1 - ν ≠ 0)
    (hx : x ≠ 0) (h : Acov s = ![![x, 0], ![0, 1]]) (e f : ℝ) :
    Linear.stress E ν (Acon s) ![![e, 0], ![0, f]]
      = vec3 (E / (1 - ν ^ 2) * (e / x ^ 2 + ν * f / x)) (E / (1 - ν ^ 2) * (ν * e / x + f)) 0 := by
  have m := mu_eq (E := E) h1 h3
  rw [diag_con hx h]
  funext i
  rcases fin3_cases i with rfl | rfl | rfl <;>
    simp [Linear.stress, Linear.Sij, Linear.Cval, Cconst_eq hE h1 h2 h3]
  · field_simp
    linear_combination e * m
  · field_simp
    linear_combination f * x * m

/-- Section of the linear material between two cylinders. -/
theorem diag_section (r : Rule) {s s' : Surf} {x x' y β β' : ℝ} (hE : E ≠ 0) (h1 : 1 + ν ≠ 0) (h2 : 1 - 2 * ν ≠ 0)
    (h3 : 1 - ν ≠ 0) (t : ℝ) (hx : x ≠ 0) (h : Acov s = ![![x, 0], ![0, 1]]) (h' : Acov s' = ![![x', 0], ![0, y]])
    (hB : Bcov s = ![![-β, 0], ![0, 0]]) (hB' : Bcov s' = ![![-β', 0], ![0, 0]]) :
    (linearSection r t E ν s s').N = vec3 (t * (E / (1 - ν ^ 2)) * ((x' - x) / 2 / x ^ 2 + ν * ((y - 1) / 2) / x))
      (t * (E / (1 - ν ^ 2)) * (ν * ((x' - x) / 2) / x + (y - 1) / 2)) 0 ∧
    (linearSection r t E ν s s').M = vec3 (t ^ 3 / 12 * (E / (1 - ν ^ 2)) * ((β' - β) / x ^ 2))
      (t ^ 3 / 12 * (E / (1 - ν ^ 2)) * (ν * (β' - β) / x)) 0 := by
  constructor
  · funext i
    show Integrate.multiplyZ t 0 (fun _ => Linear.stress E ν (Acon s) (membraneStrain s s') i) = _
    have : membraneStrain s s' = ![![(x' - x) / 2, 0], ![0, (y - 1) / 2]] := by
      funext i j
      rw [membraneStrain, h, h']
      rcases fin2_cases i with rfl | rfl <;> rcases fin2_cases j with rfl | rfl <;> simp <;> ring
    rw [this, diag_stress hE h1 h2 h3 hx h]
    rcases fin3_cases i with rfl | rfl | rfl <;> simp [Integrate.multiplyZ] <;> ring
  · funext i
    show Integrate.multiplyZ t 2 (fun _ => Linear.stress E ν (Acon s) (bendingStrain s s') i) = _
    have : bendingStrain s s' = ![![β' - β, 0], ![0, 0]] := by
      funext i j
      rw [bendingStrain, hB, hB']
      rcases fin2_cases i with rfl | rfl <;> rcases fin2_cases j with rfl | rfl <;> simp
      ring
    rw [this, diag_stress hE h1 h2 h3 hx h]
    rcases fin3_cases i with rfl | rfl | rfl <;> simp [Integrate.multiplyZ] <;> ring

end

/-! ## Residual -/

section
variable {a b ρ ω ly c p : ℝ} {X : ℝ × ℝ → V3} {S : Surf → Surf → Section} {v : ℝ × ℝ → V3} {s : Section} {μ : ℝ}

theorem residual_arc (h : 0 < ρ * ω * ly) (hS : ∀ q, S (jet X q) (arcS ρ ω ly q) = s) (hN : s.N 2 = 0)
    (hM : s.M 2 = 0) (hμ : ∀ q, Variation.measure (jet X q) = μ) (hv : SmoothOn 2 v Set.univ) :
    residualForm X (arc ρ ω ly c) S p (rect a b) v
      = μ * (p * (∫ q in rect a b, dot (v q) (outward ω q))
          - ∫ q in rect a b, work ω (fun _ => 1) (s.N 0 * (ρ * ω)) (s.N 1 * ly) (s.M 0) (s.M 1) v q) := by
  have c0 := cdot (smooth1 hv) (outward_smooth 1 ω)
  have c1 := cdot (smooth0 hv 0) (around_smooth 1 ω)
  have c2 : Continuous fun q => (vpd 1 v q).y := (contDiffOn_univ.1 (smooth0 hv 1).2.1).continuous
  have c3 := cdot (smooth00 hv 0 0) (outward_smooth 0 ω)
  have c4 := cdot (smooth00 hv 1 1) (outward_smooth 0 ω)
  have cw : Continuous (work ω (fun _ => 1) (s.N 0 * (ρ * ω)) (s.N 1 * ly) (s.M 0) (s.M 1) v) := by
    unfold work; fun_prop
  rw [← integral_const_mul, ← int_sub (by fun_prop) (by fun_prop), ← integral_const_mul]
  unfold residualForm
  refine integral_congr_ae (.of_forall fun q => ?_)
  simp only [jet_arc, hS, hμ, internalForce, WeakForms.pressVec, arc_normal h, arc_Em, arc_Ef h, dotV,
    Fin.sum_univ_three, vec3_zero, vec3_one, vec3_two, hN, hM, work]
  ring

end

end Verif.Cylinder
