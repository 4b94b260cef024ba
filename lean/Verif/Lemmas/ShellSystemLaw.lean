import Verif.Lemmas.ShellSystem
import Verif.Lemmas.DWR2
import Verif.Lemmas.SystemModuli
import Verif.Lemmas.SameSheet
import Verif.Lemmas.PlateLaw

/-! # Helper lemmas: the materials of the nonlinear system -/

namespace Verif.ShellSystem

open V3 Verif.Geometry Verif.Variation Verif.Balance Verif.Integrate Spec.ShellSystem

theorem linear_plain (r : Rule) (E ν t : ℝ) (ori : Surf) :
    Plain (linearLaw r E ν t ori) ori (fun i j => t * Linear.matrix E ν (Acon ori) i j)
      (fun i j => t ^ 3 / 12 * Linear.matrix E ν (Acon ori) i j) := by
  have hA : ∀ i j, Acon ori i j = Acon ori j i := by
    intro i j
    have : Acov ori 0 1 = Acov ori 1 0 := dot_comm _ _
    rcases fin2_cases i with rfl | rfl <;> rcases fin2_cases j with rfl | rfl <;> simp [Acon, inv2, this]
  have c := fun s k => C25_resultants E ν t (Acon ori) (membraneStrain ori s) (bendingStrain ori s) hA
    (by simp [membraneStrain, Acov, dot_comm (s.a 0) (s.a 1), dot_comm (ori.a 0) (ori.a 1)])
    (by simp [bendingStrain, Bcov]) k r
  have hm : ∀ (t : ℝ) (e : Voigt) (k : Fin 3), mulVec3 (fun i j => t * Linear.matrix E ν (Acon ori) i j) e k
      = t * mulVec3 (Linear.matrix E ν (Acon ori)) e k := by
    intro t e k; simp [mulVec3, Finset.mul_sum, mul_assoc]
  refine ⟨fun s => ?_, fun s i j => System.linear_B r t E ν ori i j, fun s i j => System.linear_C r t E ν ori i j,
    fun s => ?_, fun s => ?_, fun s => ?_⟩
  · funext i j; exact System.linear_A r t E ν ori i j
  · funext i j; exact System.linear_D r t E ν ori i j
  · funext k
    have h := (c s k).1
    rw [DWR.voigt_membrane] at h
    show value (resultantN E ν t (Acon ori) (membraneStrain ori s) k r) = _
    rw [h, hm]; rfl
  · funext k
    have h := (c s k).2.1
    rw [DWR.voigt_bending] at h
    show value (resultantM E ν t (Acon ori) (bendingStrain ori s) k r) = _
    rw [h, hm]; rfl

theorem first_inv (ori : Surf) : (first ori)⁻¹ = Matrix.of (Acon ori) := by
  rw [Matrix.inv_def, Matrix.adjugate_fin_two, Matrix.det_fin_two]
  have hd : first ori 0 0 * first ori 1 1 - first ori 0 1 * first ori 1 0 = det2 (Acov ori) := rfl
  rw [hd, Ring.inverse_eq_inv']
  ext i j
  rcases fin2_cases i with rfl | rfl <;> rcases fin2_cases j with rfl | rfl <;>
    simp [Acon, inv2, first, Acov, div_eq_inv_mul]

/-- The plane-stress form in the coordinates of the code. -/
theorem planeForm_eq (E ν : ℝ) (h1 : 1 + ν ≠ 0) (h2 : 1 - 2 * ν ≠ 0) (h3 : 1 - ν ≠ 0) (ori : Surf)
    (e : Matrix (Fin 2) (Fin 2) ℝ) (he : e 0 1 = e 1 0) :
    E / (1 - ν ^ 2) * planeForm ν (first ori) e
      = dotV (vec3 (e 0 0) (e 1 1) (2 * e 0 1)) (mulVec3 (Linear.matrix E ν (Acon ori)) (vec3 (e 0 0) (e 1 1) (2 * e 0 1))) := by
  have hA : Acon ori 1 0 = Acon ori 0 1 := by
    have : Acov ori 0 1 = Acov ori 1 0 := dot_comm _ _
    simp [Acon, inv2, this]
  have hc := Linear.Cconst_eq E ν h1 h2 h3
  have hm : Linear.mu E ν = E / (1 - ν ^ 2) * ((1 - ν) / 2) := by
    unfold Linear.mu
    rw [show 1 - ν ^ 2 = (1 + ν) * (1 - ν) by ring]; field_simp
  have hc' : Linear.Cconst E ν = E / (1 - ν ^ 2) * ν := by
    rw [hc, hm]; field_simp
  unfold planeForm
  rw [first_inv]
  generalize E / (1 - ν ^ 2) = k at hm hc'
  simp only [Matrix.trace_fin_two, Matrix.mul_apply, Fin.sum_univ_two, Matrix.of_apply, dotV, mulVec3,
    Fin.sum_univ_three, Linear.matrix, Linear.Cval, hm, hc', mk3, vec3, hA, ← he]
  simp
  ring

theorem koiter_eq (E ν t : ℝ) (h1 : 1 + ν ≠ 0) (h2 : 1 - 2 * ν ≠ 0) (h3 : 1 - ν ≠ 0) (ori s : Surf) :
    koiter E ν t ori s = quadEnergy (fun i j => t * Linear.matrix E ν (Acon ori) i j)
      (fun i j => t ^ 3 / 12 * Linear.matrix E ν (Acon ori) i j) ori s := by
  have hm : ∀ (t : ℝ) (e f : Voigt), dotV e (mulVec3 (fun i j => t * Linear.matrix E ν (Acon ori) i j) f)
      = t * dotV e (mulVec3 (Linear.matrix E ν (Acon ori)) f) := by
    intro t e f; simp only [dotV, mulVec3, Fin.sum_univ_three]; ring
  have e1 := planeForm_eq E ν h1 h2 h3 ori ((1 / 2 : ℝ) • (first s - first ori))
    (by simp [first, dot_comm (s.a 0) (s.a 1), dot_comm (ori.a 0) (ori.a 1)])
  have e2 := planeForm_eq E ν h1 h2 h3 ori (second ori - second s) (by simp [second])
  have v1 : vec3 (((1 / 2 : ℝ) • (first s - first ori)) 0 0) (((1 / 2 : ℝ) • (first s - first ori)) 1 1)
      (2 * ((1 / 2 : ℝ) • (first s - first ori)) 0 1) = voigtMembrane ori s := by
    unfold voigtMembrane
    congr 1 <;> simp [first] <;> ring
  have v2 : vec3 ((second ori - second s) 0 0) ((second ori - second s) 1 1)
      (2 * (second ori - second s) 0 1) = voigtBending ori s := by
    unfold voigtBending
    congr 1
  rw [v1] at e1
  rw [v2] at e2
  unfold koiter quadEnergy
  rw [hm, hm, ← e1, ← e2]
  have h4 : 1 - ν ^ 2 ≠ 0 := by
    rw [show 1 - ν ^ 2 = (1 + ν) * (1 - ν) by ring]; exact mul_ne_zero h1 h3
  field_simp
  ring

/-- A laminate with a symmetric stacking sequence. -/
theorem laminate_plain (r : Rule) (t : ℝ) (ls : List Composite.Layer) (h : ls.reverse = ls) (ori : Surf) :
    Plain (laminateLaw r t ls ori) ori (System.laminateModuli r t ls ori).A
      (System.laminateModuli r t ls ori).D := by
  have hB : Composite.abd .B ls = fun _ _ => 0 := by
    funext i j; exact (Composite.C28_symmetric_no_coupling ls h i j).1
  have hC : Composite.abd .C ls = fun _ _ => 0 := by
    funext i j; exact (Composite.C28_symmetric_no_coupling ls h i j).2
  refine ⟨fun s => rfl, fun s i j => ?_, fun s i j => ?_, fun s => rfl, fun s => ?_, fun s => ?_⟩
  · show Composite.toSurface _ _ _ _ (Composite.abd .B ls) i j = 0
    rw [hB, SameSheet.toSurface_zero]
  · show Composite.toSurface _ _ _ _ (Composite.abd .C ls) i j = 0
    rw [hC, SameSheet.toSurface_zero]
  · show mulVec3 _ (strainVec (membraneStrain ori s)) = _
    rw [strainVec, DWR.voigt_membrane]
  · show mulVec3 _ (strainVec (bendingStrain ori s)) = _
    rw [strainVec, DWR.voigt_bending]

end Verif.ShellSystem
