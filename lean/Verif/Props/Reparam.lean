import Verif.Lemmas.Reparam
import Verif.Props.Shortcut

/-! # Property C124: hyperelastic shells do not depend on the parametrisation -/

set_option linter.unusedSimpArgs false

namespace Verif.Reparam

open V3 Verif.Geometry Verif.Hyper Verif.Integrate Verif.Variation Verif.ShellTangent
open Spec.Reparam Spec.ShellTangent Spec.Hyper

/-- **C124** (missing: the zero-stress shortcut in front of the formulas) The stress formulas of
the incompressible materials give the same tensor in every parametrisation. -/
theorem C124_stress_partial (p : Par) (P A C : T2) (hP : det2 P ≠ 0) (i j : Fin 2) :
    sNH p (data (co P A) (co P C)) (up i) (up j)
      = contra P (fun a b => sNH p (data A C) (up a) (up b)) i j ∧
    sMR p (data (co P A) (co P C)) (up i) (up j)
      = contra P (fun a b => sMR p (data A C) (up a) (up b)) i j := by
  constructor
  · simp only [sNH, J0_co P A C hP, Gori_co P A C hP, gcon_co P A C hP, contra, Fin.sum_univ_two]
    ring
  · simp only [sMR, J0_co P A C hP, Gori_co P A C hP, gcon_co P A C hP, trace_co P A C hP, contra,
      Fin.sum_univ_two]
    ring

/-- **C124** The tangents of the incompressible materials (no shortcut). -/
theorem C124_tangent (p : Par) (P A C : T2) (hP : det2 P ≠ 0) (i j k l : Fin 2) :
    cNH p (data (co P A) (co P C)) (up i) (up j) (up k) (up l)
      = contra4 P (fun a b c d => cNH p (data A C) (up a) (up b) (up c) (up d)) i j k l ∧
    cMR p (data (co P A) (co P C)) (up i) (up j) (up k) (up l)
      = contra4 P (fun a b c d => cMR p (data A C) (up a) (up b) (up c) (up d)) i j k l :=
  ⟨cNH_co P p A C hP i j k l, cMR_co P p A C hP i j k l⟩

/-- The three compressible materials: stress and three-dimensional tangent. -/
def Compressible (p : Par) (s : CData → Fin 3 → Fin 3 → ℝ)
    (t : CData → Fin 3 → Fin 3 → Fin 3 → Fin 3 → ℝ) : Prop :=
  (s = sNHc p ∧ t = cNHc p) ∨ (s = sMRc p ∧ t = cMRc p) ∨ (s = sNHe p ∧ t = cNHe p)

/-- **C124** The iteration for the thickness stretch of the compressible materials has the same
outcome in every parametrisation: the same stretch, the same error, or a division by zero. -/
theorem C124_thickness (p : Par) (P A C : T2) (hP : det2 P ≠ 0)
    (s : CData → Fin 3 → Fin 3 → ℝ) (t : CData → Fin 3 → Fin 3 → Fin 3 → Fin 3 → ℝ)
    (h : Compressible p s t) :
    Newton.c33Of s t (data (co P A) (co P C)) = Newton.c33Of s t (data A C) := by
  rcases h with ⟨rfl, rfl⟩ | ⟨rfl, rfl⟩ | ⟨rfl, rfl⟩
  · exact c33_co P A C hP _ _ (fun x => sNHc_co p P A C x hP) fun x => cNHc_co p P A C x hP
  · exact c33_co P A C hP _ _ (fun x => sMRc_co p P A C x hP) fun x => cMRc_co p P A C x hP
  · exact c33_co P A C hP _ _ (fun x => sNHe_co p P A C x hP) fun x => cNHe_co p P A C x hP

/-- **C124** (missing: the zero-stress shortcut) Stress and condensed tangent of the compressible
materials at the thickness stretch found by the iteration. -/
theorem C124_compressible_partial (p : Par) (P A C : T2) (hP : det2 P ≠ 0)
    (s : CData → Fin 3 → Fin 3 → ℝ) (t : CData → Fin 3 → Fin 3 → Fin 3 → Fin 3 → ℝ)
    (h : Compressible p s t) (i j k l : Fin 2) :
    (Newton.c33Of s t (data (co P A) (co P C))).map
        (fun x => s (cdata (data (co P A) (co P C)) x) (up i) (up j))
      = (Newton.c33Of s t (data A C)).map
        (fun x => contra P (fun a b => s (cdata (data A C) x) (up a) (up b)) i j) ∧
    (Newton.c33Of s t (data (co P A) (co P C))).map
        (fun x => condense (t (cdata (data (co P A) (co P C)) x)) (up i) (up j) (up k) (up l))
      = (Newton.c33Of s t (data A C)).map
        (fun x => contra4 P (fun a b c d =>
          condense (t (cdata (data A C) x)) (up a) (up b) (up c) (up d)) i j k l) := by
  rw [C124_thickness p P A C hP s t h]
  rcases h with ⟨rfl, rfl⟩ | ⟨rfl, rfl⟩ | ⟨rfl, rfl⟩
  · simp only [(sNHc_co p P A C _ hP).1, condense_co P _ _ (cNHc_co p P A C _ hP), and_self]
  · simp only [(sMRc_co p P A C _ hP).1, condense_co P _ _ (cMRc_co p P A C _ hP), and_self]
  · simp only [(sNHe_co p P A C _ hP).1, condense_co P _ _ (cNHe_co p P A C _ hP), and_self]

/-- **C124** (missing: the shortcut; changes of parameters that reverse the orientation) The
integrand of the internal force of a hyperelastic shell, with the integration through the thickness,
does not depend on the parametrisation of the mid-surface. -/
theorem C124_force_partial (p : Par) (P : T2) (g1 g2 g3 : Fin 2 → ℝ) (hP : 0 < det2 P) (r : Rule)
    (t : ℝ) (ori s u : Surf) (h : Indep (s.a 0) (s.a 1)) :
    force (nh p (Linear.reparam P g1 g2 g3 ori)) r t (Linear.reparam P g1 g2 g3 s)
      (Linear.reparam P g1 g2 g3 u) = force (nh p ori) r t s u ∧
    force (mr p (Linear.reparam P g1 g2 g3 ori)) r t (Linear.reparam P g1 g2 g3 s)
      (Linear.reparam P g1 g2 g3 u) = force (mr p ori) r t s u :=
  ⟨force_co P g1 g2 g3 hP _ _ (nh_law P g1 g2 g3 p hP ori) r t s u h,
    force_co P g1 g2 g3 hP _ _ (mr_law P g1 g2 g3 p hP ori) r t s u h⟩

/-- **C124** (missing: as before) The integrand of the tangent matrix. -/
theorem C124_matrix_partial (p : Par) (P : T2) (g1 g2 g3 : Fin 2 → ℝ) (hP : 0 < det2 P) (r : Rule)
    (t : ℝ) (ori s u v : Surf) (h : Indep (s.a 0) (s.a 1)) (hr : Regular r t ori s) :
    tangentStiffness (nh p (Linear.reparam P g1 g2 g3 ori)) r t (Linear.reparam P g1 g2 g3 s)
      (Linear.reparam P g1 g2 g3 u) (Linear.reparam P g1 g2 g3 v)
      = tangentStiffness (nh p ori) r t s u v ∧
    tangentStiffness (mr p (Linear.reparam P g1 g2 g3 ori)) r t (Linear.reparam P g1 g2 g3 s)
      (Linear.reparam P g1 g2 g3 u) (Linear.reparam P g1 g2 g3 v)
      = tangentStiffness (mr p ori) r t s u v := by
  have hsym : ∀ o x : Surf, ∀ z, ElasticSymm (cNH p (data (Gblock o z) (Gblock x z))) ∧
      ElasticSymm (cMR p (data (Gblock o z) (Gblock x z))) := by
    intro o x z
    have hs := data_symm _ _ (metric_symm o z) (metric_symm x z)
    exact C48_incompressible p _ hs.1 hs.2
  have hr' := regular_co P g1 g2 g3 hP r t ori s hr
  constructor
  · refine tangent_co P g1 g2 g3 hP _ _ (nh_law P g1 g2 g3 p hP ori) r t s u v h
      (nh_good p ori s r t hr) (nh_good p _ _ r t hr') (fun z => (hsym _ _ z).1)
      (fun z => (hsym _ _ z).1) fun z i j k l => ?_
    simp only [nh, Gblock_co P g1 g2 g3 hP ori]
    exact cNH_co P p _ _ hP.ne' i j k l
  · refine tangent_co P g1 g2 g3 hP _ _ (mr_law P g1 g2 g3 p hP ori) r t s u v h
      (mr_good p ori s r t hr) (mr_good p _ _ r t hr') (fun z => (hsym _ _ z).2)
      (fun z => (hsym _ _ z).2) fun z i j k l => ?_
    simp only [mr, Gblock_co P g1 g2 g3 hP ori]
    exact cMR_co P p _ _ hP.ne' i j k l

/-- **C124 violated** With the shortcut the returned stress depends on the parametrisation: a plate
with a millionth of biaxial squared stretch over the unit square has a non-zero neo-Hookean stress;
over a parameter domain a thousand times smaller the returned stress is zero, although the formula
gives a positive value. -/
theorem C124_shortcut_violated (p : Par) (hp : 0 < p.mu) :
    ∃ P A C : T2, 0 < det2 P ∧ 0 < det2 A ∧ 0 < det2 C ∧
      Shortcut.evalStress (sNH p) (data (co P A) (co P C)) 0 0
        ≠ contra P (Shortcut.evalStress (sNH p) (data A C)) 0 0 := by
  obtain ⟨h1, -, h3⟩ := Shortcut.C122_millimetres_violated (sNH p) p hp
  refine ⟨![![1000, 0], ![0, 1000]], ![![1, 0], ![0, 1]],
    ![![1 + 1 / 10 ^ 6, 0], ![0, 1 + 1 / 10 ^ 6]], by simp [det2], by simp [det2],
    by simp [det2]; norm_num, ?_⟩
  have e : ∀ M : T2, co ![![1000, 0], ![0, 1000]] M = Spec.Shortcut.scaled 1000 M := by
    intro M
    funext i j
    rcases fin2_cases i with rfl | rfl <;> rcases fin2_cases j with rfl | rfl <;>
      simp only [co, Spec.Shortcut.scaled, Fin.sum_univ_two, Matrix.cons_val_zero,
        Matrix.cons_val_one] <;> ring
  rw [e, e, h1]
  simp only [contra, Fin.sum_univ_two]
  simp only [inv2, det2, Matrix.cons_val_zero, Matrix.cons_val_one]
  norm_num
  norm_num at h3
  exact h3.ne'

/-- Non-vacuity: a curved undeformed and a more strongly curved deformed shell with a change of
parameters with shear and second derivatives. -/
example : 0 < det2 (![![2, 1], ![0, 1]] : T2) ∧ Indep ((curved 1).a 0) ((curved 1).a 1) ∧
    Regular two 1 (curved 0) (curved 1) ∧
    (Linear.reparam ![![2, 1], ![0, 1]] ![1, 0] ![0, 0] ![0, 3] (curved 1)).d12 = ⟨0, 3, 0⟩ := by
  refine ⟨by simp [det2], curved_indep 1, curved_regular, ?_⟩
  ext <;> simp [Linear.reparam, curved]

end Verif.Reparam
