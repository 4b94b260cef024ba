import Verif.Lemmas.Wrinkled
import Verif.Lemmas.DWR2
import Verif.Lemmas.ShellSystemLaw
import Verif.Lemmas.TFTSection
import Verif.Props.Relaxed

/-! # Helper lemmas: what the program returns for a membrane with wrinkles; a strip -/

namespace Verif.Wrinkled

open V3 Verif.TFT Verif.Spec.Relaxed Verif.Geometry Verif.Variation Verif.ShellSystem Verif.Balance Spec.Wrinkled
open Verif.Integrate

theorem linear_symm (E ν : ℝ) (A : T2) : Symm (Linear.matrix E ν A) := by
  intro i j
  rcases fin3_cases i with rfl | rfl | rfl <;> rcases fin3_cases j with rfl | rfl | rfl <;> simp [Linear.matrix]

theorem inner_stress (E ν : ℝ) (ori s : Surf) (z : ℝ) :
    TFTSection.linStress E ν ori s .vectorN z = .ok (mulVec3 (Linear.matrix E ν (Acon ori)) (strain ori s)) := by
  show Outcome.ok (Linear.stress E ν (Acon ori) (membraneStrain ori s)) = _
  congr 1
  funext i
  rw [DWR.lin_S0]
  rfl

theorem stress_seen {E ν : ℝ} (hE : 0 < E) (h1 : -1 < ν) (h2 : ν < 1 / 2) {ori s : Surf} {A : T2} {f : Found}
    (hi : Indep (ori.a 0) (ori.a 1)) {z : ℝ} (h : Seen A (Linear.matrix E ν (Acon ori)) (strain ori s) f z) :
    ∃ T W, State (Linear.matrix E ν (Acon ori)) (mulVec3 (Linear.matrix E ν (Acon ori)) (strain ori s)) T W ∧
      stressAt 2 0 E ν ori s f z = .ok T := by
  have hC : TFT.PosDef (Linear.matrix E ν (Acon ori)) := System.linear_posMat E ν hE h1 h2 ori hi
  obtain ⟨T, W, hs, hr⟩ := Relaxed.C141_mixed A h.metric _ hC (strain ori s) (f.s0 z) (f.s1 z) (f.e0 z) (f.e1 z)
    h.stress h.strain h.clear (f.θ z) (fun h0 => h.angle (Relaxed.mixed_zero h0).1 (Relaxed.mixed_zero h0).2)
  refine ⟨T, W, hs, ?_⟩
  rw [← hr]
  simp only [stressAt, TFTSection.tftStress, inner_stress]
  rfl

theorem force_seen {E ν t : ℝ} (hE : 0 < E) (h1 : -1 < ν) (h2 : ν < 1 / 2) {ori s : Surf} {A B : T2} {f : Found}
    (hi : Indep (ori.a 0) (ori.a 1)) (r : Rule)
    (hu : Seen A (Linear.matrix E ν (Acon ori)) (strain ori s) f (1 / 2 * t))
    (hl : Seen B (Linear.matrix E ν (Acon ori)) (strain ori s) f (-(1 / 2) * t)) :
    ∃ T W, State (Linear.matrix E ν (Acon ori)) (mulVec3 (Linear.matrix E ν (Acon ori)) (strain ori s)) T W ∧
      ∀ k, force r 2 0 E ν t ori s f k = .ok (t * T k) := by
  have hC : TFT.PosDef (Linear.matrix E ν (Acon ori)) := System.linear_posMat E ν hE h1 h2 ori hi
  obtain ⟨T, W, hs, hr⟩ := stress_seen hE h1 h2 hi hu
  obtain ⟨T', W', hs', hr'⟩ := stress_seen hE h1 h2 hi hl
  obtain ⟨rfl, rfl⟩ := Relaxed.unique hC hs' hs
  refine ⟨T', W', hs, fun k => ?_⟩
  rw [force, TFTSection.section2_ok r .vectorN t _ 0 (T' k) (T' k) rfl (by rw [hr]; rfl) (by rw [hr']; rfl)]
  simp
  ring

/-! ## A strip -/

/-- The unit square with its sides along the coordinate axes; one point. -/
def square1 : Surf := ⟨fun i => if i = 0 then ⟨1, 0, 0⟩ else ⟨0, 1, 0⟩, 0, 0, 0⟩

/-- A strip held at stretch 2 across; its length is the unknown; pulled by the force `F`. -/
def strip (F : ℝ) : Problem Unit Unit where
  Q := {()}
  μ _ := 1
  ori _ := square1
  pre _ := ⟨fun i => if i = 0 then 0 else ⟨0, 2, 0⟩, 0, 0, 0⟩
  field _ _ := ⟨fun i => if i = 0 then ⟨1, 0, 0⟩ else 0, 0, 0, 0⟩
  F _ := F

/-- Its length. -/
noncomputable def len (l : ℝ) : EuclideanSpace ℝ Unit := WithLp.toLp 2 fun _ => l

theorem strip_deformed (F l : ℝ) (i : Fin 2) :
    (deformed (strip F) (len l) ()).a i = if i = 0 then ⟨l, 0, 0⟩ else ⟨0, 2, 0⟩ := by
  rcases fin2_cases i with rfl | rfl <;> ext <;> simp [deformed, strip, vsum, len]

theorem strip_strain (F l : ℝ) : strain ((strip F).ori ()) (deformed (strip F) (len l) ())
    = vec3 ((l ^ 2 - 1) / 2) (3 / 2) 0 := by
  funext k
  rcases fin3_cases k with rfl | rfl | rfl <;> simp [strain, strip_deformed] <;> simp [strip, square1, dot] <;> ring

theorem square1_indep : Indep (square1.a 0) (square1.a 1) := by
  refine ShellSystem.indep_of_cross fun h => ?_
  have := congrArg V3.z h
  simp [square1, cross] at this

/-- The material of the strip. -/
noncomputable def silk : T3 := mk3 1 0 0 0 1 0 0 0 (1 / 2)

theorem square1_linear : Linear.matrix 1 0 (Acon square1) = silk := by
  have h : Acon square1 = Relaxed.unit := by
    funext i j
    rcases fin2_cases i with rfl | rfl <;> rcases fin2_cases j with rfl | rfl <;>
      simp [Acon, Acov, inv2, det2, square1, dot, Relaxed.unit]
  rw [h, Relaxed.linear_unit]
  norm_num [Linear.Cconst, Linear.lam, Linear.mu, silk]

theorem silk_pos : TFT.PosDef silk := by
  rw [← square1_linear]
  exact System.linear_posMat 1 0 (by norm_num) (by norm_num) (by norm_num) square1 square1_indep

theorem silk_symm : Symm silk := by
  rw [← square1_linear]
  exact linear_symm _ _ _

theorem strip_body (F : ℝ) : Body (strip F) (fun _ => silk) (fun _ => 1) :=
  ⟨fun _ _ => one_pos, fun _ _ => one_pos, fun _ _ => silk_symm, fun _ _ => silk_pos⟩

theorem strip_held (F : ℝ) : Held (strip F) := by
  intro v h
  funext j
  have := congrArg V3.x (h () (by simp [strip]) 0)
  simpa [slopes, strip] using this

/-- The state of the strip: wrinkled across if it is shorter than 1, taut if it is longer. -/
theorem strip_state (l : ℝ) : State silk (mulVec3 silk (vec3 ((l ^ 2 - 1) / 2) (3 / 2) 0))
    (vec3 (max ((l ^ 2 - 1) / 2) 0) (3 / 2) 0) (vec3 (max (-((l ^ 2 - 1) / 2)) 0) 0 0) := by
  set e := (l ^ 2 - 1) / 2
  have hm : max e 0 = e + max (-e) 0 := by
    rcases le_total e 0 with h | h
    · rw [max_eq_right h, max_eq_left (by linarith)]; ring
    · rw [max_eq_left h, max_eq_right (by linarith)]; ring
  refine ⟨fun i => ?_, ?_, ?_, ?_⟩
  · rcases fin3_cases i with rfl | rfl | rfl <;> simp [mulVec3, silk, Fin.sum_univ_three, hm]
  · rw [Relaxed.tension_iff]
    refine ⟨le_max_right _ _, by norm_num, ?_⟩
    have := le_max_right e 0
    simp only [vec3_zero, vec3_one, vec3_two]
    nlinarith
  · rw [Relaxed.lengthens_iff]
    refine ⟨le_max_right _ _, by simp, by simp⟩
  · rw [Relaxed.work_eq]
    rcases le_total e 0 with h | h
    · rw [max_eq_right h]; simp
    · rw [max_eq_right (by linarith : -e ≤ 0)]; simp

theorem strip_wrinkles (F l : ℝ) : Wrinkles (strip F) (fun _ => silk) (fun _ => 1) (len l)
    (fun _ => vec3 (max ((l ^ 2 - 1) / 2) 0) (3 / 2) 0) := by
  intro q _
  refine ⟨_, vec3 (max (-((l ^ 2 - 1) / 2)) 0) 0 0, ?_, fun k => (one_mul _).symm⟩
  have := strip_strain F l
  rw [show q = () from rfl, this]
  exact strip_state l

theorem strip_residual (F l : ℝ) (n : Voigt) : residual (strip F) (fun _ => n) (len l) = len (F - n 0 * l) := by
  ext j
  have h := strip_deformed F l
  simp only [residual, len, strip, Finset.sum_singleton, internalForceMembrane, EmDer, dotV, Fin.sum_univ_three,
    vec3_zero, vec3_one, vec3_two]
  have h0 := h 0
  have h1 := h 1
  simp only [strip] at h0 h1
  rw [show (len l : EuclideanSpace ℝ Unit) = WithLp.toLp 2 fun _ => l from rfl] at h0 h1
  rw [h0, h1]
  simp [dot]; ring

end Verif.Wrinkled
