import Verif.Lemmas.PatchTestLaw
import Verif.Lemmas.PlateMode
import Verif.Lemmas.Shortcut
import Verif.Lemmas.BalloonCalc
import Verif.Props.Reparam
import Verif.Props.Planar

/-! # Lemmas: compressible materials, planar problems and the shortcut in the patch test -/

namespace Verif.PatchTest

open V3 Geometry Fields MeasureTheory Verif.Variation Verif.Balance Verif.Hyper Verif.ShellTangent
open Spec.Balloon Spec.Plate Spec.PatchTest Spec.Reparam Spec.ShellTangent Spec.Hyper Verif.Plate Verif.Reparam
open Verif.Integrate (Rule)

/-! ## Compressible materials -/

theorem cdata_symm (A C : T2) (hA : A 0 1 = A 1 0) (hC : C 0 1 = C 1 0) (x : ℝ) :
    (cdata (data A C) x).D.Gori 0 1 = (cdata (data A C) x).D.Gori 1 0 ∧
    (cdata (data A C) x).cinv 0 1 = (cdata (data A C) x).cinv 1 0 := by
  have hs := data_symm A C hA hC
  exact ⟨hs.2 0 1, hs.1 0 1⟩

theorem compressible_symm {p : Par} {s : CData → Fin 3 → Fin 3 → ℝ}
    {c : CData → Fin 3 → Fin 3 → Fin 3 → Fin 3 → ℝ} (h : Compressible p s c) (A C : T2) (hA : A 0 1 = A 1 0)
    (hC : C 0 1 = C 1 0) (x : ℝ) : s (cdata (data A C) x) 0 1 = s (cdata (data A C) x) 1 0 := by
  obtain ⟨h1, h2⟩ := cdata_symm A C hA hC x
  rcases h with ⟨rfl, -⟩ | ⟨rfl, -⟩ | ⟨rfl, -⟩
  · simp only [sNHc, h1, h2]
  · simp only [sMRc, dI2, dI1, h1, h2, mul_comm (idelta 0 2), mul_comm (delta 0 2)]
  · simp only [sNHe, h1, h2]

theorem compressible_tensorial {p : Par} {s : CData → Fin 3 → Fin 3 → ℝ}
    {c : CData → Fin 3 → Fin 3 → Fin 3 → Fin 3 → ℝ} (h : Compressible p s c) : Tensorial (compressible s c) where
  stress P A C i j hP := by
    have hx := C124_thickness p P A C hP s c h
    have hs : ∀ x, Stress3 P (s (cdata (data (co P A) (co P C)) x)) (s (cdata (data A C) x)) := by
      intro x
      rcases h with ⟨rfl, -⟩ | ⟨rfl, -⟩ | ⟨rfl, -⟩
      · exact sNHc_co p P A C x hP
      · exact sMRc_co p P A C x hP
      · exact sNHe_co p P A C x hP
    simp only [compressible, hx]
    cases Newton.c33Of s c (data A C) with
    | ok x => exact (hs x).1 i j
    | throws => simp [contra]
    | ub => simp [contra]
  symm A C hA hC := by
    simp only [compressible]
    cases Newton.c33Of s c (data A C) with
    | ok x => exact compressible_symm h A C hA hC x
    | throws => rfl
    | ub => rfl

/-! ## Planar problems -/

section
variable {a b : ℝ} {X v : ℝ × ℝ → V3}

/-- Second derivatives of a planar field. -/
noncomputable def phess (X : ℝ × ℝ → V3) (q : ℝ × ℝ) : Fin 3 → Fin 2 → ℝ := fun k =>
  if k = 0 then xy (vpd 0 (vpd 0 X) q) else if k = 1 then xy (vpd 1 (vpd 1 X) q) else xy (vpd 1 (vpd 0 X) q)

theorem vpd_plane (h : ∀ q, (X q).z = 0) (i : Fin 2) (q : ℝ × ℝ) : (vpd i X q).z = 0 := by
  have : (fun q => (X q).z) = fun _ => 0 := funext h
  simp only [vpd, this, Balloon.pd_const]

theorem jet_plane (h : ∀ q, (X q).z = 0) (q : ℝ × ℝ) : jet X q = Planar.sheet (pjac X q) (phess X q) := by
  have h1 := vpd_plane h
  have h2 : ∀ i j q, (vpd j (vpd i X) q).z = 0 := fun i j q => vpd_plane (h1 i) j q
  unfold jet Planar.sheet
  congr 1
  · funext i
    ext <;> simp [Planar.lift, pjac, h1]
  all_goals ext <;> simp [Planar.lift, phess, xy, h2]

theorem affine_plane {f : Fin 2 → V3} (hf : ∀ i, (f i).z = 0) {c : V3} (hc : c.z = 0) (q : ℝ × ℝ) :
    (affine f c X q).z = 0 := by
  simp [affine, hf, hc]

theorem pjac_affine (h : SmoothOn 2 X Set.univ) (f : Fin 2 → V3) (c : V3) (q : ℝ × ℝ) :
    Planar.jdet (pjac (affine f c X) q) = det2 (par X q) * ((f 0).x * (f 1).y - (f 0).y * (f 1).x) := by
  have e : ∀ i, vpd i (affine f c X) q = par X q i 0 • f 0 + par X q i 1 • f 1 := by
    intro i
    have := congrArg (fun s : Surf => s.a i) (jet_affine h f c q)
    simpa [jet, Linear.reparam, fS] using this
  simp only [Planar.jdet, pjac, e, det2]
  simp
  ring

theorem planar_eq (h : Sheet a b X) {f : Fin 2 → V3} (hf : ∀ i, (f i).z = 0)
    (hd : (f 0).x * (f 1).y - (f 0).y * (f 1).x ≠ 0) {c : V3} (hc : c.z = 0) (hv : ∀ q, (v q).z = 0)
    (M : Planar.Material) (r : Rule) (t : ℝ) :
    planarResidual X (affine f c X) (Planar.resultant M r t 0) (rect a b) v
      = residualForm X (affine f c X) (lawSection M.law r t) 0 (rect a b) v := by
  unfold planarResidual residualForm
  refine setIntegral_congr_fun (measurableSet_Icc.prod measurableSet_Icc) fun q hq => ?_
  have hJ : Planar.jdet (pjac X q) ≠ 0 := h.regular q hq
  have hK : Planar.jdet (pjac (affine f c X) q) ≠ 0 := by
    rw [pjac_affine h.smooth]; exact mul_ne_zero (h.regular q hq) hd
  have := Planar.C125_force M r t (pjac X q) (pjac (affine f c X) q) (pjac v q) (phess X q)
    (phess (affine f c X) q) (phess v q) hJ hK
  rw [← jet_plane h.plane, ← jet_plane (affine_plane hf hc), ← jet_plane hv] at this
  have hm : Variation.measure (jet X q) = pmeas (pjac X q) := by
    rw [jet_sheet h.smooth h.plane, measure_sheet]; rfl
  simp only [← this, hm]
  simp only [ShellTangent.force, lawSection, WeakForms.pressVec]
  simp

end

/-! ## A bubble on a stretched parametrisation -/

/-- Displacement along `x` that vanishes at the boundary. -/
def bubble (q : ℝ × ℝ) : V3 := ⟨q.1 * (1 - q.1) * (q.2 * (1 - q.2)), 0, 0⟩

theorem bubble_pinned : Pinned 1 1 bubble := by
  refine ⟨⟨?_, contDiffOn_const, contDiffOn_const⟩, ?_⟩
  · unfold bubble
    exact ContDiff.contDiffOn (by fun_prop)
  · rintro ⟨x, y⟩ hq
    rcases hq with h | h | h | h <;> simp only at h <;> subst h <;> ext <;> simp [bubble]

/-- Parametrisation of the strip `[0, 1 + k/2] × [0, 1]` that gets faster along `x`. -/
noncomputable def fast (k : ℝ) (q : ℝ × ℝ) : V3 := ⟨q.1 + k / 2 * q.1 ^ 2, q.2, 0⟩

theorem fast_smooth (k : ℝ) : SmoothOn 2 (fast k) Set.univ := by
  refine ⟨?_, ?_, contDiffOn_const⟩ <;> unfold fast <;> exact ContDiff.contDiffOn (by fun_prop)

theorem pd0 {f : ℝ × ℝ → ℝ} (hf : Differentiable ℝ f) (q : ℝ × ℝ) {d : ℝ}
    (h : HasDerivAt (fun x => f (x, q.2)) d q.1) : pd 0 f q = d :=
  (line_x hf q.1 q.2).unique h

theorem pd1 {f : ℝ × ℝ → ℝ} (hf : Differentiable ℝ f) (q : ℝ × ℝ) {d : ℝ}
    (h : HasDerivAt (fun y => f (q.1, y)) d q.2) : pd 1 f q = d :=
  (line_y hf q.1 q.2).unique h

theorem fast_vpd (k : ℝ) (q : ℝ × ℝ) : vpd 0 (fast k) q = ⟨1 + k * q.1, 0, 0⟩ ∧ vpd 1 (fast k) q = ⟨0, 1, 0⟩ := by
  have hx : Differentiable ℝ fun q : ℝ × ℝ => q.1 + k / 2 * q.1 ^ 2 := by fun_prop
  have hy : Differentiable ℝ fun q : ℝ × ℝ => q.2 := by fun_prop
  constructor
  · ext
    · refine pd0 hx q ?_
      have := (hasDerivAt_id' q.1).fun_add (((hasDerivAt_id' q.1).fun_pow 2).const_mul (k / 2))
      refine this.congr_deriv ?_
      simp; ring
    · exact pd0 hy q (hasDerivAt_const _ _)
    · exact Balloon.pd_const 0 _ _
  · ext
    · exact pd1 hx q (hasDerivAt_const q.2 (q.1 + k / 2 * q.1 ^ 2))
    · exact pd1 hy q (hasDerivAt_id' _)
    · exact Balloon.pd_const 1 _ _

theorem bubble_vpd (q : ℝ × ℝ) : vpd 0 bubble q = ⟨(1 - 2 * q.1) * (q.2 * (1 - q.2)), 0, 0⟩ ∧
    vpd 1 bubble q = ⟨q.1 * (1 - q.1) * (1 - 2 * q.2), 0, 0⟩ := by
  have hx : Differentiable ℝ fun q : ℝ × ℝ => q.1 * (1 - q.1) * (q.2 * (1 - q.2)) := by fun_prop
  have e : ∀ x : ℝ, HasDerivAt (fun x : ℝ => x * (1 - x)) (1 - 2 * x) x := by
    intro x
    refine ((hasDerivAt_id' x).fun_mul ((hasDerivAt_id' x).const_sub 1)).congr_deriv ?_
    ring
  constructor
  · ext
    · exact pd0 hx q ((e q.1).mul_const (q.2 * (1 - q.2)))
    · exact Balloon.pd_const 0 _ _
    · exact Balloon.pd_const 0 _ _
  · ext
    · exact pd1 hx q ((e q.2).const_mul (q.1 * (1 - q.1)))
    · exact Balloon.pd_const 1 _ _
    · exact Balloon.pd_const 1 _ _

theorem fast_sheet {k : ℝ} (hk : 0 ≤ k) : Sheet 1 1 (fast k) where
  smooth := fast_smooth k
  plane _ := rfl
  regular := by
    intro q hq
    rw [(fast_vpd k q).1, (fast_vpd k q).2]
    have : 0 ≤ k * q.1 := mul_nonneg hk hq.1.1
    simp
    linarith

/-- Stretch along `x`. -/
def along (l : ℝ) (i : Fin 2) : V3 := if i = 0 then ⟨l, 0, 0⟩ else ⟨0, 1, 0⟩

/-! ## The planar linear material -/

theorem fast_pjac (k : ℝ) (q : ℝ × ℝ) : pjac (fast k) q = ![![1 + k * q.1, 0], ![0, 1]] := by
  funext i j
  rcases fin2_cases i with rfl | rfl <;> rcases fin2_cases j with rfl | rfl <;>
    simp [pjac, (fast_vpd k q).1, (fast_vpd k q).2]

theorem along_affine (l k : ℝ) (q : ℝ × ℝ) : pjac (affine (along l) 0 (fast k)) q = ![![l * (1 + k * q.1), 0], ![0, 1]] := by
  have e : affine (along l) 0 (fast k) = fun q => (⟨l * (q.1 + k / 2 * q.1 ^ 2), q.2, 0⟩ : V3) := by
    funext q; ext <;> simp [affine, along, fast]; ring
  have hx : Differentiable ℝ fun q : ℝ × ℝ => l * (q.1 + k / 2 * q.1 ^ 2) := by fun_prop
  have hy : Differentiable ℝ fun q : ℝ × ℝ => q.2 := by fun_prop
  rw [e]
  funext i j
  rcases fin2_cases i with rfl | rfl <;> rcases fin2_cases j with rfl | rfl
  · refine pd0 hx q ?_
    have := ((hasDerivAt_id' q.1).fun_add (((hasDerivAt_id' q.1).fun_pow 2).const_mul (k / 2))).const_mul l
    refine this.congr_deriv ?_
    simp; left; ring
  · exact pd0 hy q (hasDerivAt_const _ _)
  · exact pd1 hx q (hasDerivAt_const q.2 (l * (q.1 + k / 2 * q.1 ^ 2)))
  · exact pd1 hy q (hasDerivAt_id' _)

theorem bubble_pjac (q : ℝ × ℝ) :
    pjac bubble q = ![![(1 - 2 * q.1) * (q.2 * (1 - q.2)), 0], ![q.1 * (1 - q.1) * (1 - 2 * q.2), 0]] := by
  funext i j
  rcases fin2_cases i with rfl | rfl <;> rcases fin2_cases j with rfl | rfl <;>
    simp [pjac, (bubble_vpd q).1, (bubble_vpd q).2]

theorem int_fast : ∫ x in (0 : ℝ)..1, (1 + x) ^ 8 * (1 - 2 * x) = -514 / 15 := by
  have h : ∀ x : ℝ, HasDerivAt (fun x : ℝ => (1 + x) ^ 9 / 3 - (1 + x) ^ 10 / 5) ((1 + x) ^ 8 * (1 - 2 * x)) x := by
    intro x
    have h1 := (hasDerivAt_id' x).const_add 1
    refine (((h1.fun_pow 9).div_const 3).fun_sub ((h1.fun_pow 10).div_const 5)).congr_deriv ?_
    simp; ring
  rw [intervalIntegral.integral_eq_sub_of_hasDerivAt (fun x _ => h x)
    (Continuous.intervalIntegrable (by fun_prop) _ _)]
  norm_num

theorem int_bubble : ∫ y in (0 : ℝ)..1, y * (1 - y) = 1 / 6 := by
  have h : ∀ y : ℝ, HasDerivAt (fun y : ℝ => y ^ 2 / 2 - y ^ 3 / 3) (y * (1 - y)) y := by
    intro y
    have h1 := hasDerivAt_id' y
    refine (((h1.fun_pow 2).div_const 2).fun_sub ((h1.fun_pow 3).div_const 3)).congr_deriv ?_
    simp; ring
  rw [intervalIntegral.integral_eq_sub_of_hasDerivAt (fun x _ => h x)
    (Continuous.intervalIntegrable (by fun_prop) _ _)]
  norm_num

theorem planar_linear_residual (r : Rule) (t E ν : ℝ) :
    planarResidual (fast 1) (affine (along 2) 0 (fast 1)) (planarLinear r t E ν) (rect 1 1) bubble
      = -3 * t * (Linear.Cconst E ν + 2 * Linear.mu E ν) * (-514 / 15 * (1 / 6)) := by
  rw [← int_fast, ← int_bubble, ← rect_prod (by fun_prop) (by fun_prop), ← integral_const_mul]
  unfold planarResidual
  refine setIntegral_congr_fun (measurableSet_Icc.prod measurableSet_Icc) fun q hq => ?_
  have hg : 0 < 1 + q.1 := by have : 0 ≤ q.1 := hq.1.1; linarith
  have hm : pmeas (pjac (fast 1) q) = 1 + q.1 := by
    rw [fast_pjac]; simp [pmeas, abs_of_pos hg]
  have hA : Geometry.storedAconPlanar (pjac (fast 1) q) = ![![(1 + q.1) ^ 2, 0], ![0, 1]] := by
    rw [fast_pjac]
    funext i j
    rcases fin2_cases i with rfl | rfl <;> rcases fin2_cases j with rfl | rfl <;>
      simp [Geometry.storedAconPlanar, Geometry.AcovPlanar]
    ring
  have he : Planar.strain (pjac (fast 1) q) (pjac (affine (along 2) 0 (fast 1)) q)
      = ![![3 / 2 * (1 + q.1) ^ 2, 0], ![0, 0]] := by
    rw [fast_pjac, along_affine]
    funext i j
    rcases fin2_cases i with rfl | rfl <;> rcases fin2_cases j with rfl | rfl <;>
      simp [Planar.strain, Geometry.AcovPlanar]
    ring
  simp only [hm]
  have hN : planarLinear r t E ν (pjac (fast 1) q) (pjac (affine (along 2) 0 (fast 1)) q)
      = vec3 (t * ((Linear.Cconst E ν + 2 * Linear.mu E ν) * (3 / 2 * (1 + q.1) ^ 6)))
        (t * (Linear.Cconst E ν * (3 / 2 * (1 + q.1) ^ 4))) 0 := by
    funext k
    show Integrate.multiplyZ t 0 (fun _ => Linear.stress E ν (Geometry.storedAconPlanar (pjac (fast 1) q))
      (Planar.strain (pjac (fast 1) q) (pjac (affine (along 2) 0 (fast 1)) q)) k) = _
    rw [hA, he]
    rcases fin3_cases k with rfl | rfl | rfl <;>
      simp [Integrate.multiplyZ, Linear.stress, Linear.Sij, Linear.Cval] <;> ring
  rw [hN, along_affine, bubble_pjac]
  simp [Planar.internalForce, dotV, Fin.sum_univ_three, Planar.EmDer, Planar.dot2]
  ring

theorem linear_pos {E ν : ℝ} (hE : 0 < E) (h1 : -1 < ν) (h2 : ν < 1 / 2) :
    Linear.Cconst E ν + 2 * Linear.mu E ν ≠ 0 := by
  have h : Linear.Cconst E ν + 2 * Linear.mu E ν = E / (1 - ν ^ 2) := by
    have a1 : 1 + ν ≠ 0 := by linarith
    have a2 : 1 - 2 * ν ≠ 0 := by linarith
    have a3 : 1 - ν ≠ 0 := by linarith
    have a4 : 1 - ν ^ 2 ≠ 0 := by
      have : 1 - ν ^ 2 = (1 - ν) * (1 + ν) := by ring
      rw [this]; exact mul_ne_zero a3 a1
    have a5 : Linear.lam E ν + 2 * Linear.mu E ν = E * (1 - ν) / ((1 + ν) * (1 - 2 * ν)) := by
      simp only [Linear.lam, Linear.mu]
      generalize hk : 1 - 2 * ν = k at *
      field_simp
      rw [← hk]; ring
    rw [Linear.Cconst, a5]
    simp only [Linear.lam, Linear.mu]
    have e : 1 - ν ^ 2 = (1 - ν) * (1 + ν) := by ring
    rw [e]
    generalize hk : 1 - 2 * ν = k at *
    field_simp
    ring
  rw [h]
  have : 0 < 1 - ν ^ 2 := by nlinarith
  positivity

/-! ## The shortcut -/

section
variable (M : Planar.Material) (P : T2) (g1 g2 g3 : Fin 2 → ℝ) (f : Fin 2 → V3) (r : Rule) (t : ℝ)

/-- Metrics of the stretched sheet. -/
noncomputable def metrics (P : T2) (f : Fin 2 → V3) : Data := data (co P ![![1, 0], ![0, 1]]) (co P fun i j => dot (f i) (f j))

theorem law_metrics (z : ℝ) :
    (M.law (Linear.reparam P g1 g2 g3 flatS)).stress z (Gblock (Linear.reparam P g1 g2 g3 (fS f)) z)
      = M.stress (metrics P f) := by
  show M.stress (data (Gblock _ z) (Gblock _ z)) = _
  rw [Gblock_flat, Gblock_fS]; rfl

theorem shortcut_off (h : ¬ Shortcut.allClose (metrics P f).Gori (metrics P f).gcon (1 / 10 ^ 12)) :
    let S := lawSection (shortcut M).law r t (Linear.reparam P g1 g2 g3 flatS) (Linear.reparam P g1 g2 g3 (fS f));
    let S' := lawSection M.law r t (Linear.reparam P g1 g2 g3 flatS) (Linear.reparam P g1 g2 g3 (fS f));
    S.N = S'.N ∧ S.M = S'.M := by
  have e : (shortcut M).stress (metrics P f) = M.stress (metrics P f) := by
    funext i j; simp only [shortcut, if_neg h]
  constructor <;> funext k <;>
    simp only [lawSection, resultant, law_metrics, e]

theorem shortcut_on (h : Shortcut.allClose (metrics P f).Gori (metrics P f).gcon (1 / 10 ^ 12)) :
    let S := lawSection (shortcut M).law r t (Linear.reparam P g1 g2 g3 flatS) (Linear.reparam P g1 g2 g3 (fS f));
    S.N = (fun _ => 0) ∧ S.M = fun _ => 0 := by
  have e : (shortcut M).stress (metrics P f) = fun _ _ => 0 := by
    funext i j; simp only [shortcut, if_pos h]
  have e2 : ∀ k, stressV (fun _ _ => 0) k = 0 := by
    intro k; rcases fin3_cases k with rfl | rfl | rfl <;> simp [stressV]
  constructor <;> funext k <;>
    simp [lawSection, resultant, law_metrics, e, e2, Integrate.integrateZ]

end

theorem metrics_eq {a b : ℝ} {X : ℝ × ℝ → V3} (h : Sheet a b X) (f : Fin 2 → V3) (c : V3) (q : ℝ × ℝ) :
    data (Acov (jet X q)) (Acov (jet (affine f c X) q)) = metrics (par X q) f := by
  rw [jet_affine h.smooth, jet_sheet h.smooth h.plane, metrics]
  have e : ∀ g1 g2 g3 s, Acov (Linear.reparam (par X q) g1 g2 g3 s) = co (par X q) (Acov s) := fun g1 g2 g3 s => by
    rw [Linear.Acov_reparam]; funext i j; rw [co_eq]
  rw [e, e, flat_Acov]; rfl

theorem shortcut_eq {a b : ℝ} {X : ℝ × ℝ → V3} (h : Sheet a b X) (M : Planar.Material) (r : Rule) (t : ℝ)
    (f : Fin 2 → V3) (c : V3) (v : ℝ × ℝ → V3)
    (hn : ∀ q ∈ rect a b, ¬ Shortcut.allClose (data (Acov (jet X q)) (Acov (jet (affine f c X) q))).Gori
      (data (Acov (jet X q)) (Acov (jet (affine f c X) q))).gcon (1 / 10 ^ 12)) :
    residualForm X (affine f c X) (lawSection (shortcut M).law r t) 0 (rect a b) v
      = residualForm X (affine f c X) (lawSection M.law r t) 0 (rect a b) v := by
  unfold residualForm
  refine setIntegral_congr_fun (measurableSet_Icc.prod measurableSet_Icc) fun q hq => ?_
  have hA := metrics_eq h f c q
  have hq' := hn q hq
  rw [hA] at hq'
  have := shortcut_off M (par X q) (xy (vpd 0 (vpd 0 X) q)) (xy (vpd 1 (vpd 1 X) q)) (xy (vpd 1 (vpd 0 X) q)) f r t hq'
  simp only [jet_affine h.smooth, jet_sheet h.smooth h.plane, this.1, this.2]

theorem fast_par (k : ℝ) (q : ℝ × ℝ) : par (fast k) q = ![![1 + k * q.1, 0], ![0, 1]] := fast_pjac k q

theorem along_dot (l : ℝ) : (fun i j => dot (along l i) (along l j)) = (![![l ^ 2, 0], ![0, 1]] : T2) := by
  funext i j
  rcases fin2_cases i with rfl | rfl <;> rcases fin2_cases j with rfl | rfl <;> simp [along, dot]
  ring

theorem fast_metrics {g l : ℝ} (hg : 0 < g) (hl : 0 < l) :
    (metrics ![![g, 0], ![0, 1]] (along l)).Gori = embed ![![1 / g ^ 2, 0], ![0, 1]] ∧
    (metrics ![![g, 0], ![0, 1]] (along l)).gcon = embed ![![1 / (g ^ 2 * l ^ 2), 0], ![0, 1]] := by
  have e : ∀ m : ℝ, 0 < m → inv2 (co ![![g, 0], ![0, 1]] ![![m, 0], ![0, 1]]) = ![![1 / (g ^ 2 * m), 0], ![0, 1]] := by
    intro m hm
    funext i j
    rcases fin2_cases i with rfl | rfl <;> rcases fin2_cases j with rfl | rfl <;>
      simp [inv2, co, det2, Fin.sum_univ_two]
    · left; ring
    · exact ⟨hg.ne', hm.ne'⟩
  constructor
  · show embed (inv2 (co _ _)) = _
    rw [e 1 one_pos, mul_one]
  · show embed (inv2 (co _ _)) = _
    rw [along_dot, e _ (by positivity)]

theorem fast_close {g : ℝ} (hg : 6 * 10 ^ 5 ≤ g) :
    Shortcut.allClose (metrics ![![g, 0], ![0, 1]] (along (5 / 4))).Gori
      (metrics ![![g, 0], ![0, 1]] (along (5 / 4))).gcon (1 / 10 ^ 12) := by
  have h0 : 0 < g := by linarith
  rw [(fast_metrics h0 (by norm_num)).1, (fast_metrics h0 (by norm_num)).2]
  refine Shortcut.allClose_of _ _ fun a b => ?_
  have h2 : (6 * 10 ^ 5) ^ 2 ≤ g ^ 2 := by gcongr
  rcases fin2_cases a with rfl | rfl <;> rcases fin2_cases b with rfl | rfl
  · have e : (![![1 / g ^ 2, 0], ![0, 1]] : T2) 0 0 - (![![1 / (g ^ 2 * (5 / 4) ^ 2), 0], ![0, 1]] : T2) 0 0
        = (9 / 25) / g ^ 2 := by
      simp; field_simp; norm_num
    rw [e, abs_of_pos (by positivity), div_le_div_iff₀ (by positivity) (by positivity)]
    linarith
  all_goals simp

theorem fast_far {g : ℝ} (h1 : 1 ≤ g) (hg : g < 6 * 10 ^ 5) :
    ¬ Shortcut.allClose (metrics ![![g, 0], ![0, 1]] (along (5 / 4))).Gori
      (metrics ![![g, 0], ![0, 1]] (along (5 / 4))).gcon (1 / 10 ^ 12) := by
  have h0 : 0 < g := by linarith
  rw [(fast_metrics h0 (by norm_num)).1, (fast_metrics h0 (by norm_num)).2]
  have h2 : g ^ 2 < (6 * 10 ^ 5) ^ 2 := by gcongr
  have h3 : 1 ≤ g ^ 2 := one_le_pow₀ h1
  have b1 : 1 / g ^ 2 ≤ 1 := by rw [div_le_one (by positivity)]; exact h3
  have b2 : 1 / (g ^ 2 * (5 / 4) ^ 2) ≤ 1 := by rw [div_le_one (by positivity)]; linarith
  refine Shortcut.not_allClose _ _ ⟨?_, by simp, by simp, by simp⟩ ⟨?_, by simp, by simp, by simp⟩ ?_
  · show |1 / g ^ 2| ≤ 1
    rw [abs_of_pos (by positivity)]; exact b1
  · show |1 / (g ^ 2 * (5 / 4) ^ 2)| ≤ 1
    rw [abs_of_pos (by positivity)]; exact b2
  · have e : (![![1 / g ^ 2, 0], ![0, 1]] : T2) 0 0 - (![![1 / (g ^ 2 * (5 / 4) ^ 2), 0], ![0, 1]] : T2) 0 0
        = (9 / 25) / g ^ 2 := by
      simp; field_simp; norm_num
    rw [e, div_lt_div_iff₀ (by positivity) (by positivity)]
    linarith

theorem neo_sheetS (p : Par) : sheetS (neo p) (along (5 / 4)) 0 0 = p.mu * (369 / 625) ∧
    sheetS (neo p) (along (5 / 4)) 0 1 = 0 ∧ sheetS (neo p) (along (5 / 4)) 1 0 = 0 := by
  simp only [sheetS, along_dot, neo, sNH, up_zero, up_one, data, embed_00, embed_01, embed_10]
  refine ⟨?_, ?_, ?_⟩ <;> simp [inv2, det2]
  left
  norm_num

theorem int_cut {c : ℝ} (h0 : 0 ≤ c) (h1 : c ≤ 1) :
    ∫ x in Set.Icc (0 : ℝ) 1, (if x < c then 1 - 2 * x else 0) = c * (1 - c) := by
  have e : (fun x : ℝ => if x < c then 1 - 2 * x else 0) = (Set.Iio c).indicator fun x => 1 - 2 * x := by
    funext x; simp [Set.indicator]
  rw [e, setIntegral_indicator measurableSet_Iio]
  have hs : Set.Icc (0 : ℝ) 1 ∩ Set.Iio c = Set.Ico 0 c := by
    ext x; simp only [Set.mem_inter_iff, Set.mem_Icc, Set.mem_Iio, Set.mem_Ico]
    constructor
    · rintro ⟨⟨a, -⟩, b⟩; exact ⟨a, b⟩
    · rintro ⟨a, b⟩; exact ⟨⟨a, by linarith⟩, b⟩
  rw [hs, integral_Ico_eq_integral_Ioc, ← intervalIntegral.integral_of_le h0]
  have h : ∀ x : ℝ, HasDerivAt (fun x : ℝ => x * (1 - x)) (1 - 2 * x) x := by
    intro x
    refine ((hasDerivAt_id' x).fun_mul ((hasDerivAt_id' x).const_sub 1)).congr_deriv ?_
    ring
  rw [intervalIntegral.integral_eq_sub_of_hasDerivAt (fun x _ => h x)
    (Continuous.intervalIntegrable (by fun_prop) _ _)]
  simp

theorem shortcut_residual (p : Par) {r : Rule} (hr : Centred r) (t : ℝ) :
    residualForm (fast (10 ^ 6)) (affine (along (5 / 4)) 0 (fast (10 ^ 6))) (lawSection (shortcut (neo p)).law r t) 0
        (rect 1 1) bubble
      = -(t * p.mu * (369 / 500)) * ((6 / 10 - 1 / 10 ^ 6) * (1 - (6 / 10 - 1 / 10 ^ 6)) * (1 / 6)) := by
  have hb : ∫ y in Set.Icc (0 : ℝ) 1, y * (1 - y) = 1 / 6 := by
    rw [integral_Icc_eq_integral_Ioc, ← intervalIntegral.integral_of_le zero_le_one, int_bubble]
  rw [← int_cut (c := 6 / 10 - 1 / 10 ^ 6) (by norm_num) (by norm_num), ← hb, ← setIntegral_prod_mul, ← integral_const_mul]
  unfold residualForm
  refine setIntegral_congr_fun (measurableSet_Icc.prod measurableSet_Icc) fun q hq => ?_
  set X := fast (10 ^ 6) with hX
  have hS : Sheet 1 1 X := fast_sheet (by positivity)
  have hq0 : 0 ≤ q.1 := hq.1.1
  have hg : 0 < 1 + 10 ^ 6 * q.1 := by positivity
  have hp : par X q = ![![1 + 10 ^ 6 * q.1, 0], ![0, 1]] := fast_par _ q
  have hd : det2 (par X q) = 1 + 10 ^ 6 * q.1 := by rw [hp]; simp [det2]
  have hd0 : det2 (par X q) ≠ 0 := by rw [hd]; exact hg.ne'
  simp only [jet_affine hS.smooth, jet_sheet hS.smooth hS.plane, measure_sheet]
  rw [hd, abs_of_pos hg]
  generalize xy (vpd 0 (vpd 0 X) q) = g1
  generalize xy (vpd 1 (vpd 1 X) q) = g2
  generalize xy (vpd 1 (vpd 0 X) q) = g3
  by_cases hc : q.1 < 6 / 10 - 1 / 10 ^ 6
  · have hf := fast_far (g := 1 + 10 ^ 6 * q.1) (by nlinarith) (by
      have := mul_lt_mul_of_pos_left hc (show (0 : ℝ) < 10 ^ 6 by norm_num)
      norm_num at this ⊢; linarith)
    rw [← hp] at hf
    have so := shortcut_off (neo p) (par X q) g1 g2 g3 (along (5 / 4)) r t hf
    obtain ⟨hn, hm⟩ := hyper_uniform (neo_tensorial p) hr t (along (5 / 4)) (par X q) g1 g2 g3 hd0
    rw [so.1, so.2, hn, hm, if_pos hc]
    have w := work_point (par X q) (fun i j => t * sheetS (neo p) (along (5 / 4)) i j) g1 g2 g3 (along (5 / 4)) (jet bubble q)
      (sheetS_symm (neo_tensorial p) t _) hd0
    have e : ∀ i, (jet bubble q).a i = vpd i bubble q := fun _ => rfl
    obtain ⟨n1, n2, n3⟩ := neo_sheetS p
    simp only [e, tr, n1, n2, n3, (bubble_vpd q).1, (bubble_vpd q).2, hd] at w
    rw [hp] at w
    simp [dot, along] at w
    have hi : ∀ (N : Voigt) (s u : Surf), internalForce s u N (fun _ => 0) = -dotV N (EmDer s u) := by
      intro N s u; simp [internalForce, dotV]
    simp only [hi, WeakForms.pressVec]
    rw [hp]
    linear_combination -w
  · have hf := fast_close (g := 1 + 10 ^ 6 * q.1) (by
      have := mul_le_mul_of_nonneg_left (not_lt.1 hc) (show (0 : ℝ) ≤ 10 ^ 6 by norm_num)
      norm_num at this ⊢; linarith)
    rw [← hp] at hf
    have so := shortcut_on (neo p) (par X q) g1 g2 g3 (along (5 / 4)) r t hf
    rw [so.1, so.2, if_neg hc]
    simp [internalForce, dotV, WeakForms.pressVec]

end Verif.PatchTest
