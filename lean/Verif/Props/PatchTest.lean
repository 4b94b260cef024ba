import Verif.Lemmas.PatchTestMore
import Verif.Props.Newton

/-!
# Claim C144: the patch test

A flat sheet with any regular parametrisation, stretched uniformly, without loads inside: the residual of the
discrete problem balances the tractions at the boundary, for every test function.
-/

namespace Verif.PatchTest

open V3 Geometry Fields Verif.Hyper Verif.ShellTangent
open Spec.Balloon Spec.Plate Spec.PatchTest Verif.Plate Verif.Reparam
open Verif.Integrate (Rule)

/-- The linear shell passes the patch test for every regular parametrisation of the plane, every affine
deformation and every test function: with the tractions of the energy of the sheet on the sides, the residual
vanishes. -/
theorem C144_linear (r : Rule) (t : ℝ) {E ν : ℝ} (hE : 0 < E) (h1 : -1 < ν) (h2 : ν < 1 / 2) (f : Fin 2 → V3) :
    ∃ T, IsPiola (energyLinear E ν t) f T ∧
      ∀ (a b : ℝ) (X v : ℝ × ℝ → V3) (c : V3), 0 ≤ a → 0 ≤ b → Sheet a b X →
        (∀ g, SmoothOn 2 v Set.univ → Loaded a b X T g →
          residualForm X (affine f c X) (linearSection r t E ν) 0 (rect a b) v + neumannForm a b X g v = 0) ∧
        (Pinned a b v → residualForm X (affine f c X) (linearSection r t E ν) 0 (rect a b) v = 0) :=
  ⟨tr (linN t E ν f) f, linear_piola hE.ne' (by linarith) (by linarith) (by linarith) t f,
    fun _ _ _ _ c ha hb hX => ⟨fun _ hv hg => balance ha hb hX (linN_symm t E ν f) (linear_uniform r t E ν f) c hv hg,
      fun hv => pinned ha hb hX (linN_symm t E ν f) (linear_uniform r t E ν f) c hv⟩⟩

/-- The incompressible neo-Hookean and Mooney–Rivlin shells pass the patch test, with a rule through the
thickness that is exact for linear functions, where the zero-stress shortcut is not taken.  Missing: the shortcut. -/
theorem C144_hyper_partial (p : Par) {r : Rule} (hr : ∑ j, r.w j = 1) (hc : ∑ j, r.w j * r.ξ j = 0) (t : ℝ)
    {f : Fin 2 → V3} (hf : area2 f ≠ 0) (M : Planar.Material) (W : (Fin 2 → V3) → ℝ)
    (hM : (M = neo p ∧ W = energyNeo p.mu t) ∨ (M = mooney p ∧ W = energyMooney p.c1 p.c2 t)) :
    ∃ T, IsPiola W f T ∧
      ∀ (a b : ℝ) (X v : ℝ × ℝ → V3) (c : V3), 0 ≤ a → 0 ≤ b → Sheet a b X →
        (∀ q ∈ rect a b, ¬ Shortcut.allClose (data (Acov (jet X q)) (Acov (jet (affine f c X) q))).Gori
          (data (Acov (jet X q)) (Acov (jet (affine f c X) q))).gcon (1 / 10 ^ 12)) →
        (∀ g, SmoothOn 2 v Set.univ → Loaded a b X T g →
          residualForm X (affine f c X) (lawSection (shortcut M).law r t) 0 (rect a b) v
            + neumannForm a b X g v = 0) ∧
        (Pinned a b v → residualForm X (affine f c X) (lawSection (shortcut M).law r t) 0 (rect a b) v = 0) := by
  have hm : Tensorial M ∧ IsPiola W f (tr (fun i j => t * sheetS M f i j) f) := by
    rcases hM with ⟨rfl, rfl⟩ | ⟨rfl, rfl⟩
    · exact ⟨neo_tensorial p, neo_piola p t hf⟩
    · exact ⟨mooney_tensorial p, mooney_piola p t hf⟩
  refine ⟨_, hm.2, fun a b X v c ha hb hX hn => ?_⟩
  rw [shortcut_eq hX M r t f c v hn]
  exact ⟨fun _ hv hg => balance ha hb hX (sheetS_symm hm.1 t f) (hyper_uniform hm.1 ⟨hr, hc⟩ t f) c hv hg,
    fun hv => pinned ha hb hX (sheetS_symm hm.1 t f) (hyper_uniform hm.1 ⟨hr, hc⟩ t f) c hv⟩

/-- The compressible shells pass the patch test with the tractions of the stress at the thickness stretch that
the iteration finds for the unit square.  Missing: the shortcut, an iteration that fails. -/
theorem C144_compressible_partial (p : Par) (s : CData → Fin 3 → Fin 3 → ℝ)
    (k : CData → Fin 3 → Fin 3 → Fin 3 → Fin 3 → ℝ) (hs : Compressible p s k) {r : Rule}
    (hr : ∑ j, r.w j = 1) (hc : ∑ j, r.w j * r.ξ j = 0) (t : ℝ) (f : Fin 2 → V3) (x : ℝ)
    (hx : Newton.c33Of s k (data ![![1, 0], ![0, 1]] fun i j => dot (f i) (f j)) = .ok x) (T : Fin 2 → V3)
    (hT : ∀ j, T j = (t * s (cdata (data ![![1, 0], ![0, 1]] fun i j => dot (f i) (f j)) x) 0 (up j)) • f 0
      + (t * s (cdata (data ![![1, 0], ![0, 1]] fun i j => dot (f i) (f j)) x) 1 (up j)) • f 1)
    (a b : ℝ) (X v : ℝ × ℝ → V3) (c : V3) (ha : 0 ≤ a) (hb : 0 ≤ b) (hX : Sheet a b X) :
    (∀ g, SmoothOn 2 v Set.univ → Loaded a b X T g →
      residualForm X (affine f c X) (lawSection (compressible s k).law r t) 0 (rect a b) v
        + neumannForm a b X g v = 0) ∧
    (Pinned a b v → residualForm X (affine f c X) (lawSection (compressible s k).law r t) 0 (rect a b) v = 0) := by
  have hM := compressible_tensorial hs
  have e : T = tr (fun i j => t * sheetS (compressible s k) f i j) f := by
    funext j
    rw [hT]
    simp only [tr, sheetS, compressible, hx, up_zero, up_one]
  rw [e]
  exact ⟨fun _ hv hg => balance ha hb hX (sheetS_symm hM t f) (hyper_uniform hM ⟨hr, hc⟩ t f) c hv hg,
    fun hv => pinned ha hb hX (sheetS_symm hM t f) (hyper_uniform hM ⟨hr, hc⟩ t f) c hv⟩

/-- The planar code with the incompressible materials passes the patch test for deformations and test functions
in the plane.  Missing: the linear material, the shortcut. -/
theorem C144_planar_partial (p : Par) {r : Rule} (hr : ∑ j, r.w j = 1) (hc : ∑ j, r.w j * r.ξ j = 0) (t : ℝ)
    {f : Fin 2 → V3} (hz : ∀ i, (f i).z = 0) (hf : (f 0).x * (f 1).y - (f 0).y * (f 1).x ≠ 0) (M : Planar.Material)
    (W : (Fin 2 → V3) → ℝ)
    (hM : (M = neo p ∧ W = energyNeo p.mu t) ∨ (M = mooney p ∧ W = energyMooney p.c1 p.c2 t)) :
    ∃ T, IsPiola W f T ∧
      ∀ (a b : ℝ) (X v : ℝ × ℝ → V3) (c : V3), 0 ≤ a → 0 ≤ b → Sheet a b X → c.z = 0 → (∀ q, (v q).z = 0) →
        (∀ g, SmoothOn 2 v Set.univ → Loaded a b X T g →
          planarResidual X (affine f c X) (Planar.resultant M r t 0) (rect a b) v + neumannForm a b X g v = 0) ∧
        (Pinned a b v → planarResidual X (affine f c X) (Planar.resultant M r t 0) (rect a b) v = 0) := by
  have ha2 : area2 f ≠ 0 := by
    have : area2 f = ((f 0).x * (f 1).y - (f 0).y * (f 1).x) ^ 2 := by
      simp only [area2, dot, hz]; ring
    rw [this]; exact pow_ne_zero 2 hf
  have hm : Tensorial M ∧ IsPiola W f (tr (fun i j => t * sheetS M f i j) f) := by
    rcases hM with ⟨rfl, rfl⟩ | ⟨rfl, rfl⟩
    · exact ⟨neo_tensorial p, neo_piola p t ha2⟩
    · exact ⟨mooney_tensorial p, mooney_piola p t ha2⟩
  refine ⟨_, hm.2, fun a b X v c ha hb hX hcz hvz => ?_⟩
  rw [planar_eq hX hz hf hcz hvz M r t]
  exact ⟨fun _ hv hg => balance ha hb hX (sheetS_symm hm.1 t f) (hyper_uniform hm.1 ⟨hr, hc⟩ t f) c hv hg,
    fun hv => pinned ha hb hX (sheetS_symm hm.1 t f) (hyper_uniform hm.1 ⟨hr, hc⟩ t f) c hv⟩

/-- The planar code with the linear material fails the patch test: the unit strip parametrised by
`x = ξ + ξ²/2`, stretched to twice its length, has a residual at a test function that vanishes on the boundary. -/
theorem C144_planar_violated (r : Rule) {t E ν : ℝ} (ht : t ≠ 0) (hE : 0 < E) (h1 : -1 < ν) (h2 : ν < 1 / 2) :
    ∃ (X v : ℝ × ℝ → V3) (f : Fin 2 → V3), Sheet 1 1 X ∧ (∀ i, (f i).z = 0) ∧ (∀ q, (v q).z = 0) ∧ Pinned 1 1 v ∧
      planarResidual X (affine f 0 X) (planarLinear r t E ν) (rect 1 1) v ≠ 0 := by
  refine ⟨fast 1, bubble, along 2, fast_sheet zero_le_one, fun i => ?_, fun _ => rfl, bubble_pinned, ?_⟩
  · rcases fin2_cases i with rfl | rfl <;> simp [along]
  · rw [planar_linear_residual]
    exact mul_ne_zero (mul_ne_zero (mul_ne_zero (by norm_num) ht) (linear_pos hE h1 h2)) (by norm_num)

/-- With the zero-stress shortcut the neo-Hookean shell fails the patch test: on a strip whose parametrisation
gets faster along `x`, stretched by 5/4, the stress is dropped where the parametrisation is fast. -/
theorem C144_shortcut_violated (p : Par) (hp : 0 < p.mu) {r : Rule} (hr : ∑ j, r.w j = 1)
    (hc : ∑ j, r.w j * r.ξ j = 0) {t : ℝ} (ht : t ≠ 0) :
    ∃ (X v : ℝ × ℝ → V3) (f : Fin 2 → V3), Sheet 1 1 X ∧ area2 f ≠ 0 ∧ Pinned 1 1 v ∧
      residualForm X (affine f 0 X) (lawSection (shortcut (neo p)).law r t) 0 (rect 1 1) v ≠ 0 := by
  refine ⟨fast (10 ^ 6), bubble, along (5 / 4), fast_sheet (by positivity), by simp [area2, along, dot], bubble_pinned, ?_⟩
  rw [shortcut_residual p ⟨hr, hc⟩ t]
  exact mul_ne_zero (neg_ne_zero.2 (mul_ne_zero (mul_ne_zero ht hp.ne') (by norm_num))) (by norm_num)

/-! ## The hypotheses can be met -/

/-- A curved parametrisation of the plane. -/
noncomputable def swirl (q : ℝ × ℝ) : V3 := ⟨q.1 + q.1 * q.2, q.2 - q.1 ^ 2, 0⟩

theorem swirl_sheet : Sheet 1 1 swirl where
  smooth := by
    refine ⟨?_, ?_, contDiffOn_const⟩ <;> unfold swirl <;> exact ContDiff.contDiffOn (by fun_prop)
  plane _ := rfl
  regular := by
    intro q hq
    have hx : Differentiable ℝ fun q : ℝ × ℝ => q.1 + q.1 * q.2 := by fun_prop
    have hy : Differentiable ℝ fun q : ℝ × ℝ => q.2 - q.1 ^ 2 := by fun_prop
    have e1 : (vpd 0 swirl q).x = 1 + q.2 := pd0 hx q
      (((hasDerivAt_id' q.1).fun_add ((hasDerivAt_id' q.1).mul_const q.2)).congr_deriv (by ring))
    have e2 : (vpd 0 swirl q).y = -(2 * q.1) := pd0 hy q
      (((hasDerivAt_id' q.1).fun_pow 2).const_sub q.2 |>.congr_deriv (by simp))
    have e3 : (vpd 1 swirl q).x = q.1 := pd1 hx q
      (((hasDerivAt_id' q.2).const_mul q.1).const_add q.1 |>.congr_deriv (by ring))
    have e4 : (vpd 1 swirl q).y = 1 := pd1 hy q ((hasDerivAt_id' q.2).sub_const (q.1 ^ 2))
    rw [e1, e2, e3, e4]
    have := hq.2.1
    nlinarith [sq_nonneg q.1]

/-- One point, in the middle. -/
def midpoint : Rule := ⟨1, fun _ => 0, fun _ => 1⟩

theorem midpoint_centred : ∑ j, midpoint.w j = 1 ∧ ∑ j, midpoint.w j * midpoint.ξ j = 0 := by
  constructor
  · show ∑ _j : Fin 1, (1 : ℝ) = 1
    simp
  · show ∑ _j : Fin 1, (1 : ℝ) * 0 = 0
    simp

/-- Stretch and shear. -/
def sheared (i : Fin 2) : V3 := if i = 0 then ⟨2, 0, 1⟩ else ⟨1, 3, 0⟩

example (E ν t : ℝ) (hE : 0 < E) (h1 : -1 < ν) (h2 : ν < 1 / 2) :
    residualForm swirl (affine sheared 0 swirl) (linearSection midpoint t E ν) 0 (rect 1 1) bubble = 0 := by
  obtain ⟨T, -, h⟩ := C144_linear midpoint t hE h1 h2 sheared
  exact (h 1 1 swirl bubble 0 zero_le_one zero_le_one swirl_sheet).2 bubble_pinned

example (p : Par) (t : ℝ) :
    residualForm (fast 0) (affine (along (5 / 4)) 0 (fast 0)) (lawSection (shortcut (mooney p)).law midpoint t) 0
      (rect 1 1) bubble = 0 := by
  obtain ⟨T, -, h⟩ := C144_hyper_partial p midpoint_centred.1 midpoint_centred.2 t
    (f := along (5 / 4)) (by simp [area2, along, dot]) (mooney p) _ (Or.inr ⟨rfl, rfl⟩)
  refine (h 1 1 (fast 0) bubble 0 zero_le_one zero_le_one (fast_sheet le_rfl) fun q _ => ?_).2 bubble_pinned
  rw [metrics_eq (fast_sheet le_rfl), fast_par]
  exact fast_far (by simp) (by norm_num)

/-- The material of the example in `Props/Newton`, stretched by `√2`. -/
example (t : ℝ) : residualForm swirl (affine (along √2) 0 swirl)
    (lawSection (compressible (sNHe ⟨8 / 3, 1 / 3, 1⟩) (cNHe ⟨8 / 3, 1 / 3, 1⟩)).law midpoint t) 0 (rect 1 1) bubble = 0 := by
  have hmu : Par.mu ⟨8 / 3, 1 / 3, 1⟩ = 1 := by simp only [Par.mu]; norm_num
  have hlam : Par.lam ⟨8 / 3, 1 / 3, 1⟩ = 2 := by simp only [Par.lam]; norm_num
  have hJ : (data ![![1, 0], ![0, 1]] ![![2, 0], ![0, 1]]).J0 = 2 := by simp [data, det2]
  obtain ⟨x, h1, -⟩ := Newton.C52_NHext_converges ⟨8 / 3, 1 / 3, 1⟩ ![![1, 0], ![0, 1]]
    ![![2, 0], ![0, 1]] (by rw [hJ]; norm_num) (by rw [hmu, hlam, hJ]; norm_num)
    (by rw [hmu, hlam]; norm_num)
    (by
      rw [hmu, hlam, hJ, show (1 : ℝ) - (1 + 2 * 2 / 2) / (1 + 2 / 2) * (1 / 2) = 1 / 4 by
        norm_num, abs_of_pos (by norm_num)]
      norm_num)
    (by rw [hmu, hlam, hJ]; norm_num)
  refine (C144_compressible_partial _ _ _ (Or.inr (Or.inr ⟨rfl, rfl⟩)) midpoint_centred.1 midpoint_centred.2 t (along √2) x
    (by rw [along_dot]; simpa using h1) _ (fun _ => rfl) 1 1 swirl bubble 0 zero_le_one zero_le_one swirl_sheet).2
    bubble_pinned

example (p : Par) (t : ℝ) : planarResidual swirl (affine (along 2) 0 swirl) (Planar.resultant (neo p) midpoint t 0)
    (rect 1 1) bubble = 0 := by
  obtain ⟨T, -, h⟩ := C144_planar_partial p midpoint_centred.1 midpoint_centred.2 t (f := along 2)
    (fun i => by rcases fin2_cases i with rfl | rfl <;> simp [along]) (by simp [along]) (neo p) _ (Or.inl ⟨rfl, rfl⟩)
  exact (h 1 1 swirl bubble 0 zero_le_one zero_le_one swirl_sheet rfl fun _ => rfl).2 bubble_pinned

/-- Tractions on a sheet with the sides of the unit square, pulled along `x`. -/
example (σ : ℝ) : Loaded 1 1 (fast 0) (fun k => if k = 0 then ⟨σ, 0, 0⟩ else 0)
    (fun i e _ => if i = 0 then (if e then ⟨σ, 0, 0⟩ else ⟨-σ, 0, 0⟩) else 0) := by
  have h : ∀ q, vpd 0 (fast 0) q = ⟨1, 0, 0⟩ ∧ vpd 1 (fast 0) q = ⟨0, 1, 0⟩ := by
    intro q; have := fast_vpd 0 q; simpa using this
  have o : ∀ (i : Fin 2) (e : ℝ) q n, Outer (fast 0) i e q n →
      (i = 0 → n.y = 0 ∧ n.x * n.x = 1 ∧ 0 < e * n.x) ∧ (i = 1 → n.x = 0) := by
    intro i e q n hn
    have h1 := hn.plane; have h2 := hn.unit; have h3 := hn.perp; have h4 := hn.out
    constructor
    · rintro rfl
      have : (1 - 0 : Fin 2) = 1 := rfl
      rw [this, (h q).2] at h3; rw [(h q).1] at h4
      simp [dot] at h3 h4
      simp [dot, h1, h3] at h2
      exact ⟨h3, h2, h4⟩
    · rintro rfl
      have : (1 - 1 : Fin 2) = 0 := rfl
      rw [this, (h q).1] at h3
      simpa [dot] using h3
  constructor
  · intro y _ n hn
    obtain ⟨a1, a2, a3⟩ := (o _ _ _ _ hn).1 rfl
    have : n.x = 1 := by nlinarith
    ext <;> simp [traction, a1, this]
  · intro y _ n hn
    obtain ⟨a1, a2, a3⟩ := (o _ _ _ _ hn).1 rfl
    have : n.x = -1 := by nlinarith
    ext <;> simp [traction, a1, this]
  · intro x _ n hn
    have a1 := (o _ _ _ _ hn).2 rfl
    ext <;> simp [traction, a1]
  · intro x _ n hn
    have a1 := (o _ _ _ _ hn).2 rfl
    ext <;> simp [traction, a1]

end Verif.PatchTest
