import Verif.Lemmas.SameSheet
import Verif.Lemmas.PatchTestMore

/-!
# Claim C148: the same isotropic sheet through every material class

The same Young's modulus, Poisson's ratio and thickness, entered as the linear material, as a laminate, as the Saint
Venant–Kirchhoff branch of the non-linear class or as a hyperelastic material, give the same moduli in the linear
problem.
-/

namespace Verif.SameSheet

open V3 Geometry Verif.Hyper Spec.SameSheet
open Verif.Integrate (Rule)
open Verif.Reparam (Compressible)

/-- The linear material is the isotropic sheet, for every parametrisation and curvature. -/
theorem C148_linear (r : Rule) (t : ℝ) {E ν : ℝ} (h1 : 1 + ν ≠ 0) (h2 : 1 - 2 * ν ≠ 0) (h3 : 1 - ν ≠ 0) (s : Surf) :
    System.linearModuli r t E ν s = isotropic E ν t s.a := by
  rw [System.linearModuli, moduli_constant, Linear.matrix,
    planeMatrix_eq h1 h3 s (T := Linear.Cval E ν (Acon s)) (C47_linear E ν h1 h2 h3 (Acon s))]
  rfl

/-- The Saint Venant–Kirchhoff branch of the non-linear class is the isotropic sheet with a rule through the
thickness that is exact for squares. -/
theorem C148_svk (p : Par) {r : Rule} (hr : r.Exact 2) (t : ℝ) (h1 : 1 + p.ν ≠ 0) (h2 : 1 - 2 * p.ν ≠ 0)
    (h3 : 1 - p.ν ≠ 0) (s : Surf) : svkModuli p r t s = isotropic p.E p.ν t s.a := by
  rw [svkModuli, planeMatrix_eq h1 h3 s (T := cSvK p (Acon s)) (C47_SvK p (Acon s) h1 h2 h3),
    moduli_numeric hr t _ _ fun _ _ => rfl]
  rfl

/-- A laminate of isotropic plies from the ply constructor, of any number, thicknesses, angles and densities, is the
isotropic sheet of the total thickness where the tangents are orthogonal.  Missing: skew tangents. -/
theorem C148_laminate_partial (r : Rule) (t : ℝ) {E ν : ℝ} (h1 : 1 + ν ≠ 0) (h3 : 1 - ν ≠ 0) :
    ∃ G, Composite.orthotropic E E (E / (2 * (1 + ν))) ν ν = .ok G ∧
      ∀ (ls : List Composite.Layer) (s : Surf), (∀ l ∈ ls, l.G = G) → Indep (s.a 0) (s.a 1) →
        dot (s.a 0) (s.a 1) = 0 →
        System.laminateModuli r t ls s = isotropic E ν (ls.map Composite.Layer.t).sum s.a := by
  have hn : 1 - ν * ν ≠ 0 := by
    rw [show 1 - ν * ν = (1 + ν) * (1 - ν) by ring]; exact mul_ne_zero h1 h3
  refine ⟨plyMatrix E ν, ?_, fun ls s hl hi ho => ?_⟩
  · rw [Composite.orthotropic, if_pos rfl, if_neg hn]; rfl
  · rw [laminate_moduli h1 h3 r t ls hl s, toSurface_orthogonal h1 h3 s hi ho]
    rfl

/-- Wherever the tangents are skew, the same laminate has twice the right modulus between the second normal strain
and the shear, in membrane and in bending: it is never the isotropic sheet. -/
theorem C148_laminate_skew_violated (r : Rule) (t : ℝ) {E ν : ℝ} (hE : E ≠ 0) (h1 : 1 + ν ≠ 0) (h3 : 1 - ν ≠ 0)
    {G : T3} (hG : Composite.orthotropic E E (E / (2 * (1 + ν))) ν ν = .ok G) (ls : List Composite.Layer) (s : Surf)
    (hl : ∀ l ∈ ls, l.G = G) (ht : (ls.map Composite.Layer.t).sum ≠ 0) (hi : Indep (s.a 0) (s.a 1))
    (ho : dot (s.a 0) (s.a 1) ≠ 0) :
    let L := System.laminateModuli r t ls s
    let S := isotropic E ν (ls.map Composite.Layer.t).sum s.a
    L.A 1 2 = 2 * S.A 1 2 ∧ L.D 1 2 = 2 * S.D 1 2 ∧ L.A 1 2 ≠ S.A 1 2 ∧ L.D 1 2 ≠ S.D 1 2 := by
  intro L S
  have hn : 1 - ν * ν ≠ 0 := by
    rw [show 1 - ν * ν = (1 + ν) * (1 - ν) by ring]; exact mul_ne_zero h1 h3
  have hG' : G = plyMatrix E ν := by
    rw [Composite.orthotropic, if_pos rfl, if_neg hn] at hG
    exact (Outcome.ok.inj hG).symm
  obtain ⟨e, e2, hne⟩ := toSurface_skew (E := E) h1 h3 s hi
  have hL := laminate_moduli (E := E) h1 h3 r t ls (fun l h => (hl l h).trans hG') s
  have hk : planeMatrix E ν s.a 1 2 ≠ 0 := by
    rw [e2]
    refine mul_ne_zero (div_ne_zero hE ?_) (hne ho)
    rwa [pow_two]
  have hT : Composite.thickness ls = (ls.map Composite.Layer.t).sum := rfl
  have hA : L.A 1 2 = 2 * S.A 1 2 := by
    simp only [L, S, hL, isotropic, e, hT]; ring
  have hD : L.D 1 2 = 2 * S.D 1 2 := by
    simp only [L, S, hL, isotropic, e, hT]; ring
  have sA : S.A 1 2 ≠ 0 := mul_ne_zero ht hk
  have sD : S.D 1 2 ≠ 0 := mul_ne_zero (div_ne_zero (pow_ne_zero 3 ht) (by norm_num)) hk
  exact ⟨hA, hD, fun h => sA (by linarith), fun h => sD (by linarith)⟩

/-- The compressible hyperelastic materials on a flat shell are the isotropic sheet, with a rule through the
thickness that is exact for squares.  Missing: curved shells. -/
theorem C148_compressible_partial (p : Par) (hE : p.E ≠ 0) (h1 : 1 + p.ν ≠ 0) (h2 : 1 - 2 * p.ν ≠ 0)
    (h3 : 1 - p.ν ≠ 0) (hq : p.r + 1 ≠ 0) (σ : CData → Fin 3 → Fin 3 → ℝ)
    (c : CData → Fin 3 → Fin 3 → Fin 3 → Fin 3 → ℝ) (hc : Compressible p σ c) {r : Rule} (hr : r.Exact 2) (t : ℝ)
    (s : Surf) (hi : Indep (s.a 0) (s.a 1)) (hb : ∀ i j, Bcov s i j = 0) :
    hyperModuli (PatchTest.compressible σ c) r t s = isotropic p.E p.ν t s.a := by
  refine hyper_flat h1 h3 (fun A hA hs i j k l => ?_) hr t s hi hb
  have hl := lam_two_mu_ne hE h1 h2 h3
  obtain ⟨t1, t2, t3⟩ := transverse hA hs h1 h2 hq
  obtain ⟨c1, c2, c3⟩ := C47_compressible p A hA hs hE h1 h2 h3 hq i j k l
  have hx : Newton.c33Of σ c (data A A) = .ok 1 := by
    refine Newton.C52_reference p A hA hs σ c hc ?_
    rcases hc with ⟨-, rfl⟩ | ⟨-, rfl⟩ | ⟨-, rfl⟩
    · rw [t1]; exact hl
    · rw [t2]; exact hl
    · rw [t3]; exact hl
  simp only [PatchTest.compressible, hx]
  rcases hc with ⟨-, rfl⟩ | ⟨-, rfl⟩ | ⟨-, rfl⟩
  · exact c1
  · exact c2
  · exact c3

/-- The incompressible materials with Poisson's ratio one half on a flat shell.  Missing: curved shells. -/
theorem C148_incompressible_partial (E q : ℝ) (hq : q + 1 ≠ 0) (M : Planar.Material)
    (hM : M = PatchTest.neo ⟨E, 1 / 2, q⟩ ∨ M = PatchTest.mooney ⟨E, 1 / 2, q⟩) {r : Rule} (hr : r.Exact 2) (t : ℝ)
    (s : Surf) (hi : Indep (s.a 0) (s.a 1)) (hb : ∀ i j, Bcov s i j = 0) :
    hyperModuli M r t s = isotropic E (1 / 2) t s.a := by
  refine hyper_flat (by norm_num) (by norm_num) (fun A hA hs i j k l => ?_) hr t s hi hb
  have := C47_incompressible_half E q A hA hs hq i j k l
  rcases hM with rfl | rfl
  · exact this.1
  · exact this.2

/-- On a cylinder the incompressible neo-Hookean sheet is stiffer than the isotropic sheet, for every curvature,
thickness and rule with nodes inside the thickness: the non-linear class evaluates the metric at every height, the
linear one only at the middle. -/
theorem C148_curved_violated {E t κ : ℝ} (hE : 0 < E) (ht : 0 < t) (hκ : κ ≠ 0) (hκt : |κ| * t < 2) {r : Rule}
    (hr : r.Exact 2) (hw : ∀ j, 0 ≤ r.w j) (hξ : ∀ j, |r.ξ j| ≤ 1 / 2) (q : ℝ) :
    (isotropic E (1 / 2) t (ShellTangent.curved κ).a).A 0 0
      < (hyperModuli (PatchTest.neo ⟨E, 1 / 2, q⟩) r t (ShellTangent.curved κ)).A 0 0 := by
  have hx : ∀ j, |κ * (r.ξ j * t)| < 1 := by
    intro j
    rw [abs_mul, abs_mul, abs_of_pos ht]
    calc |κ| * (|r.ξ j| * t) = |κ| * t * |r.ξ j| := by ring
      _ ≤ |κ| * t * (1 / 2) := by
        exact mul_le_mul_of_nonneg_left (hξ j) (by positivity)
      _ < 1 := by linarith
  rw [curved_modulus _ r t κ fun j h => by have := hx j; rw [h] at this; norm_num at this]
  have m0 : ∑ j, r.w j = 1 := by
    have := hr 0 (by norm_num); simp at this; norm_num at this; exact this
  have m1 : ∑ j, r.w j * r.ξ j = 0 := by
    have := hr 1 (by norm_num); simp at this; simpa using this
  have m2 : ∑ j, r.w j * r.ξ j ^ 2 = 1 / 12 := by
    have := hr 2 (by norm_num); rw [integral_pow] at this; norm_num at this ⊢; exact this
  have hmu : Par.mu ⟨E, 1 / 2, q⟩ = E / 3 := by simp only [Par.mu]; norm_num
  have hs : (isotropic E (1 / 2) t (ShellTangent.curved κ).a).A 0 0
      = ∑ j, r.w j * (4 * (E / 3) * (1 + 4 * (κ * (r.ξ j * t)))) * t := by
    have e : ∑ j, r.w j * (4 * (E / 3) * (1 + 4 * (κ * (r.ξ j * t)))) * t
        = 4 * (E / 3) * t * (∑ j, r.w j) + 16 * (E / 3) * κ * t ^ 2 * ∑ j, r.w j * r.ξ j := by
      rw [Finset.mul_sum, Finset.mul_sum, ← Finset.sum_add_distrib]
      exact Finset.sum_congr rfl fun j _ => by ring
    rw [e, m0, m1]
    simp [isotropic, planeMatrix, pair, planeStress, upper, ShellTangent.curved, dot]
    ring
  obtain ⟨j, hj⟩ : ∃ j, r.w j * r.ξ j ^ 2 ≠ 0 := by
    by_contra h
    push Not at h
    rw [Finset.sum_eq_zero fun j _ => h j] at m2
    norm_num at m2
  rw [hs, hmu]
  refine Finset.sum_lt_sum (fun j _ => ?_) ⟨j, Finset.mem_univ j, ?_⟩
  · have := (quartic (hx j)).1
    have h4 : (0 : ℝ) ≤ 4 * (E / 3) := by positivity
    exact mul_le_mul_of_nonneg_right (mul_le_mul_of_nonneg_left (mul_le_mul_of_nonneg_left this h4) (hw j)) ht.le
  · have hξ0 : r.ξ j ≠ 0 := fun h => hj (by rw [h]; ring)
    have hw0 : 0 < r.w j := lt_of_le_of_ne (hw j) fun h => hj (by rw [← h]; ring)
    have := (quartic (hx j)).2 (mul_ne_zero hκ (mul_ne_zero hξ0 ht.ne'))
    have h4 : (0 : ℝ) < 4 * (E / 3) := by positivity
    exact mul_lt_mul_of_pos_right (mul_lt_mul_of_pos_left (mul_lt_mul_of_pos_left this h4) hw0) ht

/-- With a single point in the middle of the thickness (`NumGauss = 1`) the non-linear class has no bending
stiffness, whatever the material; the isotropic sheet has one. -/
theorem C148_onepoint_violated (M : Planar.Material) {E ν t : ℝ} (hE : E ≠ 0) (h1 : 1 + ν ≠ 0) (h3 : 1 - ν ≠ 0)
    (ht : t ≠ 0) (w : ℝ) (s : Surf) (hi : Indep (s.a 0) (s.a 1)) :
    (∀ i j, (hyperModuli M ⟨1, fun _ => 0, fun _ => w⟩ t s).D i j = 0) ∧ (isotropic E ν t s.a).D 0 0 ≠ 0 := by
  constructor
  · intro i j
    simp [hyperModuli, System.moduli, System.modulus, Integrate.evalInto, Integrate.getMoment, Integrate.integrateZ]
  · obtain ⟨p, q, r, hp, hr, -, c00, -⟩ := toSurface_coords s hi
    have hn : 1 - ν ^ 2 ≠ 0 := by
      rw [show 1 - ν ^ 2 = (1 + ν) * (1 - ν) by ring]; exact mul_ne_zero h1 h3
    have hc : Acon s 0 0 ≠ 0 := by rw [c00]; positivity
    have e : (isotropic E ν t s.a).D 0 0 = t ^ 3 / 12 * (E / (1 - ν ^ 2) * (Acon s 0 0) ^ 2) := by
      simp only [isotropic, planeMatrix, show pair 0 = (0, 0) from rfl, planeStress, upper_eq]; ring
    rw [e]
    exact mul_ne_zero (div_ne_zero (pow_ne_zero 3 ht) (by norm_num)) (mul_ne_zero (div_ne_zero hE hn) (pow_ne_zero 2 hc))

/-- Non-vacuity: two plies at 0 and 30 degrees on a rectangle 2 × 3. -/
example : (Indep (⟨2, 0, 0⟩ : V3) ⟨0, 3, 0⟩ ∧ dot (⟨2, 0, 0⟩ : V3) ⟨0, 3, 0⟩ = 0) ∧
    (Indep (⟨2, 0, 0⟩ : V3) ⟨1, 3, 0⟩ ∧ dot (⟨2, 0, 0⟩ : V3) ⟨1, 3, 0⟩ ≠ 0) ∧ (1 + (3 / 10 : ℝ) ≠ 0) ∧
    ([⟨1, plyMatrix 1 (3 / 10), 0, 1⟩, ⟨2, plyMatrix 1 (3 / 10), Real.pi / 6, 1⟩].map Composite.Layer.t).sum = 3 := by
  refine ⟨⟨?_, by simp [dot]⟩, ⟨?_, by simp [dot]⟩, by norm_num, by norm_num⟩
  · intro c d h
    have hx := congrArg V3.x h
    have hy := congrArg V3.y h
    simp at hx hy
    exact ⟨hx, hy⟩
  · intro c d h
    have hx := congrArg V3.x h
    have hy := congrArg V3.y h
    simp at hx hy
    subst hy
    simp at hx
    exact ⟨hx, rfl⟩

/-- Non-vacuity: a rule exact for squares with non-negative weights and nodes inside the thickness. -/
example : ∃ r : Rule, r.Exact 2 ∧ (∀ j, 0 ≤ r.w j) ∧ ∀ j, |r.ξ j| ≤ 1 / 2 := by
  refine ⟨⟨3, vec3 (-1 / 2) 0 (1 / 2), vec3 (1 / 6) (2 / 3) (1 / 6)⟩, ?_, ?_, ?_⟩
  · intro k hk
    interval_cases k <;> rw [integral_pow] <;> rw [Fin.sum_univ_three] <;> norm_num
  · intro j
    rcases fin3_cases j with rfl | rfl | rfl <;> norm_num
  · intro j
    rcases fin3_cases j with rfl | rfl | rfl <;> norm_num [abs_le]

/-- Non-vacuity: a flat surface. -/
example : ∀ i j, Bcov (ShellTangent.curved 0) i j = 0 := by
  intro i j
  rw [ShellTangent.curved_B]
  rcases fin2_cases i with rfl | rfl <;> rcases fin2_cases j with rfl | rfl <;> simp

end Verif.SameSheet
