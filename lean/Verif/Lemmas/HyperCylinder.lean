import Verif.Lemmas.HyperShell
import Verif.Lemmas.SameSheet

/-! # Helper lemmas: a piece of a cylinder of hyperelastic material -/

namespace Verif.HyperShell

open V3 Verif.Geometry Verif.Variation Verif.Balance Verif.Integrate Verif.ShellTangent
open Verif.ShellSystem hiding curved curved_normal
open Spec.ShellTangent Spec.HyperShell Spec.Hyper Filter Topology
open Verif.LoadedShell (ofEntries ofEntries_apply)
open Verif.PlanarSystem (Solid)

/-- The field that stretches in the first direction. -/
def stretching : Surf := ⟨fun i => if i = 0 then ⟨1, 0, 0⟩ else ⟨0, 0, 0⟩, ⟨0, 0, 0⟩, ⟨0, 0, 0⟩, ⟨0, 0, 0⟩⟩

/-- A piece of a cylinder of curvature `c` that can be bent; a unit bending load. -/
def roll (c : ℝ) : Problem Unit Unit :=
  ⟨{()}, fun _ => 1, fun _ => curved c, fun _ => curved c, fun _ _ => bending, fun _ => 1⟩

/-- The same piece, which can be stretched and bent. -/
def cylinder (c : ℝ) : Problem (Fin 2) Unit :=
  ⟨{()}, fun _ => 1, fun _ => curved c, fun _ => curved c, fun _ j => if j = 0 then stretching else bending, fun _ => 0⟩

/-- The neo-Hookean material. -/
abbrev rubber {κ : Type} : κ → Solid := fun _ => Solid.neoHooke

/-- Weight times tangent modulus of the cylinder at a node. -/
noncomputable def node (μ : ℝ) (r : Rule) (t c : ℝ) (j : Fin r.n) : ℝ :=
  r.w j * (4 * μ * ((1 - c * (r.ξ j * t)) ^ 4)⁻¹) * t

theorem cylinder_modulus (p : Hyper.Par) (r : Rule) (t c : ℝ) (h : ∀ j, c * (r.ξ j * t) ≠ 1) (m : ℕ) :
    modulus (material .neoHooke p (curved c)) r t m (curved c) 0 0
      = ∑ j, (r.ξ j * t) ^ m * node p.mu r t c j := by
  simp only [modulus, integrateZ, node]
  refine Finset.sum_congr rfl fun j _ => ?_
  have hz : 1 - r.ξ j * t * c ≠ 0 := fun e => h j (by linarith)
  have hd : det2 (Gblock (curved c) (r.ξ j * t)) ≠ 0 := by
    rw [curved_G]; simp [det2, hz]
  have hs : Gblock (curved c) (r.ξ j * t) 0 1 = Gblock (curved c) (r.ξ j * t) 1 0 := by
    rw [curved_G]; simp
  have e : Hyper.fillMatrix ((material .neoHooke p (curved c)).tangent (r.ξ j * t) (Gblock (curved c) (r.ξ j * t))) 0 0
      = 4 * p.mu * ((1 - c * (r.ξ j * t)) ^ 4)⁻¹ := by
    have : Hyper.fillMatrix ((material .neoHooke p (curved c)).tangent (r.ξ j * t) (Gblock (curved c) (r.ξ j * t))) 0 0
      = Hyper.cNH p (Hyper.data (Gblock (curved c) (r.ξ j * t)) (Gblock (curved c) (r.ξ j * t)))
        (Hyper.up 0) (Hyper.up 0) (Hyper.up 0) (Hyper.up 0) := rfl
    rw [this, SameSheet.cNH_ref p _ hd hs 0 0 0 0, curved_G]
    simp [Spec.Hyper.hooke, inv2, det2]
    rw [show c * (r.ξ j * t) = r.ξ j * t * c by ring]
    field_simp
    ring
  rw [e]; ring

theorem stretch_normal (c τ : ℝ) (h : 0 < 1 + τ) : normal (shift (curved c) stretching τ) = ⟨0, 0, 1⟩ := by
  have hc : cross ((shift (curved c) stretching τ).a 0) ((shift (curved c) stretching τ).a 1) = (⟨0, 0, 1 + τ⟩ : V3) := by
    ext <;> simp [cross, curved, shift, stretching]
  have hn : V3.norm ⟨0, 0, 1 + τ⟩ = 1 + τ := by simp [V3.norm, dot, Real.sqrt_mul_self h.le]
  simp only [normal, hc, normalized, hn]
  ext <;> simp [h.ne']

theorem stretch_ncov (c τ : ℝ) (h : 0 < 1 + τ) :
    ncov (shift (curved c) stretching τ) 0 = ⟨-(c / (1 + τ)), 0, 0⟩ ∧
    ncov (shift (curved c) stretching τ) 1 = ⟨0, 0, 0⟩ := by
  have hA : Acov (shift (curved c) stretching τ) = ![![(1 + τ) ^ 2, 0], ![0, 1]] := by
    funext i j
    rcases fin2_cases i with rfl | rfl <;> rcases fin2_cases j with rfl | rfl <;>
      simp [Acov, curved, shift, stretching, dot]
    ring
  have hB : Bcov (shift (curved c) stretching τ) = ![![c, 0], ![0, 0]] := by
    funext i j
    rcases fin2_cases i with rfl | rfl <;> rcases fin2_cases j with rfl | rfl <;>
      simp [Bcov, stretch_normal c τ h] <;> simp [curved, shift, stretching, dot]
  have hI : Acon (shift (curved c) stretching τ) = ![![1 / (1 + τ) ^ 2, 0], ![0, 1]] := by
    simp only [Acon, hA]
    funext i j
    rcases fin2_cases i with rfl | rfl <;> rcases fin2_cases j with rfl | rfl <;>
      simp [inv2, det2, h.ne']
  have hm : ∀ i j, mixedB (shift (curved c) stretching τ) i j = (![![c / (1 + τ) ^ 2, 0], ![0, 0]] : T2) i j := by
    intro i j
    simp only [mixedB, hI, hB]
    rcases fin2_cases i with rfl | rfl <;> rcases fin2_cases j with rfl | rfl <;> simp
    ring
  constructor <;> simp only [ncov, hm] <;> ext <;> simp [curved, shift, stretching]
  field_simp

theorem stretch_third (c : ℝ) : thirdRate (curved c) stretching = ![![-(2 * c ^ 2), 0], ![0, 0]] := by
  have hev : ∀ᶠ τ : ℝ in 𝓝 0, 0 < 1 + τ := by
    have : ContinuousAt (fun τ : ℝ => 1 + τ) 0 := by fun_prop
    exact this.eventually_const_lt (by norm_num)
  funext i j
  have hf : (fun τ => dot (ncov (shift (curved c) stretching τ) i) (ncov (shift (curved c) stretching τ) j))
      =ᶠ[𝓝 0] fun τ => (![![(c / (1 + τ)) ^ 2, 0], ![0, 0]] : T2) i j := by
    filter_upwards [hev] with τ hτ
    obtain ⟨h0, h1⟩ := stretch_ncov c τ hτ
    rcases fin2_cases i with rfl | rfl <;> rcases fin2_cases j with rfl | rfl <;>
      simp only [h0, h1] <;> simp [dot]
    ring
  rw [thirdRate, hf.deriv_eq]
  rcases fin2_cases i with rfl | rfl <;> rcases fin2_cases j with rfl | rfl
  · have h1 : HasDerivAt (fun τ : ℝ => 1 + τ) 1 0 := (hasDerivAt_id' (0 : ℝ)).const_add 1
    have h2 := (((hasDerivAt_const (0 : ℝ) c).div h1 (by norm_num)).pow 2).deriv
    refine Eq.trans ?_ (h2.trans ?_)
    · rfl
    · simp; ring
  all_goals simp

theorem bend_third (c : ℝ) : thirdRate (curved c) bending = ![![2 * c, 0], ![0, 0]] := by
  funext i j; exact (curved_third c i j).deriv

theorem stretch_em (c : ℝ) : EmDer (curved c) stretching = vec3 1 0 0 := by
  funext k
  rcases fin3_cases k with rfl | rfl | rfl <;> simp [EmDer, stretching, curved, dot]

theorem stretch_ef (c : ℝ) : EfDer (curved c) stretching = fun _ => 0 := by
  have hv : var1 (curved c) stretching = ⟨0, 0, 0⟩ := by
    have hm : ∃ a, mvec (curved c) stretching = ⟨0, 0, a⟩ := by
      refine ⟨1 / Variation.measure (curved c), ?_⟩
      ext <;> simp [mvec, stretching, curved, cross]
    obtain ⟨a, ha⟩ := hm
    rw [var1, ha, curved_normal]
    ext <;> simp [dot]
  funext k
  rcases fin3_cases k with rfl | rfl | rfl <;>
    simp only [EfDer, hv, curved_normal, dbl3, deriv2dot] <;>
    simp [curved, stretching, dot]

/-- What the tangent lacks between a field and the bending, and between the bending and the stretching. -/
theorem lacks (p : Hyper.Par) (r : Rule) (t c : ℝ) (h : ∀ j, c * (r.ξ j * t) ≠ 1) :
    thirdWork (material .neoHooke p (curved c)) r t (curved c) bending bending
      = -∑ j, c * (r.ξ j * t) ^ 3 * node p.mu r t c j ∧
    thirdWork (material .neoHooke p (curved c)) r t (curved c) stretching bending
      = ∑ j, c * (r.ξ j * t) ^ 2 * node p.mu r t c j ∧
    thirdWork (material .neoHooke p (curved c)) r t (curved c) bending stretching
      = ∑ j, c ^ 2 * (r.ξ j * t) ^ 3 * node p.mu r t c j := by
  have h2 := cylinder_modulus p r t c h 2
  have h3 := cylinder_modulus p r t c h 3
  refine ⟨?_, ?_, ?_⟩
  · simp only [thirdWork, bend_third, curved_em, curved_ef, Fin.sum_univ_three, half]
    simp [h3, Finset.mul_sum, Finset.sum_mul]
    exact Finset.sum_congr rfl fun j _ => by ring
  · simp only [thirdWork, bend_third, stretch_em, stretch_ef, Fin.sum_univ_three, half]
    simp [h2, Finset.mul_sum, Finset.sum_mul]
    exact Finset.sum_congr rfl fun j _ => by ring
  · simp only [thirdWork, stretch_third, curved_em, curved_ef, Fin.sum_univ_three, half]
    simp [h3, Finset.mul_sum, Finset.sum_mul]
    rw [← Finset.sum_neg_distrib]
    exact Finset.sum_congr rfl fun j _ => by ring

theorem cylinder_regular {r : Rule} {t c : ℝ} (h : ∀ j, c * (r.ξ j * t) ≠ 1) : Regular r t (curved c) (curved c) := by
  intro j
  have hz : 1 - r.ξ j * t * c ≠ 0 := fun e => h j (by linarith)
  simp only [curved_G]
  constructor <;> simp [det2, hz]

/-- The heights of a thin cylinder. -/
theorem thin {c t : ℝ} (ht : 0 < t) (hct : |c| * t < 2) {r : Rule} (hξ : ∀ j, |r.ξ j| ≤ 1 / 2) (j : Fin r.n) :
    |c * (r.ξ j * t)| < 1 := by
  rw [abs_mul, abs_mul, abs_of_pos ht]
  calc |c| * (|r.ξ j| * t) = |c| * t * |r.ξ j| := by ring
    _ ≤ |c| * t * (1 / 2) := mul_le_mul_of_nonneg_left (hξ j) (by positivity)
    _ < 1 := by linarith

theorem thin_ne {c t : ℝ} (ht : 0 < t) (hct : |c| * t < 2) {r : Rule} (hξ : ∀ j, |r.ξ j| ≤ 1 / 2) (j : Fin r.n) :
    c * (r.ξ j * t) ≠ 1 := fun h => by
  have := thin (c := c) ht hct hξ j
  rw [h] at this; norm_num at this

theorem exact_node {r : Rule} (hr : r.Exact 2) (hw : ∀ j, 0 ≤ r.w j) : ∃ j, 0 < r.w j ∧ r.ξ j ≠ 0 := by
  have m2 : ∑ j, r.w j * r.ξ j ^ 2 = 1 / 12 := by
    have := hr 2 (by norm_num); rw [integral_pow] at this; norm_num at this ⊢; exact this
  by_contra h
  push Not at h
  rw [Finset.sum_eq_zero fun j _ => ?_] at m2
  · norm_num at m2
  · rcases (hw j).eq_or_lt with h0 | h0
    · rw [← h0]; ring
    · rw [h j h0]; ring

theorem node_nonneg {μ : ℝ} (hμ : 0 < μ) {r : Rule} {t c : ℝ} (ht : 0 < t) (hw : ∀ j, 0 ≤ r.w j) (j : Fin r.n) :
    0 ≤ node μ r t c j := by
  have := hw j
  unfold node; positivity

theorem node_pos {μ : ℝ} (hμ : 0 < μ) {r : Rule} {t c : ℝ} (ht : 0 < t) {j : Fin r.n} (hw : 0 < r.w j)
    (h : c * (r.ξ j * t) ≠ 1) : 0 < node μ r t c j := by
  have : (1 - c * (r.ξ j * t)) ≠ 0 := fun e => h (by linarith)
  unfold node; positivity

/-- The bending stiffness less what the tangent lacks is positive. -/
theorem soft_pos {μ : ℝ} (hμ : 0 < μ) {r : Rule} {t c : ℝ} (ht : 0 < t) (hct : |c| * t < 2) (hr : r.Exact 2)
    (hw : ∀ j, 0 ≤ r.w j) (hξ : ∀ j, |r.ξ j| ≤ 1 / 2) :
    0 < ∑ j, (1 - c * (r.ξ j * t)) * (r.ξ j * t) ^ 2 * node μ r t c j := by
  obtain ⟨j, hj, hj0⟩ := exact_node hr hw
  refine Finset.sum_pos' (fun i _ => ?_) ⟨j, Finset.mem_univ j, ?_⟩
  · have := (abs_lt.1 (thin (c := c) ht hct hξ i)).2
    exact mul_nonneg (mul_nonneg (by linarith) (sq_nonneg _)) (node_nonneg hμ ht hw i)
  · have h1 := (abs_lt.1 (thin (c := c) ht hct hξ j)).2
    have h2 := node_pos (c := c) hμ ht hj (thin_ne ht hct hξ j)
    have h3 : 0 < (r.ξ j * t) ^ 2 := by positivity
    exact mul_pos (mul_pos (by linarith) h3) h2

/-- What the tangent lacks of the bending stiffness does not vanish. -/
theorem lack_pos {μ : ℝ} (hμ : 0 < μ) {r : Rule} {t c : ℝ} (ht : 0 < t) (hc : c ≠ 0) (hct : |c| * t < 2)
    (hr : r.Exact 3) (hw : ∀ j, 0 ≤ r.w j) (hξ : ∀ j, |r.ξ j| ≤ 1 / 2) :
    0 < ∑ j, c * (r.ξ j * t) ^ 3 * node μ r t c j := by
  have m3 : ∑ j, r.w j * r.ξ j ^ 3 = 0 := by
    have := hr 3 (by norm_num); rw [integral_pow] at this; norm_num at this; exact this
  have e : ∑ j, c * (r.ξ j * t) ^ 3 * node μ r t c j
      = ∑ j, c * (r.ξ j * t) ^ 3 * (node μ r t c j - r.w j * (4 * μ) * t) := by
    have : ∑ j, c * (r.ξ j * t) ^ 3 * (r.w j * (4 * μ) * t) = c * t ^ 4 * (4 * μ) * ∑ j, r.w j * r.ξ j ^ 3 := by
      rw [Finset.mul_sum]; exact Finset.sum_congr rfl fun j _ => by ring
    rw [m3, mul_zero] at this
    simp only [mul_sub, Finset.sum_sub_distrib, this, sub_zero]
  rw [e]
  have key : ∀ j, c * (r.ξ j * t) ^ 3 * (node μ r t c j - r.w j * (4 * μ) * t)
      = r.w j * (4 * μ) * t * (r.ξ j * t) ^ 2 * (c * (r.ξ j * t) * (((1 - c * (r.ξ j * t)) ^ 4)⁻¹ - 1)) := by
    intro j; unfold node; ring
  have hx : ∀ y : ℝ, |y| < 1 → y ≠ 0 → 0 < y * (((1 - y) ^ 4)⁻¹ - 1) := by
    intro y hy hy0
    obtain ⟨h1, h2⟩ := abs_lt.1 hy
    have h3 : 0 < 1 - y := by linarith
    have e : y * (((1 - y) ^ 4)⁻¹ - 1) = y ^ 2 * (4 - 6 * y + 4 * y ^ 2 - y ^ 3) / (1 - y) ^ 4 := by
      field_simp; ring
    rw [e]
    have h4 : 0 < 4 - 6 * y + 4 * y ^ 2 - y ^ 3 := by
      have : 4 - 6 * y + 4 * y ^ 2 - y ^ 3 = 1 + (1 - y) + (1 - y) ^ 2 + (1 - y) ^ 3 := by ring
      rw [this]; positivity
    have : 0 < y ^ 2 := by positivity
    positivity
  obtain ⟨j, hj, hj0⟩ := exact_node (fun k hk => hr k (by omega)) hw
  refine Finset.sum_pos' (fun i _ => ?_) ⟨j, Finset.mem_univ j, ?_⟩
  · rw [key]
    have hwi := hw i
    by_cases h0 : c * (r.ξ i * t) = 0
    · rw [h0]; simp
    · have := hx _ (thin (c := c) ht hct hξ i) h0
      positivity
  · rw [key]
    have h0 : c * (r.ξ j * t) ≠ 0 := mul_ne_zero hc (mul_ne_zero hj0 ht.ne')
    have := hx _ (thin (c := c) ht hct hξ j) h0
    have h3 : 0 < (r.ξ j * t) ^ 2 := by positivity
    positivity

end Verif.HyperShell
