import Verif.Lemmas.PenaltyState

/-!
# Penalty factors of hyperelastic shells

C157: the penalty factors follow the deformed state; what this does to forces and tangent.
-/

namespace Verif.PenaltyState

open V3 Verif.Geometry Verif.Integrate Verif.WeakForms Verif.Spec.PenaltyState
open Verif.PlanarSystem (Solid weight)

/-- **C157** (objectivity) A rigid motion of the deformed shell does not change the penalty factors, for both
solids, both orders and every rule through the thickness. -/
theorem C157_objective (c h : ℝ) (r : Rule) (S : Solid) (p : Hyper.Par) (t : ℝ) (m : ℕ) (ori s : Surf)
    (R : Rotation) : factor c h r S p t m ori (R.move s) = factor c h r S p t m ori s := by
  unfold factor ShellTangent.modulus
  simp only [Gblock_move]

/-- **C157** (value) The displacement factor of an incompressible neo-Hookean square stretched by `l` and `m`:
it falls with the eighth power of an equal stretch in both directions. -/
theorem C157_biaxial (c h : ℝ) (r : Rule) (p : Hyper.Par) (t : ℝ) (hw : weight r t = t) (ht : 0 ≤ t)
    (hμ : 0 ≤ p.mu) {l m : ℝ} (hl : 0 < l) (hm : 0 < m) :
    factor c h r .neoHooke p t 0 (box 1 1) (box l m)
      = c * (t * (4 * p.mu / (l ^ 2 * m ^ 2 * (min l m) ^ 4))) / h := by
  unfold factor Penalty.alpha
  rw [box_mmCart, box_modulus r p t hl hm, hw, box_max t p.mu ht hμ hl hm]

/-- **C157** (tangent) Along every line of states the derivative of the C0 coupling force is minus the assembled
matrix plus the rate of the factor times the force of the unit spring. -/
theorem C157_rate (c h μ : ℝ) (r : Rule) (S : Solid) (p : Hyper.Par) (t : ℝ) (ori s w : Surf)
    (uL uR vL vR wL wR : Vd 3) (a' : ℝ)
    (ha : HasDerivAt (fun τ => factor c h r S p t 0 ori (surfAlong s w τ)) a' 0) :
    HasDerivAt (fun τ => c0Force c h μ r S p t ori (surfAlong s w τ) (along uL wL τ) (along uR wR τ) vL vR)
      (-c0Tangent c h μ r S p t ori s vL vR wL wR + a' * c0Vec3 1 μ uL uR vL vR) 0 := by
  have h0 : surfAlong s w 0 = s := by
    unfold surfAlong
    cases s
    congr 1
    · funext i; ext <;> simp
    all_goals ext <;> simp
  have := c0_line (fun τ => factor c h r S p t 0 ori (surfAlong s w τ)) a' μ ha uL uR vL vR wL wR
  simp only [h0] at this
  exact this

/-- **C157** (tangent, partial) At a closed edge the assembled matrix is minus the derivative of the C0 coupling
force, whatever the rate of the factor.  Missing: open edges, see `C157_tangent_violated`. -/
theorem C157_tangent_partial (c h μ : ℝ) (r : Rule) (S : Solid) (p : Hyper.Par) (t : ℝ) (ori s w : Surf)
    (u vL vR wL wR : Vd 3) (a' : ℝ)
    (ha : HasDerivAt (fun τ => factor c h r S p t 0 ori (surfAlong s w τ)) a' 0) :
    HasDerivAt (fun τ => c0Force c h μ r S p t ori (surfAlong s w τ) (along u wL τ) (along u wR τ) vL vR)
      (-c0Tangent c h μ r S p t ori s vL vR wL wR) 0 := by
  have := C157_rate c h μ r S p t ori s w u u vL vR wL wR a' ha
  refine this.congr_deriv ?_
  have z : c0Vec3 1 μ u u vL vR = 0 := by simp [c0Vec3, dotd]
  rw [z]; ring

/-- The midpoint rule. -/
def mid : Rule := ⟨1, fun _ => 0, fun _ => 1⟩

theorem mid_weight (t : ℝ) : weight mid t = t := by
  unfold weight mid
  rw [Fin.sum_univ_one]
  ring

/-- A neo-Hookean material with shear modulus one. -/
noncomputable def unitPar : Hyper.Par := ⟨3, 1 / 2, 0⟩

theorem unitPar_mu : unitPar.mu = 1 := by norm_num [unitPar, Hyper.Par.mu]

/-- Factor of the square stretched equally. -/
theorem equal (l : ℝ) (hl : 0 < l) : factor 1 1 mid .neoHooke unitPar 1 0 (box 1 1) (box l l) = 4 / l ^ 8 := by
  rw [C157_biaxial 1 1 mid unitPar 1 (mid_weight 1) zero_le_one (by rw [unitPar_mu]; exact zero_le_one) hl hl,
    unitPar_mu, min_self]
  have : l ^ 2 * l ^ 2 * l ^ 4 = l ^ 8 := by ring
  rw [this]; ring

theorem along_box (τ : ℝ) : surfAlong (box 1 1) (box 1 1) τ = box (1 + τ) (1 + τ) := by
  unfold surfAlong box
  congr 1
  · funext i
    rcases fin2_cases i with rfl | rfl <;> ext <;> simp
  all_goals ext <;> simp

theorem equal_rate :
    HasDerivAt (fun τ => factor 1 1 mid .neoHooke unitPar 1 0 (box 1 1) (surfAlong (box 1 1) (box 1 1) τ)) (-32) 0 := by
  have h1 : HasDerivAt (fun τ : ℝ => 4 / (1 + τ) ^ 8) (-32) 0 := by
    have h := (((hasDerivAt_id' (0 : ℝ)).const_add 1).pow 8).inv (by norm_num) |>.const_mul 4
    refine (h.congr_of_eventuallyEq (Filter.Eventually.of_forall fun τ => ?_)).congr_deriv ?_
    · simp [div_eq_mul_inv]
    · norm_num
  refine h1.congr_of_eventuallyEq ?_
  filter_upwards [eventually_gt_nhds (show (-1 : ℝ) < 0 by norm_num)] with τ hτ
  rw [along_box, equal _ (by linarith)]

/-- Non-vacuity of `C157_rate` and `C157_tangent_partial`: the equally stretched square, whose factor has a rate. -/
example : ∃ a', a' ≠ 0 ∧
    HasDerivAt (fun τ => factor 1 1 mid .neoHooke unitPar 1 0 (box 1 1) (surfAlong (box 1 1) (box 1 1) τ)) a' 0 :=
  ⟨-32, by norm_num, equal_rate⟩

/-- Non-vacuity of `C157_biaxial`. -/
example : weight mid (1 / 10) = 1 / 10 ∧ (0 : ℝ) ≤ unitPar.mu ∧
    factor 1 1 mid .neoHooke unitPar 1 0 (box 1 1) (box 2 2) = 4 / 256 :=
  ⟨mid_weight _, by rw [unitPar_mu]; exact zero_le_one, by rw [equal 2 two_pos]; norm_num⟩

/-- **C157** (violation: tangent) At an open edge the assembled matrix is not minus the derivative of the coupling
force: a neo-Hookean square, stretched equally, whose edge is one unit away from its neighbour. -/
theorem C157_tangent_violated : ∃ (r : Rule) (p : Hyper.Par) (ori s w : Surf) (uL uR vL vR wL wR : Vd 3),
    Indep (ori.a 0) (ori.a 1) ∧ Indep (s.a 0) (s.a 1) ∧
    ¬ HasDerivAt (fun τ => c0Force 1 1 1 r .neoHooke p 1 ori (surfAlong s w τ) (along uL wL τ) (along uR wR τ) vL vR)
      (-c0Tangent 1 1 1 r .neoHooke p 1 ori s vL vR wL wR) 0 := by
  refine ⟨mid, unitPar, box 1 1, box 1 1, box 1 1, vec3 1 0 0, 0, vec3 1 0 0, 0, 0, 0,
    box_indep one_ne_zero one_ne_zero, box_indep one_ne_zero one_ne_zero, fun h => ?_⟩
  have h' := C157_rate 1 1 1 mid .neoHooke unitPar 1 (box 1 1) (box 1 1) (box 1 1) (vec3 1 0 0) 0 (vec3 1 0 0) 0 0 0
    _ equal_rate
  have e := h.unique h'
  have z : c0Vec3 1 1 (vec3 1 0 0) 0 (vec3 1 0 0) (0 : Vd 3) = -1 := by
    simp [c0Vec3, dotd, Fin.sum_univ_three]
  rw [z] at e
  linarith

/-- **C157** (violation: strength) The penalty has no lower bound in terms of its value in the undeformed state: it
becomes as weak as one likes when the shell is stretched. -/
theorem C157_soft_violated (ε : ℝ) (hε : 0 < ε) : ∃ (r : Rule) (p : Hyper.Par) (ori s : Surf),
    Indep (ori.a 0) (ori.a 1) ∧ Indep (s.a 0) (s.a 1) ∧ 0 < factor 1 1 r .neoHooke p 1 0 ori ori ∧
    factor 1 1 r .neoHooke p 1 0 ori s < ε * factor 1 1 r .neoHooke p 1 0 ori ori := by
  have hl : (0 : ℝ) < 1 + 1 / ε := by positivity
  refine ⟨mid, unitPar, box 1 1, box (1 + 1 / ε) (1 + 1 / ε), box_indep one_ne_zero one_ne_zero,
    box_indep hl.ne' hl.ne', ?_, ?_⟩
  · rw [equal 1 one_pos]; norm_num
  · rw [equal 1 one_pos, equal _ hl, div_lt_iff₀ (by positivity)]
    have h1 : 1 + 1 / ε ≤ (1 + 1 / ε) ^ 8 := by
      have : (1 : ℝ) ≤ 1 + 1 / ε := by have : 0 < 1 / ε := by positivity
                                       linarith
      exact le_self_pow₀ this (by norm_num)
    have h2 : 1 < ε * (1 + 1 / ε) := by
      have : ε * (1 + 1 / ε) = ε + 1 := by field_simp
      linarith
    nlinarith [mul_le_mul_of_nonneg_left h1 hε.le]

/-- **C157** (violation: smoothness) In the undeformed state the factor has no derivative with respect to a stretch
in one direction, because the largest entry changes place there. -/
theorem C157_kink_violated : ∃ (r : Rule) (p : Hyper.Par),
    ¬ DifferentiableAt ℝ (fun l => factor 1 1 r .neoHooke p 1 0 (box 1 1) (box l 1)) 1 := by
  refine ⟨mid, unitPar, fun hd => ?_⟩
  have val : ∀ l : ℝ, 0 < l → factor 1 1 mid .neoHooke unitPar 1 0 (box 1 1) (box l 1)
      = 4 / (l ^ 2 * (min l 1) ^ 4) := by
    intro l hl
    rw [C157_biaxial 1 1 mid unitPar 1 (mid_weight 1) zero_le_one (by rw [unitPar_mu]; exact zero_le_one) hl one_pos,
      unitPar_mu]
    norm_num
  have hh := hd.hasDerivAt
  generalize deriv (fun l => factor 1 1 mid .neoHooke unitPar 1 0 (box 1 1) (box l 1)) 1 = d at hh
  have r1 : HasDerivAt (fun l : ℝ => 4 / l ^ 2) (-8) 1 := by
    have h := ((hasDerivAt_id' (1 : ℝ)).pow 2).inv (by norm_num) |>.const_mul 4
    refine (h.congr_of_eventuallyEq (Filter.Eventually.of_forall fun τ => ?_)).congr_deriv ?_
    · simp [div_eq_mul_inv]
    · norm_num
  have l1 : HasDerivAt (fun l : ℝ => 4 / l ^ 6) (-24) 1 := by
    have h := ((hasDerivAt_id' (1 : ℝ)).pow 6).inv (by norm_num) |>.const_mul 4
    refine (h.congr_of_eventuallyEq (Filter.Eventually.of_forall fun τ => ?_)).congr_deriv ?_
    · simp [div_eq_mul_inv]
    · norm_num
  have er : d = -8 := by
    have h1 : HasDerivWithinAt (fun l : ℝ => 4 / l ^ 2) d (Set.Ici 1) 1 := by
      refine (hh.hasDerivWithinAt (s := Set.Ici 1)).congr_of_mem (fun l hl => ?_) (Set.mem_Ici.2 le_rfl)
      have h1l : (1 : ℝ) ≤ l := hl
      rw [val l (by linarith), min_eq_right h1l]; norm_num
    exact (uniqueDiffOn_Ici (1 : ℝ) 1 (Set.mem_Ici.2 le_rfl)).eq_deriv _ h1 r1.hasDerivWithinAt
  have el : d = -24 := by
    have h1 : HasDerivWithinAt (fun l : ℝ => 4 / l ^ 6) d (Set.Icc (1 / 2) 1) 1 := by
      refine (hh.hasDerivWithinAt (s := Set.Icc (1 / 2) 1)).congr_of_mem (fun l hl => ?_)
        (Set.mem_Icc.2 ⟨by norm_num, le_rfl⟩)
      have hl1 : l ≤ 1 := hl.2
      rw [val l (by linarith [hl.1]), min_eq_left hl1]
      congr 1; ring
    exact (uniqueDiffOn_Icc (show (1 / 2 : ℝ) < 1 by norm_num) 1 (Set.mem_Icc.2 ⟨by norm_num, le_rfl⟩)).eq_deriv _ h1
      l1.hasDerivWithinAt
  linarith

end Verif.PenaltyState
