import Verif.Lemmas.LinearTable

/-!
# C170: the table of the linear example of the error estimator
-/

namespace Verif.LinearTable

open V3 Verif.Geometry Verif.Variation Verif.DWR Verif.Spec.LinearTable
open Verif.ModalProgram (Row)

variable {κ β γ π : Type} {n m : ℕ}

/-- **C170** A component of the displacement as goal, no point loads or point loads passed to the estimator: the printed
estimate is the difference of the goals of the solutions in the two bases, and the printed estimated goal is the goal of
the solution in the finer basis. -/
theorem C170_component (P : Plate κ β γ π) (hs : SymmetricModuli P) (hd : DeadLoads P.set) (wl : Bool)
    (hw : wl = true ∨ P.set.loads = []) (c : Fin 3) (ψ : Fin n → Fn κ β γ π) (φ : Fin m → Fn κ β γ π)
    (uL zL : EuclideanSpace ℝ (Fin n)) (uH zH : EuclideanSpace ℝ (Fin m)) (h : Solved P c ψ φ uL zL zH)
    (hH : Solution P φ uH) :
    row P c ψ φ uL zL zH wl = .ok ⟨average P c (comb ψ uL), average P c (comb φ uH) - average P c (comb ψ uL),
      average P c (comb φ uH)⟩ := by
  have dL : ∀ i, ∑ j, entry P ψ i j * zL j = average P c (ψ i) := fun i => by
    have := h.dualL i
    rw [dual_component] at this
    exact (Outcome.ok.inj this).symm
  have dH : ∀ i, ∑ j, entry P φ i j * zH j = average P c (φ i) := fun i => by
    have := h.dualH i
    rw [dual_component] at this
    exact (Outcome.ok.inj this).symm
  rw [row, goal_component, error_eq P hs hd wl hw ψ φ (average P c) uL zL uH zH h.primal hH dL dH]
  simp only [Outcome.bind, average_comb]
  congr 2
  ring

/-- Non-vacuity: the goal is 0 in the coarse basis and 1 in the fine one. -/
example : row exPlate ((1 : Fin 3) : ℕ) exL exH (!₂[1]) (!₂[0]) (!₂[0, 1]) true = .ok ⟨0, 1, 1⟩ := by
  rw [C170_component exPlate exPlate_symm ⟨fun _ => rfl, fun _ => rfl⟩ true (Or.inl rfl) 1 exL exH _ _ _ _ ex_solved
    exH_solution, average_comb, average_comb, Fin.sum_univ_two, Finset.univ_unique, Finset.sum_singleton]
  simp [exL, exH, exFirst_average, exSecond_average]

/-- **C170** If every motion of the bases costs energy, the three systems have exactly one solution, for every goal the
example accepts, and so has the linear problem in the finer basis. -/
theorem C170_exists (P : Plate κ β γ π) (c : ℕ) (hc : c < 3 ∨ c = 9) (ψ : Fin n → Fn κ β γ π)
    (φ : Fin m → Fn κ β γ π) (hL : Stiff P ψ) (hH : Stiff P φ) :
    (∃! t : EuclideanSpace ℝ (Fin n) × EuclideanSpace ℝ (Fin n) × EuclideanSpace ℝ (Fin m),
      Solved P c ψ φ t.1 t.2.1 t.2.2) ∧ ∃! uH, Solution P φ uH := by
  refine ⟨?_, solvable _ hH _⟩
  obtain ⟨u, hu, hu'⟩ := solvable _ hL (rhs P ψ)
  have hd : ∀ {k : ℕ} (f : Fin k → Fn κ β γ π), ∃ J : Fin k → ℝ, ∀ i, dual P c f (comb ψ u) i = .ok (J i) := by
    intro k f
    rcases hc with hc | rfl
    · exact ⟨_, fun i => dual_component P ⟨c, hc⟩ f _ i⟩
    · exact ⟨_, fun i => dual_square P f _ i⟩
  obtain ⟨JL, hJL⟩ := hd ψ
  obtain ⟨JH, hJH⟩ := hd φ
  obtain ⟨zL, hzL, hzL'⟩ := solvable _ hL JL
  obtain ⟨zH, hzH, hzH'⟩ := solvable _ hH JH
  refine ⟨(u, zL, zH), ⟨hu, fun i => by rw [hJL, hzL], fun i => by rw [hJH, hzH]⟩, ?_⟩
  rintro ⟨u₁, z₁, z₂⟩ h
  obtain rfl : u₁ = u := hu' _ h.primal
  obtain rfl : z₁ = zL := hzL' _ fun i => by
    have := h.dualL i
    rw [hJL] at this
    exact (Outcome.ok.inj this).symm
  obtain rfl : z₂ = zH := hzH' _ fun i => by
    have := h.dualH i
    rw [hJH] at this
    exact (Outcome.ok.inj this).symm
  rfl

/-- Non-vacuity. -/
example : Stiff exPlate exL ∧ Stiff exPlate exH := ⟨exL_stiff, exH_stiff⟩

/-- **C170** For positive weights, a regular surface and definite moduli, every motion of a basis costs energy exactly if
every motion except rest strains the plate at some quadrature point. -/
theorem C170_stiff (P : Plate κ β γ π) (hP : Sound P) (φ : Fin n → Fn κ β γ π) :
    Stiff P φ ↔ ∀ x : EuclideanSpace ℝ (Fin n), x ≠ 0 → Strains P (comb φ x) := by
  have key : ∀ x : EuclideanSpace ℝ (Fin n),
      0 < ∑ i, ∑ j, entry P φ i j * x j * x i ↔ Strains P (comb φ x) := by
    intro x
    rw [energy_eq, list_sum_pos]
    · refine exists_congr fun q => and_congr_right fun hq => ?_
      obtain ⟨hw, hi, hS⟩ := hP q hq
      rw [System.rateM_eq, System.rateB_eq _ _ hi]
      constructor
      · intro h
        by_contra h0
        push Not at h0
        have h1 : EmDer (P.set.ori q) ((comb φ x).disc.d q) = 0 := funext fun k => (h0 k).1
        have h2 : EfDer (P.set.ori q) ((comb φ x).disc.d q) = 0 := funext fun k => (h0 k).2
        rw [h1, h2] at h
        simp [Spec.System.density] at h
      · rintro ⟨k, hk⟩
        refine mul_pos hw (mul_pos (hS.2 _ _ ?_) (measure_pos _ hi))
        rintro ⟨h1, h2⟩
        rcases hk with hk | hk
        · exact hk (congrFun h1 k)
        · exact hk (congrFun h2 k)
    · intro q hq
      obtain ⟨hw, hi, hS⟩ := hP q hq
      exact mul_nonneg hw.le (mul_nonneg (System.density_nonneg hS _ _) (measure_pos _ hi).le)
  constructor
  · intro h x hx
    exact (key x).1 (h (fun i => x i) fun h0 => hx (by ext i; exact congrFun h0 i))
  · intro h x hx
    exact (key (WithLp.toLp 2 x)).2 (h _ fun h0 => hx (by
      funext i
      exact congrArg (fun y : EuclideanSpace ℝ (Fin n) => y i) h0))

/-- Non-vacuity: one function that stretches the plate, with definite moduli. -/
example : ∃ P : Plate Unit Unit Unit Unit, Sound P ∧ Stiff P exL := by
  refine ⟨{ exPlate with mm := fun _ => (fun i j => if i = j then 1 else 0, fun _ _ => 0, fun _ _ => 0,
    fun i j => if i = j then 1 else 0) }, ?_, ?_⟩
  · intro q _
    refine ⟨by simp [exPlate, ex1], sq1_indep, ⟨fun i j => by simp [eq_comm], fun i j => by simp [eq_comm], fun _ _ => rfl⟩, ?_⟩
    intro e k h
    by_contra h0
    apply h
    simp only [Spec.System.density, Fin.sum_univ_three] at h0
    simp at h0
    constructor <;> funext i <;> rcases fin3_cases i with rfl | rfl | rfl <;> simp only [Pi.zero_apply] <;>
      exact mul_self_eq_zero.1 (le_antisymm (by
        nlinarith [mul_self_nonneg (e 0), mul_self_nonneg (e 1), mul_self_nonneg (e 2), mul_self_nonneg (k 0),
          mul_self_nonneg (k 1), mul_self_nonneg (k 2)]) (mul_self_nonneg _))
  · intro x hx
    have : x 0 ≠ 0 := fun h => hx (funext fun i => by rw [Subsingleton.elim i 0, h]; rfl)
    rw [Finset.univ_unique, Finset.sum_singleton, Finset.sum_singleton, Fin.default_eq_zero]
    have h1 : entry { exPlate with mm := fun _ => (fun i j => if i = j then 1 else 0, fun _ _ => 0, fun _ _ => 0,
        fun i j => if i = j then 1 else 0) } exL 0 0 ≥ 1 := by
      simp only [entry, exPlate, ex1, sq1_measure]
      simp [exL, exFirst, linStiffness, dotV, rowMul, EmDer, sq1, dot, vec3, Fin.sum_univ_three]
      nlinarith [mul_self_nonneg (EfDer sq1 ⟨![⟨1, 0, 0⟩, 0], 0, 0, 0⟩ 0)]
    have h2 := mul_self_pos.2 this
    rw [mul_assoc]
    exact mul_pos (by linarith) h2

/-- **C170** The square of the displacement as goal (component 9, the default): the printed estimated goal is the goal of
the solution in the finer basis minus the goal of the difference of the two solutions.  It is never too large. -/
theorem C170_norm (P : Plate κ β γ π) (hs : SymmetricModuli P) (hd : DeadLoads P.set) (wl : Bool)
    (hw : wl = true ∨ P.set.loads = []) (ψ : Fin n → Fn κ β γ π) (φ : Fin m → Fn κ β γ π)
    (uL zL : EuclideanSpace ℝ (Fin n)) (uH zH : EuclideanSpace ℝ (Fin m)) (h : Solved P 9 ψ φ uL zL zH)
    (hH : Solution P φ uH) :
    (∃ r, row P 9 ψ φ uL zL zH wl = .ok r ∧ r.num = square P (comb ψ uL) ∧ r.est = r.num + r.approx ∧
      r.est = square P (comb φ uH) - distance P (comb φ uH) (comb ψ uL)) ∧
    ((∀ q, 0 ≤ P.set.wt q) → 0 ≤ distance P (comb φ uH) (comb ψ uL)) := by
  have dL : ∀ i, ∑ j, entry P ψ i j * zL j = 2 * inner P (comb ψ uL) (ψ i) := fun i => by
    have := h.dualL i
    rw [dual_square] at this
    exact (Outcome.ok.inj this).symm
  have dH : ∀ i, ∑ j, entry P φ i j * zH j = 2 * inner P (comb ψ uL) (φ i) := fun i => by
    have := h.dualH i
    rw [dual_square] at this
    exact (Outcome.ok.inj this).symm
  refine ⟨?_, fun hq => collect_nonneg P hq _ _ (fun q => by positivity) fun q => by positivity⟩
  have e : ∀ {k : ℕ} (f : Fin k → Fn κ β γ π) (u : EuclideanSpace ℝ (Fin k)),
      ∑ i, 2 * inner P (comb ψ uL) (f i) * u i = 2 * inner P (comb ψ uL) (comb f u) := by
    intro k f u
    rw [inner_comb, Finset.mul_sum]
    exact Finset.sum_congr rfl fun i _ => by ring
  rw [row, goal_square, error_eq P hs hd wl hw ψ φ (fun f => 2 * inner P (comb ψ uL) f) uL zL uH zH h.primal hH dL dH,
    e, e]
  refine ⟨_, rfl, (square_eq P _).symm, rfl, ?_⟩
  rw [distance_eq, square_eq]
  ring

/-- Non-vacuity: the goal is 1 in the coarse basis and 2 in the fine one, and the difference has goal 1. -/
example : Solved exPlate 9 exL exH (!₂[1]) (!₂[2]) (!₂[2, 0]) := by
  have ha : ∀ q, area (exPlate.set.ori q) = 1 := fun _ => sq1_area
  have hb : ∀ q, area (exPlate.pori q) = 1 := fun _ => sq1_area
  have h2 : inner exPlate (comb exL (!₂[1])) exFirst = 1 := by
    simp only [inner, collect, total, ha, hb]
    simp [exPlate, ex1, exFirst, exL, comb, Balance.vsum, dot]
  have h3 : inner exPlate (comb exL (!₂[1])) exSecond = 0 := by
    simp only [inner, collect, total, ha, hb]
    simp [exPlate, ex1, exFirst, exSecond, exL, comb, Balance.vsum, dot]
  refine ⟨exL_solution, fun i => ?_, fun i => ?_⟩
  · rw [dual_square, Subsingleton.elim i 0, Finset.univ_unique, Finset.sum_singleton, Fin.default_eq_zero, exL_entry,
      show exL 0 = exFirst from rfl, h2]
    simp
  · rw [dual_square, Fin.sum_univ_two]
    simp only [exH_entry]
    rcases fin2_cases i with rfl | rfl
    · rw [show exH 0 = exFirst from rfl, h2]; simp
    · rw [show exH 1 = exSecond from rfl, h3]; simp

/-- **C170** As the program calls the estimator, the work of the point loads on the difference of the dual solutions is
missing from the estimate and from the estimated goal.  If there are point loads only, the estimate is 0 for all bases.
Missing: with point loads, the estimated goal is not the goal of the solution in the finer basis. -/
theorem C170_loads_partial (P : Plate κ β γ π) (c : Fin 3) (ψ : Fin n → Fn κ β γ π) (φ : Fin m → Fn κ β γ π)
    (uL zL : EuclideanSpace ℝ (Fin n)) (uH zH : EuclideanSpace ℝ (Fin m)) :
    (SymmetricModuli P → DeadLoads P.set → Solved P c ψ φ uL zL zH → Solution P φ uH →
      ∃ r, row P c ψ φ uL zL zH = .ok r ∧ r.num = average P c (comb ψ uL) ∧ r.est = r.num + r.approx ∧
        r.est = average P c (comb φ uH) - (P.set.loads.map fun k =>
          dot ((comb φ zH).disc.l k) (P.set.load k).value - dot ((comb ψ zL).disc.l k) (P.set.load k).value).sum) ∧
    ((∀ q, P.set.F q = 0) → P.set.bdr = [] →
      row P c ψ φ uL zL zH = .ok ⟨average P c (comb ψ uL), 0, average P c (comb ψ uL)⟩) := by
  constructor
  · intro hs hd h hH
    have dL : ∀ i, ∑ j, entry P ψ i j * zL j = average P c (ψ i) := fun i => by
      have := h.dualL i
      rw [dual_component] at this
      exact (Outcome.ok.inj this).symm
    have dH : ∀ i, ∑ j, entry P φ i j * zH j = average P c (φ i) := fun i => by
      have := h.dualH i
      rw [dual_component] at this
      exact (Outcome.ok.inj this).symm
    rw [row, goal_component, error_split _ _ _ _ _
      (error_eq P hs hd true (Or.inl rfl) ψ φ (average P c) uL zL uH zH h.primal hH dL dH ⟨0, []⟩)]
    refine ⟨_, rfl, rfl, rfl, ?_⟩
    simp only [loadSum_eq, list_sum_sub, average_comb]
    ring
  · intro hF hb
    have hi : ∀ zL zH : Disc κ β γ, totalError false .linear false P.set zL zH ⟨0, []⟩ = .ok 0 := by
      intro zL zH
      have h0 : ∀ z : Disc κ β γ, total P.set (resAt .linear P.set z) = 0 := by
        intro z
        refine List.sum_eq_zero fun x hx => ?_
        obtain ⟨q, -, rfl⟩ := List.mem_map.1 hx
        simp [resAt, hF, dot]
      simp [totalError, estimate, Outcome.map, DWR.integral_eq, h0, neumann, hb]
    rw [row, goal_component, hi]
    simp [Outcome.bind]

/-- Non-vacuity: there is a point load only. -/
example : (∀ q, exPlate.set.F q = 0) ∧ exPlate.set.bdr = [] ∧ exPlate.set.loads ≠ [] ∧
    Solved exPlate ((1 : Fin 3) : ℕ) exL exH (!₂[1]) (!₂[0]) (!₂[0, 1]) ∧ Solution exPlate exH (!₂[1, 1]) :=
  ⟨fun _ => by ext <;> simp [exPlate, ex1, up], rfl, by simp [exPlate, ex1], ex_solved, exH_solution⟩

/-- **C170** The printed efficiency, for a component of the displacement without point loads: it is 1 exactly if the
solution in the finer basis has the exact goal, its distance from 1 is the error of the finer basis relative to that of
the coarser one, and it is not a number exactly if the coarser basis already has the exact goal. -/
theorem C170_efficiency (P : Plate κ β γ π) (hs : SymmetricModuli P) (hd : DeadLoads P.set) (hw : P.set.loads = [])
    (c : Fin 3) (ψ : Fin n → Fn κ β γ π) (φ : Fin m → Fn κ β γ π) (uL zL : EuclideanSpace ℝ (Fin n))
    (uH zH : EuclideanSpace ℝ (Fin m)) (h : Solved P c ψ φ uL zL zH) (hH : Solution P φ uH) (J : ℝ) :
    ∃ r, row P c ψ φ uL zL zH = .ok r ∧ (efficiency J r = none ↔ average P c (comb ψ uL) = J) ∧
      ∀ e, efficiency J r = some e →
        |e - 1| * |J - average P c (comb ψ uL)| = |J - average P c (comb φ uH)| ∧
        (e = 1 ↔ average P c (comb φ uH) = J) := by
  refine ⟨_, C170_component P hs hd false (Or.inr hw) c ψ φ uL zL uH zH h hH, ?_, fun e he => ?_⟩
  · simp only [efficiency]
    split_ifs with h0
    · simp only [true_iff]; linarith
    · simp only [false_iff]
      intro h1
      exact h0 (by rw [h1, sub_self])
  · simp only [efficiency] at he
    split_ifs at he with h0
    have he' := Option.some.inj he
    have key : (e - 1) * (J - average P c (comb ψ uL)) = -(J - average P c (comb φ uH)) := by
      rw [← he', sub_mul, div_mul_cancel₀ _ h0]; ring
    refine ⟨by rw [← abs_mul, key, abs_neg], fun h1 => ?_, fun h1 => ?_⟩
    · rw [h1, sub_self, zero_mul] at key
      linarith
    · rw [h1, sub_self, neg_zero] at key
      have := (mul_eq_zero.1 key).resolve_right h0
      linarith

/-- Non-vacuity: a vertical body force instead of the point load, and a function in the vertical direction. -/
example : ∃ (P : Plate Unit Unit Unit Unit) (ψ : Fin 1 → Fn Unit Unit Unit Unit) (u : EuclideanSpace ℝ (Fin 1)),
    SymmetricModuli P ∧ DeadLoads P.set ∧ P.set.loads = [] ∧ rhs P ψ 0 = 3 ∧ Solution P ψ u ∧
    Solved P ((2 : Fin 3) : ℕ) ψ ψ u (!₂[1]) (!₂[1]) ∧ average P 2 (comb ψ u) = 3 := by
  let P : Plate Unit Unit Unit Unit :=
    { exPlate with set := { exPlate.set with loads := [], F := fun _ => ⟨0, 0, 3⟩ }, pts := [] }
  let ψ : Fin 1 → Fn Unit Unit Unit Unit := fun _ => ⟨{ exFirst.disc with w := fun _ => up }, fun _ => 0⟩
  have he : entry P ψ 0 0 = 1 := exL_entry
  have ha : ∀ q, area (P.set.ori q) = 1 := fun _ => sq1_area
  have hm : ∀ q, Variation.measure (P.set.ori q) = 1 := fun _ => sq1_area
  have hr : rhs P ψ 0 = 3 := by
    simp only [rhs, hm]
    simp [P, ψ, exPlate, ex1, up, dot]
  have hv : average P 2 (ψ 0) = 1 := by
    simp only [average, collect, total, ha]
    simp [P, ψ, exPlate, ex1, up, coord]
  have hu : Solution P ψ (!₂[3]) := by
    intro i
    rw [Subsingleton.elim i 0, hr, Finset.univ_unique, Finset.sum_singleton, Fin.default_eq_zero, he]
    simp
  have hz : ∀ i, dual P ((2 : Fin 3) : ℕ) ψ (comb ψ (!₂[3])) i
      = .ok (∑ j, entry P ψ i j * (!₂[1] : EuclideanSpace ℝ (Fin 1)) j) := by
    intro i
    rw [dual_component, Subsingleton.elim i 0, hv, Finset.univ_unique, Finset.sum_singleton, Fin.default_eq_zero, he]
    simp
  refine ⟨P, ψ, !₂[3], exPlate_symm, ⟨fun _ => rfl, fun _ => rfl⟩, rfl, hr, hu, ⟨hu, hz, hz⟩, ?_⟩
  rw [average_comb, Finset.univ_unique, Finset.sum_singleton, Fin.default_eq_zero, hv]
  simp

/-- **C170** With a point load, the program prints an estimate 0 and an estimated goal 0 although the goal of the solution
in the finer basis is 1; passing the loads to the estimator gives both exactly. -/
theorem C170_loads_violated :
    ∃ (P : Plate Unit Unit Unit Unit) (ψ : Fin 1 → Fn Unit Unit Unit Unit) (φ : Fin 2 → Fn Unit Unit Unit Unit)
      (uL zL : EuclideanSpace ℝ (Fin 1)) (uH zH : EuclideanSpace ℝ (Fin 2)),
      SymmetricModuli P ∧ DeadLoads P.set ∧ Solved P ((1 : Fin 3) : ℕ) ψ φ uL zL zH ∧ Solution P φ uH ∧
      average P 1 (comb φ uH) = 1 ∧ row P ((1 : Fin 3) : ℕ) ψ φ uL zL zH = .ok ⟨0, 0, 0⟩ ∧
      row P ((1 : Fin 3) : ℕ) ψ φ uL zL zH true = .ok ⟨0, 1, 1⟩ := by
  have hL : average exPlate 1 (comb exL (!₂[1])) = 0 := by
    rw [average_comb, Finset.univ_unique, Finset.sum_singleton]
    simp [exL, exFirst_average]
  have hH : average exPlate 1 (comb exH (!₂[1, 1])) = 1 := by
    rw [average_comb, Fin.sum_univ_two]
    simp [exH, exFirst_average, exSecond_average]
  have hd : DeadLoads exPlate.set := ⟨fun _ => rfl, fun _ => rfl⟩
  refine ⟨exPlate, exL, exH, !₂[1], !₂[0], !₂[1, 1], !₂[0, 1], exPlate_symm, hd, ex_solved, exH_solution, hH, ?_, ?_⟩
  · rw [(C170_loads_partial exPlate 1 exL exH (!₂[1]) (!₂[0]) (!₂[1, 1]) (!₂[0, 1])).2
      (fun _ => by ext <;> simp [exPlate, ex1, up]) rfl, hL]
  · rw [C170_component exPlate exPlate_symm hd true (Or.inl rfl) 1 exL exH _ _ _ _ ex_solved exH_solution, hL, hH]
    norm_num

end Verif.LinearTable
