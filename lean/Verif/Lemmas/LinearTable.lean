import Verif.Spec.LinearTable
import Verif.Spec.System
import Verif.Lemmas.System
import Verif.Lemmas.ModalProgram
import Verif.Lemmas.DWRError
import Verif.Props.DWRError

/-! # Lemmas: the table of the linear example of the error estimator -/

namespace Verif.LinearTable

open V3 Verif.Geometry Verif.Variation Verif.DWR Verif.Spec.LinearTable
open Verif.Balance (vsum)

variable {κ β γ π : Type} {n m : ℕ}

theorem goal_list {ι : Type} (R : Region) (c : ℕ) (l : List ι) (w : ι → ℝ) (p : ι → Pt) (v : ι → ℝ)
    (h : ∀ q, goalAt R .displacement c (p q) = .ok (v q)) :
    DWR.goal R .displacement c (l.map fun q => (w q, p q)) = .ok (l.map fun q => w q * v q).sum := by
  induction l with
  | nil => rfl
  | cons a l ih => simp only [List.map_cons, DWR.goal, h, ih, Outcome.bind, List.sum_cons]

theorem dual_list {ι : Type} (R : Region) (c : ℕ) (l : List ι) (w : ι → ℝ) (p : ι → Pt) (d : ι → Fld) (v : ι → ℝ)
    (h : ∀ q, dualAt R .displacement c (p q) (d q) = .ok (v q)) :
    DWR.dual R .displacement c (l.map fun q => (w q, p q, d q)) = .ok (l.map fun q => w q * v q).sum := by
  induction l with
  | nil => rfl
  | cons a l ih => simp only [List.map_cons, DWR.dual, h, ih, Outcome.bind, List.sum_cons]

/-- Collected product of two fields. -/
noncomputable def inner (P : Plate κ β γ π) (f g : Fn κ β γ π) : ℝ :=
  collect P (fun q => dot (f.disc.w q) (g.disc.w q)) fun q => dot (f.p q) (g.p q)

theorem collect_eq (P : Plate κ β γ π) (f : κ → ℝ) (g : π → ℝ) :
    (P.set.elems.flatten.map fun q => P.set.wt q * (f q * Variation.measure (P.set.ori q))).sum
      + (P.pts.map fun q => 1 * (g q * Variation.measure (P.pori q))).sum = collect P f g := by
  simp only [collect, total, measure_area, one_mul, mul_assoc]

theorem goal_component (P : Plate κ β γ π) (c : Fin 3) (f : Fn κ β γ π) : goal P c f = .ok (average P c f) := by
  have h9 : ¬ (c : ℕ) = 9 := by omega
  have key : ∀ (R : Region) (hR : ∀ s, R.meas s = Variation.measure s) (s : Surf) (X u : V3),
      goalAt R .displacement c (state s X u) = .ok (coord c u * Variation.measure s) := by
    intro R hR s X u
    simp only [goalAt, select, h9, if_false, c.isLt, dif_pos, hR]
    rcases fin3_cases c with rfl | rfl | rfl <;> simp [quantity, state, comps, coord, vec3]
  rw [goal, goal_list _ _ _ _ _ _ fun q => key .domain (fun _ => rfl) _ _ _,
    goal_list _ _ _ _ _ _ fun q => key .points (fun _ => rfl) _ _ _]
  simp only [Outcome.bind, average, ← collect_eq]

theorem goal_square (P : Plate κ β γ π) (f : Fn κ β γ π) : goal P 9 f = .ok (inner P f f) := by
  have key : ∀ (R : Region) (hR : ∀ s, R.meas s = Variation.measure s) (s : Surf) (X u : V3),
      goalAt R .displacement 9 (state s X u) = .ok (dot u u * Variation.measure s) := by
    intro R hR s X u
    simp [goalAt, select, hR, quantity, state, comps, dotV, dot, vec3, Fin.sum_univ_three]
  rw [goal, goal_list _ _ _ _ _ _ fun q => key .domain (fun _ => rfl) _ _ _,
    goal_list _ _ _ _ _ _ fun q => key .points (fun _ => rfl) _ _ _]
  simp only [Outcome.bind, inner, ← collect_eq]

theorem dual_component (P : Plate κ β γ π) (c : Fin 3) (φ : Fin n → Fn κ β γ π) (f : Fn κ β γ π) (i : Fin n) :
    dual P c φ f i = .ok (average P c (φ i)) := by
  have h9 : ¬ (c : ℕ) = 9 := by omega
  have key : ∀ (R : Region) (hR : ∀ s, R.meas s = Variation.measure s) (s : Surf) (X u : V3) (v : Fld),
      dualAt R .displacement c (state s X u) v = .ok (coord c v.w * Variation.measure s) := by
    intro R hR s X u v
    simp only [dualAt, selectDer, h9, if_false, c.isLt, dif_pos, hR]
    rcases fin3_cases c with rfl | rfl | rfl <;> simp [state, comps, coord, vec3]
  rw [dual, dual_list _ _ _ _ _ _ _ fun q => key .domain (fun _ => rfl) _ _ _ _,
    dual_list _ _ _ _ _ _ _ fun q => key .points (fun _ => rfl) _ _ _ _]
  simp only [Outcome.bind, average, ← collect_eq]

theorem collect_smul (P : Plate κ β γ π) (a : ℝ) (f : κ → ℝ) (g : π → ℝ) :
    collect P (fun q => a * f q) (fun q => a * g q) = a * collect P f g := by
  have h : ∀ {ι : Type} (l : List ι) (f : ι → ℝ), (l.map fun q => a * f q).sum = a * (l.map f).sum := by
    intro ι l f
    induction l with
    | nil => simp
    | cons x l ih => simp only [List.map_cons, List.sum_cons, ih]; ring
  simp only [collect, total, mul_add, ← h]
  refine congrArg₂ _ ?_ ?_ <;> refine congrArg _ (List.map_congr_left fun q _ => ?_) <;> ring

theorem collect_add (P : Plate κ β γ π) (f f' : κ → ℝ) (g g' : π → ℝ) :
    collect P (fun q => f q + f' q) (fun q => g q + g' q) = collect P f g + collect P f' g' := by
  simp only [collect, total, mul_add, add_mul, list_sum_add]
  ring

theorem collect_sum (P : Plate κ β γ π) (u : Fin n → ℝ) (f : Fin n → κ → ℝ) (g : Fin n → π → ℝ) :
    collect P (fun q => ∑ i, u i * f i q) (fun q => ∑ i, u i * g i q) = ∑ i, u i * collect P (f i) (g i) := by
  simp only [collect, total, mul_add, Finset.sum_add_distrib, ← list_sum_comb, Finset.mul_sum, Finset.sum_mul]
  refine congrArg₂ _ ?_ ?_ <;> refine congrArg _ (List.map_congr_left fun q _ => ?_) <;>
    exact Finset.sum_congr rfl fun i _ => by ring

theorem dual_square (P : Plate κ β γ π) (φ : Fin n → Fn κ β γ π) (f : Fn κ β γ π) (i : Fin n) :
    dual P 9 φ f i = .ok (2 * inner P f (φ i)) := by
  have key : ∀ (R : Region) (hR : ∀ s, R.meas s = Variation.measure s) (s : Surf) (X u : V3) (v : Fld),
      dualAt R .displacement 9 (state s X u) v = .ok ((2 * dot u v.w) * Variation.measure s) := by
    intro R hR s X u v
    simp only [dualAt, selectDer, hR, if_true]
    refine congrArg _ ?_
    simp [state, comps, dotV, dot, vec3, Fin.sum_univ_three]
    left; ring
  rw [dual, dual_list _ _ _ _ _ _ _ fun q => key .domain (fun _ => rfl) _ _ _ _,
    dual_list _ _ _ _ _ _ _ fun q => key .points (fun _ => rfl) _ _ _ _]
  simp only [Outcome.bind, inner]
  rw [← collect_smul, ← collect_eq]

theorem vsum_xyz (c : Fin n → ℝ) (v : Fin n → V3) : (vsum Finset.univ fun i => c i • v i)
    = ⟨∑ i, c i * (v i).x, ∑ i, c i * (v i).y, ∑ i, c i * (v i).z⟩ := by
  ext <;> simp [vsum]

theorem comb_disc (φ : Fin n → Fn κ β γ π) (c : EuclideanSpace ℝ (Fin n)) :
    (comb φ c).disc = DWR.comb (fun i => c i) fun i => (φ i).disc := by
  simp only [comb, DWR.comb, vsum_xyz]

theorem coord_vsum (k : Fin 3) (c : Fin n → ℝ) (v : Fin n → V3) :
    coord k (vsum Finset.univ fun i => c i • v i) = ∑ i, c i * coord k (v i) := by
  rw [vsum_xyz]
  rcases fin3_cases k with rfl | rfl | rfl <;> rfl

theorem average_comb (P : Plate κ β γ π) (k : Fin 3) (φ : Fin n → Fn κ β γ π) (u : EuclideanSpace ℝ (Fin n)) :
    average P k (comb φ u) = ∑ i, average P k (φ i) * u i := by
  simp only [average, comb, coord_vsum, collect_sum, mul_comm]

theorem dot_vsum (a : V3) (c : Fin n → ℝ) (v : Fin n → V3) :
    dot a (vsum Finset.univ fun i => c i • v i) = ∑ i, c i * dot a (v i) := by
  rw [vsum_xyz]
  simp only [dot, Finset.mul_sum, ← Finset.sum_add_distrib]
  exact Finset.sum_congr rfl fun i _ => by ring

theorem inner_comb (P : Plate κ β γ π) (f : Fn κ β γ π) (φ : Fin n → Fn κ β γ π) (u : EuclideanSpace ℝ (Fin n)) :
    inner P f (comb φ u) = ∑ i, u i * inner P f (φ i) := by
  have h : inner P f (comb φ u) = collect P (fun q => ∑ i, u i * dot (f.disc.w q) ((φ i).disc.w q))
      fun q => ∑ i, u i * dot (f.p q) ((φ i).p q) := by
    simp only [inner, comb, dot_vsum]
  rw [h, collect_sum]
  rfl

theorem square_eq (P : Plate κ β γ π) (f : Fn κ β γ π) : square P f = inner P f f := by
  simp only [square, inner, dot, pow_two]

theorem distance_eq (P : Plate κ β γ π) (f g : Fn κ β γ π) :
    distance P f g = inner P f f - 2 * inner P g f + inner P g g := by
  have h : inner P f f - 2 * inner P g f + inner P g g
      = (inner P f f + -2 * inner P g f) + inner P g g := by ring
  rw [h, inner, inner, inner, ← collect_smul, ← collect_add, ← collect_add, distance]
  congr 1 <;> funext q <;> simp only [dot] <;> ring

theorem entry_symm (P : Plate κ β γ π) (h : SymmetricModuli P) (φ : Fin n → Fn κ β γ π) (i j : Fin n) :
    entry P φ i j = entry P φ j i := by
  rw [entry, entry]
  congr 1
  apply List.map_congr_left
  intro q _
  have := System.integrand_symm (P.set.ori q) ((φ i).disc.d q) ((φ j).disc.d q)
    ⟨(P.mm q).1, (P.mm q).2.1, (P.mm q).2.2.1, (P.mm q).2.2.2, fun _ => 0, fun _ => 0⟩
    ⟨fun i j => (h q i j).1, fun i j => (h q i j).2.2, fun i j => ((h q j i).2.1).symm⟩
  simp only [System.integrand, if_true] at this
  rw [this]

theorem solvable (K : Fin n → Fin n → ℝ) (h : ∀ x : Fin n → ℝ, x ≠ 0 → 0 < ∑ i, ∑ j, K i j * x j * x i)
    (b : Fin n → ℝ) : ∃! x : EuclideanSpace ℝ (Fin n), ∀ i, ∑ j, K i j * x j = b i := by
  let L : (Fin n → ℝ) →ₗ[ℝ] (Fin n → ℝ) := Matrix.mulVecLin (Matrix.of K)
  have hL : ∀ x i, L x i = ∑ j, K i j * x j := fun x i => rfl
  have hi : Function.Injective L := by
    rw [← LinearMap.ker_eq_bot, LinearMap.ker_eq_bot']
    intro x hx
    by_contra h0
    have := h x h0
    simp only [← Finset.sum_mul, ← hL, hx, Pi.zero_apply, zero_mul, Finset.sum_const_zero, lt_irrefl] at this
  obtain ⟨x, hx⟩ := (LinearMap.injective_iff_surjective.1 hi) b
  refine ⟨WithLp.toLp 2 x, fun i => ?_, fun y hy => ?_⟩
  · rw [← hx]; exact (hL x i).symm
  · have : L (fun i => y i) = L x := by
      funext i
      rw [hL, hy, hx]
    have e := hi this
    ext i
    exact congrFun e i

theorem rhs_eq (P : Plate κ β γ π) (φ : Fin n → Fn κ β γ π) (i : Fin n) :
    rhs P φ i = deadWork P.set (φ i).disc := by
  simp only [rhs, deadWork, total, measure_area, mul_assoc]

/-- The discrete problem of a basis. -/
noncomputable def problem (P : Plate κ β γ π) (h : SymmetricModuli P) (φ : Fin n → Fn κ β γ π) (J : Fin n → ℝ)
    (u z : EuclideanSpace ℝ (Fin n)) (hu : Solution P φ u) (hz : ∀ i, ∑ j, entry P φ i j * z j = J i) :
    Galerkin P.set n where
  φ i := (φ i).disc
  K := entry P φ
  symm := entry_symm P h φ
  J := J
  u i := u i
  z i := z i
  primal i := by rw [← rhs_eq]; exact hu i
  dual := hz

theorem error_eq (P : Plate κ β γ π) (h : SymmetricModuli P) (hd : DeadLoads P.set) (wl : Bool)
    (hw : wl = true ∨ P.set.loads = []) (ψ : Fin n → Fn κ β γ π) (φ : Fin m → Fn κ β γ π) (J : Fn κ β γ π → ℝ)
    (uL zL : EuclideanSpace ℝ (Fin n)) (uH zH : EuclideanSpace ℝ (Fin m)) (hL : Solution P ψ uL)
    (hH : Solution P φ uH) (dL : ∀ i, ∑ j, entry P ψ i j * zL j = J (ψ i))
    (dH : ∀ i, ∑ j, entry P φ i j * zH j = J (φ i)) (r : Result) :
    totalError false .linear wl P.set (comb ψ zL).disc (comb φ zH).disc r
      = .ok ((∑ i, J (φ i) * uH i) - ∑ i, J (ψ i) * uL i) := by
  rw [comb_disc, comb_disc]
  exact C94_exact_partial P.set hd wl hw (problem P h ψ (fun i => J (ψ i)) uL zL hL dL)
    (problem P h φ (fun i => J (φ i)) uH zH hH dH) r

theorem error_split {α β γ : Type} (D : Setup α β γ) (zL zH : Disc α β γ) (r : Result) (e : ℝ)
    (h : totalError false .linear true D zL zH r = .ok e) :
    totalError false .linear false D zL zH r = .ok (e - loadSum D zL zH) := by
  simp only [totalError, estimate, Outcome.map, usesNeumann, if_true, Outcome.ok.injEq, Bool.false_eq_true, if_false]
    at h ⊢
  rw [← h]; ring

theorem collect_nonneg (P : Plate κ β γ π) (hw : ∀ q, 0 ≤ P.set.wt q) (f : κ → ℝ) (g : π → ℝ) (hf : ∀ q, 0 ≤ f q)
    (hg : ∀ q, 0 ≤ g q) : 0 ≤ collect P f g := by
  refine add_nonneg (List.sum_nonneg ?_) (List.sum_nonneg ?_) <;> intro x hx <;>
    obtain ⟨q, -, rfl⟩ := List.mem_map.1 hx
  · exact mul_nonneg (mul_nonneg (hw q) (hf q)) (Real.sqrt_nonneg _)
  · exact mul_nonneg (hg q) (Real.sqrt_nonneg _)

/-- One quadrature point on a flat square; a point load `(1,1,0)` at the point of the goal. -/
noncomputable def exPlate : Plate Unit Unit Unit Unit where
  set :=
    { ex1 0 0 0 0 0 [[unitBox]] with
      bdr := []
      load := fun _ => ⟨0, fun _ => 1 / 2, ⟨1, 1, 0⟩⟩ }
  X _ := 0
  mm _ := (fun i j => if i = j then 1 else 0, fun _ _ => 0, fun _ _ => 0, fun _ _ => 0)
  pts := [()]
  pori _ := sq1
  pX _ := 0

/-- Stretching in the first direction. -/
noncomputable def exFirst : Fn Unit Unit Unit Unit :=
  ⟨⟨fun _ => 0, fun _ => ⟨![⟨1, 0, 0⟩, 0], 0, 0, 0⟩, fun _ => 0, fun _ => ⟨1, 0, 0⟩⟩, fun _ => ⟨1, 0, 0⟩⟩

/-- Stretching in the second direction. -/
noncomputable def exSecond : Fn Unit Unit Unit Unit :=
  ⟨⟨fun _ => 0, fun _ => ⟨![0, ⟨0, 1, 0⟩], 0, 0, 0⟩, fun _ => 0, fun _ => ⟨0, 1, 0⟩⟩, fun _ => ⟨0, 1, 0⟩⟩

/-- The coarse basis. -/
noncomputable def exL : Fin 1 → Fn Unit Unit Unit Unit := fun _ => exFirst

/-- The fine basis. -/
noncomputable def exH : Fin 2 → Fn Unit Unit Unit Unit := ![exFirst, exSecond]

theorem exL_entry : entry exPlate exL 0 0 = 1 := by
  simp only [entry, exPlate, ex1, sq1_measure]
  simp [exL, exFirst, linStiffness, dotV, rowMul, EmDer, sq1, dot, vec3]

theorem exH_entry (i j : Fin 2) : entry exPlate exH i j = if i = j then 1 else 0 := by
  simp only [entry, exPlate, ex1, sq1_measure]
  rcases fin2_cases i with rfl | rfl <;> rcases fin2_cases j with rfl | rfl <;>
    simp [exH, exFirst, exSecond, linStiffness, dotV, rowMul, EmDer, sq1, dot, Fin.sum_univ_three, vec3]

theorem exPlate_symm : SymmetricModuli exPlate := by
  intro q i j
  simp [exPlate, eq_comm]

theorem exL_rhs : rhs exPlate exL 0 = 1 := by
  simp [rhs, exPlate, ex1, exL, exFirst, dot]

theorem exH_rhs (i : Fin 2) : rhs exPlate exH i = 1 := by
  rcases fin2_cases i with rfl | rfl <;> simp [rhs, exPlate, ex1, exH, exFirst, exSecond, dot]

theorem exL_solution : Solution exPlate exL (!₂[1]) := by
  intro i
  rw [Subsingleton.elim i 0, exL_rhs, Finset.univ_unique, Finset.sum_singleton, Fin.default_eq_zero, exL_entry]
  simp

theorem exH_solution : Solution exPlate exH (!₂[1, 1]) := by
  intro i
  rw [exH_rhs, Fin.sum_univ_two]
  simp only [exH_entry]
  rcases fin2_cases i with rfl | rfl <;> simp

theorem exFirst_average (c : Fin 3) : average exPlate c exFirst = if c = 0 then 1 else 0 := by
  have ha : ∀ q, area (exPlate.set.ori q) = 1 := fun _ => sq1_area
  have hb : ∀ q, area (exPlate.pori q) = 1 := fun _ => sq1_area
  simp only [average, collect, total, ha, hb]
  rcases fin3_cases c with rfl | rfl | rfl <;> simp [exPlate, ex1, exFirst, coord]

theorem exSecond_average (c : Fin 3) : average exPlate c exSecond = if c = 1 then 1 else 0 := by
  have ha : ∀ q, area (exPlate.set.ori q) = 1 := fun _ => sq1_area
  have hb : ∀ q, area (exPlate.pori q) = 1 := fun _ => sq1_area
  simp only [average, collect, total, ha, hb]
  rcases fin3_cases c with rfl | rfl | rfl <;> simp [exPlate, ex1, exSecond, coord]

theorem ex_solved : Solved exPlate ((1 : Fin 3) : ℕ) exL exH (!₂[1]) (!₂[0]) (!₂[0, 1]) where
  primal := exL_solution
  dualL i := by
    rw [dual_component, Subsingleton.elim i 0, Finset.univ_unique, Finset.sum_singleton, Fin.default_eq_zero]
    simp [exL, exFirst_average]
  dualH i := by
    rw [dual_component, Fin.sum_univ_two]
    simp only [exH_entry]
    rcases fin2_cases i with rfl | rfl <;> simp [exH, exFirst_average, exSecond_average]

/-- Moduli at a point. -/
def sect (P : Plate κ β γ π) (q : κ) : Balance.Section :=
  ⟨(P.mm q).1, (P.mm q).2.1, (P.mm q).2.2.1, (P.mm q).2.2.2, fun _ => 0, fun _ => 0⟩

theorem energy_eq (P : Plate κ β γ π) (φ : Fin n → Fn κ β γ π) (x : EuclideanSpace ℝ (Fin n)) :
    ∑ i, ∑ j, entry P φ i j * x j * x i = (P.set.elems.flatten.map fun q => P.set.wt q
      * (Spec.System.density (sect P q) (EmDer (P.set.ori q) ((comb φ x).disc.d q))
        (EfDer (P.set.ori q) ((comb φ x).disc.d q)) * Variation.measure (P.set.ori q))).sum := by
  have h1 : ∀ i, ∑ j, entry P φ i j * x j * x i = x i * (P.set.elems.flatten.map fun q => P.set.wt q
      * (linStiffness (P.set.ori q) ((φ i).disc.d q) ((comb φ x).disc.d q)
        (P.mm q).1 (P.mm q).2.1 (P.mm q).2.2.1 (P.mm q).2.2.2 * Variation.measure (P.set.ori q))).sum := by
    intro i
    have e : ∀ q, linStiffness (P.set.ori q) ((φ i).disc.d q) ((comb φ x).disc.d q)
        (P.mm q).1 (P.mm q).2.1 (P.mm q).2.2.1 (P.mm q).2.2.2 = ∑ j, x j * linStiffness (P.set.ori q)
          ((φ i).disc.d q) ((φ j).disc.d q) (P.mm q).1 (P.mm q).2.1 (P.mm q).2.2.1 (P.mm q).2.2.2 :=
      fun q => ModalProgram.lin_part_right (fun i => x i) (fun i => (φ i).disc.d q) _ _ _ _ _ _
    have e' : ∀ q, P.set.wt q * (linStiffness (P.set.ori q) ((φ i).disc.d q) ((comb φ x).disc.d q)
        (P.mm q).1 (P.mm q).2.1 (P.mm q).2.2.1 (P.mm q).2.2.2 * Variation.measure (P.set.ori q))
        = ∑ j, x j * (P.set.wt q * (linStiffness (P.set.ori q) ((φ i).disc.d q) ((φ j).disc.d q)
          (P.mm q).1 (P.mm q).2.1 (P.mm q).2.2.1 (P.mm q).2.2.2 * Variation.measure (P.set.ori q))) := by
      intro q
      rw [e, Finset.sum_mul, Finset.mul_sum]
      exact Finset.sum_congr rfl fun j _ => by ring
    simp only [e']
    rw [list_sum_comb, Finset.mul_sum]
    exact Finset.sum_congr rfl fun j _ => by rw [entry]; ring
  simp only [h1]
  rw [← list_sum_comb]
  congr 1
  apply List.map_congr_left
  intro q _
  have e := ModalProgram.lin_part_left (fun i => x i) (fun i => (φ i).disc.d q) (P.set.ori q) ((comb φ x).disc.d q)
    (P.mm q).1 (P.mm q).2.1 (P.mm q).2.2.1 (P.mm q).2.2.2
  have e2 := System.integrand_self (P.set.ori q) ((comb φ x).disc.d q) (sect P q)
  rw [← e2]
  simp only [System.integrand, if_true]
  rw [show linStiffness (P.set.ori q) ((comb φ x).disc.d q) ((comb φ x).disc.d q) (sect P q).A (sect P q).B (sect P q).C
    (sect P q).D = _ from e, Finset.sum_mul, Finset.mul_sum]
  exact Finset.sum_congr rfl fun j _ => by ring

theorem list_sum_pos {ι : Type} (l : List ι) (f : ι → ℝ) (h : ∀ q ∈ l, 0 ≤ f q) :
    0 < (l.map f).sum ↔ ∃ q ∈ l, 0 < f q := by
  induction l with
  | nil => simp
  | cons a l ih =>
    have ha := h a (by simp)
    have hl : 0 ≤ (l.map f).sum := List.sum_nonneg fun x hx => by
      obtain ⟨q, hq, rfl⟩ := List.mem_map.1 hx
      exact h q (by simp [hq])
    have ih' := ih fun q hq => h q (by simp [hq])
    simp only [List.map_cons, List.sum_cons, List.mem_cons, exists_eq_or_imp, ← ih']
    constructor
    · intro hp
      rcases ha.lt_or_eq with h1 | h1
      · exact Or.inl h1
      · right; rw [← h1, zero_add] at hp; exact hp
    · rintro (h1 | h1)
      · linarith
      · linarith

theorem measure_pos (s : Surf) (h : Indep (s.a 0) (s.a 1)) : 0 < Variation.measure s := V3.norm_pos h.cross_ne

theorem exL_stiff : Stiff exPlate exL := by
  intro x hx
  rw [Finset.univ_unique, Finset.sum_singleton, Finset.sum_singleton, Fin.default_eq_zero, exL_entry, one_mul]
  have : x 0 ≠ 0 := fun h => hx (funext fun i => by rw [Subsingleton.elim i 0, h]; rfl)
  exact mul_self_pos.2 this

theorem exH_stiff : Stiff exPlate exH := by
  intro x hx
  simp only [Fin.sum_univ_two, exH_entry]
  by_contra h
  have h' : x 0 * x 0 + x 1 * x 1 ≤ 0 := by simpa using h
  apply hx
  funext i
  rcases fin2_cases i with rfl | rfl 
  · exact mul_self_eq_zero.1 (le_antisymm (by nlinarith [mul_self_nonneg (x 1)]) (mul_self_nonneg _))
  · exact mul_self_eq_zero.1 (le_antisymm (by nlinarith [mul_self_nonneg (x 0)]) (mul_self_nonneg _))

end Verif.LinearTable
