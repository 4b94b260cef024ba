import Verif.Spec.DWRError
import Verif.Props.StrainVariation
import Verif.Props.Variation
import Mathlib.Algebra.BigOperators.Group.List.Basic
import Mathlib.Tactic.FieldSimp

/-! # Lemmas for the error estimates -/

namespace Verif.DWR

open V3 Verif.Geometry Verif.Variation

variable {α β γ : Type}

theorem list_sum_add {ι : Type} (l : List ι) (f g : ι → ℝ) :
    (l.map fun q => f q + g q).sum = (l.map f).sum + (l.map g).sum := by
  induction l with
  | nil => simp
  | cons a l ih => simp [ih]; ring

theorem list_sum_sub {ι : Type} (l : List ι) (f g : ι → ℝ) :
    (l.map fun q => f q - g q).sum = (l.map f).sum - (l.map g).sum := by
  induction l with
  | nil => simp
  | cons a l ih => simp [ih]; ring

theorem list_sum_comb {ι : Type} {n : ℕ} (l : List ι) (c : Fin n → ℝ) (f : Fin n → ι → ℝ) :
    (l.map fun q => ∑ i, c i * f i q).sum = ∑ i, c i * (l.map (f i)).sum := by
  induction l with
  | nil => simp
  | cons a l ih => simp [ih, mul_add, Finset.sum_add_distrib]

theorem sum_flatten {ι : Type} (l : List (List ι)) (f : ι → ℝ) :
    (l.map fun e => (e.map f).sum).sum = (l.flatten.map f).sum := by
  induction l with
  | nil => simp
  | cons a l ih => simp [ih]

theorem measure_area (s : Surf) : Variation.measure s = area s := rfl

theorem jacDiff_eq (zL zH : Surf) : jacDiff zL zH = fieldAdd (fieldSmul (-1) zL) zH := by
  unfold jacDiff fieldAdd fieldSmul
  congr 1
  · funext i; ext <;> simp <;> ring
  all_goals ext <;> simp <;> ring

theorem EmDer_diff (s zL zH : Surf) (k : Fin 3) :
    EmDer s (jacDiff zL zH) k = EmDer s zH k - EmDer s zL k := by
  rcases fin3_cases k with rfl | rfl | rfl <;> simp [EmDer, jacDiff, dot] <;> ring

theorem EfDiff_eq (s zL zH : Surf) (k : Fin 3) :
    EfDiff s zL zH k = EfDer s zH k - EfDer s zL k := by
  rcases fin3_cases k with rfl | rfl | rfl <;> simp [EfDer, EfDiff, dbl3, deriv2dot] <;> ring

/-- Integrand of the residual at one point. -/
noncomputable def resAt (f : Form) (D : Setup α β γ) (z : Disc α β γ) (q : α) : ℝ :=
  dot (z.w q) (D.F q) - match f with
    | .linear => 0
    | .membrane => dotV (D.N q) (EmDer (D.defo q) (z.d q))
    | .shell => dotV (D.N q) (EmDer (D.defo q) (z.d q)) + dotV (D.M q) (EfDer (D.defo q) (z.d q))

theorem exprAt_eq (f : Form) (D : Setup α β γ) (zL zH : Disc α β γ) (q : α) :
    exprAt f D zL zH q = resAt f D zH q - resAt f D zL q := by
  cases f <;> simp [exprAt, resAt, dotV, EmDer_diff, EfDiff_eq, dot, mul_sub, Finset.sum_sub_distrib] <;> ring

theorem integral_eq (f : Form) (D : Setup α β γ) (zL zH : Disc α β γ) :
    integral false f D zL zH = total D (resAt f D zH) - total D (resAt f D zL) := by
  have h1 : integral false f D zL zH
      = (D.elems.flatten.map fun q => D.wt q * integrand false f D zL zH q).sum := by
    rw [← sum_flatten]; rfl
  rw [h1, total, total, ← list_sum_sub]
  congr 1
  apply List.map_congr_left
  intro q _
  simp [integrand, exprAt_eq, measure_area]
  ring

theorem intWork_eq (f : Form) (D : Setup α β γ) (h : f = .shell → RegularDef D) (z : Disc α β γ) :
    total D (fun q => dot (z.w q) (D.F q)) - intWork f D z = total D (resAt f D z) := by
  rw [total, total, intWork, total, ← list_sum_sub]
  congr 1
  apply List.map_congr_left
  intro q hq
  cases f with
  | linear => simp [resAt]
  | membrane =>
    simp only [(C66_membrane (D.ori q) (D.defo q) (z.d q) _).deriv, resAt, dotV]
    ring
  | shell =>
    simp only [(C66_membrane (D.ori q) (D.defo q) (z.d q) _).deriv,
      (C66_bending (D.ori q) (D.defo q) (z.d q) (h rfl q hq) _).deriv, resAt, dotV,
      Finset.sum_add_distrib]
    ring

theorem neumann_eq (D : Setup α β γ) (zL zH : Disc α β γ) :
    neumann D zL zH = (D.bdr.map fun q => D.bwt q * dot (zH.b q) (D.gN q) * D.tv q).sum
      - (D.bdr.map fun q => D.bwt q * dot (zL.b q) (D.gN q) * D.tv q).sum := by
  rw [neumann, ← list_sum_sub]
  congr 1
  apply List.map_congr_left
  intro q _
  simp [dot]; ring

theorem loadSum_eq (D : Setup α β γ) (zL zH : Disc α β γ) :
    loadSum D zL zH = (D.loads.map fun k => dot (zH.l k) (D.load k).value).sum
      - (D.loads.map fun k => dot (zL.l k) (D.load k).value).sum := by
  rw [loadSum, ← list_sum_sub]
  congr 1
  apply List.map_congr_left
  intro q _
  simp [loadVal, dot]; ring

theorem otherWork_zero (D : Setup α β γ) (h : DeadLoads D) (z : Disc α β γ) : otherWork D z = 0 := by
  rw [otherWork, total]
  apply List.sum_eq_zero
  intro x hx
  obtain ⟨q, -, rfl⟩ := List.mem_map.1 hx
  simp [h.1, h.2]

theorem comb_dot {n : ℕ} (c : Fin n → ℝ) (v : Fin n → V3) (F : V3) :
    dot ⟨∑ i, c i * (v i).x, ∑ i, c i * (v i).y, ∑ i, c i * (v i).z⟩ F = ∑ i, c i * dot (v i) F := by
  simp only [dot, Finset.sum_mul, ← Finset.sum_add_distrib]
  refine Finset.sum_congr rfl fun i _ => ?_
  ring

theorem deadWork_comb (D : Setup α β γ) {n : ℕ} (c : Fin n → ℝ) (φ : Fin n → Disc α β γ) :
    deadWork D (comb c φ) = ∑ i, c i * deadWork D (φ i) := by
  have h1 : total D (fun q => dot ((comb c φ).w q) (D.F q))
      = ∑ i, c i * total D (fun q => dot ((φ i).w q) (D.F q)) := by
    simp only [total]
    rw [← list_sum_comb]
    congr 1
    apply List.map_congr_left
    intro q _
    show D.wt q * dot ⟨_, _, _⟩ (D.F q) * area (D.ori q) = _
    rw [comb_dot, Finset.mul_sum, Finset.sum_mul]
    exact Finset.sum_congr rfl fun i _ => by ring
  have h2 : (D.bdr.map fun q => D.bwt q * dot ((comb c φ).b q) (D.gN q) * D.tv q).sum
      = ∑ i, c i * (D.bdr.map fun q => D.bwt q * dot ((φ i).b q) (D.gN q) * D.tv q).sum := by
    rw [← list_sum_comb]
    congr 1
    apply List.map_congr_left
    intro q _
    show D.bwt q * dot ⟨_, _, _⟩ (D.gN q) * D.tv q = _
    rw [comb_dot, Finset.mul_sum, Finset.sum_mul]
    exact Finset.sum_congr rfl fun i _ => by ring
  have h3 : (D.loads.map fun k => dot ((comb c φ).l k) (D.load k).value).sum
      = ∑ i, c i * (D.loads.map fun k => dot ((φ i).l k) (D.load k).value).sum := by
    rw [← list_sum_comb]
    congr 1
    apply List.map_congr_left
    intro q _
    show dot ⟨_, _, _⟩ (D.load q).value = _
    rw [comb_dot]
  rw [deadWork, h1, h2, h3, ← Finset.sum_add_distrib, ← Finset.sum_add_distrib]
  exact Finset.sum_congr rfl fun i _ => by rw [deadWork]; ring

theorem galerkin_work {D : Setup α β γ} {n : ℕ} (G : Galerkin D n) :
    deadWork D (comb G.z G.φ) = G.goal := by
  rw [deadWork_comb, Galerkin.goal]
  simp only [← G.primal, ← G.dual, Finset.mul_sum, Finset.sum_mul]
  rw [Finset.sum_comm]
  refine Finset.sum_congr rfl fun i _ => Finset.sum_congr rfl fun j _ => ?_
  rw [G.symm j i]; ring

/-! ## Distribution of loads -/

theorem hits_range (x : Fin 2 → ℝ) (P : List Box) (c j : ℕ) (h : j ∈ hits x c P) :
    c ≤ j ∧ j < c + P.length := by
  induction P generalizing c with
  | nil => simp [hits] at h
  | cons b bs ih =>
    simp only [hits] at h
    split at h
    · rcases List.mem_cons.1 h with rfl | h
      · simp
      · have := ih (c + 1) h; simp; omega
    · have := ih (c + 1) h; simp; omega

open Classical in
theorem hits_count (x : Fin 2 → ℝ) (P : List Box) (c i : ℕ) (h : i < P.length) :
    (hits x c P).count (c + i) = if P[i].has x then 1 else 0 := by
  induction P generalizing c i with
  | nil => simp at h
  | cons b bs ih =>
    have h0 : (hits x (c + 1) bs).count c = 0 := by
      rw [List.count_eq_zero]
      intro hc
      have := hits_range x bs (c + 1) c hc
      omega
    cases i with
    | zero =>
      simp only [hits, List.getElem_cons_zero, Nat.add_zero]
      split <;> simp [h0]
    | succ i =>
      have hi : i < bs.length := by simpa using h
      have e := ih (c + 1) i hi
      have e2 : c + 1 + i = c + (i + 1) := by omega
      rw [e2] at e
      simp only [hits, List.getElem_cons_succ]
      split
      · rw [List.count_cons_of_ne (by omega), e]
      · exact e

open Classical in
theorem hits_length (x : Fin 2 → ℝ) (P : List Box) (c : ℕ) :
    (hits x c P).length = P.countP fun b => b.has x := by
  induction P generalizing c with
  | nil => simp [hits]
  | cons b bs ih =>
    simp only [hits]
    by_cases h : b.has x <;> simp [h, ih]

theorem found_range (x : Fin 2 → ℝ) (Ps : List (List Box)) (c : ℕ) (priv : List ℕ)
    (hp : ∀ k ∈ priv, k < c) (j : ℕ) (h : j ∈ found x c priv Ps) : j < c + Ps.flatten.length := by
  induction Ps generalizing c priv with
  | nil => simp [found] at h
  | cons P Ps ih =>
    have hp' : ∀ k ∈ priv ++ hits x c P, k < c + P.length := by
      intro k hk
      rcases List.mem_append.1 hk with hk | hk
      · have := hp k hk; omega
      · exact (hits_range x P c k hk).2
    simp only [found] at h
    simp only [List.flatten_cons, List.length_append]
    rcases List.mem_append.1 h with h | h
    · have := hp' j h; omega
    · have := ih (c + P.length) _ hp' h; omega

theorem found_ne_nil (x : Fin 2 → ℝ) (Ps : List (List Box)) (c : ℕ) (priv : List ℕ)
    (h : ∃ P ∈ Ps, ∃ b ∈ P, b.has x) : found x c priv Ps ≠ [] := by
  induction Ps generalizing c priv with
  | nil => simp at h
  | cons P Ps ih =>
    obtain ⟨Q, hQ, b, hb, hx⟩ := h
    simp only [found]
    rcases List.mem_cons.1 hQ with rfl | hQ
    · intro e
      have e1 : hits x c Q = [] := by
        have := (List.append_eq_nil_iff.1 e).1
        exact (List.append_eq_nil_iff.1 this).2
      classical
      have e2 := hits_length x Q c
      rw [e1] at e2
      have e3 : 0 < Q.countP fun b => b.has x := List.countP_pos_iff.2 ⟨b, hb, by simpa using hx⟩
      rw [← e2] at e3
      exact absurd e3 (by simp)
    · intro e
      exact ih _ _ ⟨Q, hQ, b, hb, hx⟩ (List.append_eq_nil_iff.1 e).2

theorem addAll_spec (v : ℝ) (ks : List ℕ) (e : List ℝ) (h : ∀ k ∈ ks, k < e.length) :
    ∃ e', addAll v ks e = .ok e' ∧ e'.length = e.length ∧
      ∀ j (hj : j < e.length) (hj' : j < e'.length), e'[j] = e[j] + ks.count j * v := by
  induction ks generalizing e with
  | nil => exact ⟨e, rfl, rfl, fun j hj _ => by simp⟩
  | cons k ks ih =>
    have hk : k < e.length := h k (by simp)
    obtain ⟨e', h1, h2, h3⟩ := ih (e.set k (e[k] + v))
      (fun j hj => by simpa using h j (List.mem_cons_of_mem _ hj))
    refine ⟨e', by simp [addAll, hk, h1], by simpa using h2, fun j hj hj' => ?_⟩
    have := h3 j (by simpa using hj) hj'
    rw [this, List.getElem_set]
    by_cases hkj : k = j
    · subst hkj; simp; ring
    · rw [if_neg hkj, List.count_cons_of_ne hkj]

theorem addAll_sum (v : ℝ) (ks : List ℕ) (e e' : List ℝ) (h : addAll v ks e = .ok e') :
    e'.sum = e.sum + ks.length * v := by
  induction ks generalizing e with
  | nil => simp [addAll] at h; subst h; simp
  | cons k ks ih =>
    simp only [addAll] at h
    split at h
    · rename_i hk
      rw [ih _ h]
      have : (e.set k (e[k] + v)).sum = e.sum + v := by
        clear ih h
        induction e generalizing k with
        | nil => simp at hk
        | cons a l ih2 =>
          cases k with
          | zero => simp; ring
          | succ k =>
            have := ih2 k (by simpa using hk)
            simp only [List.set_cons_succ, List.sum_cons, List.getElem_cons_succ]
            rw [this]; ring
      rw [this]; simp; ring
    · cases h

theorem spread_spec (D : Setup α β γ) (zL zH : Disc α β γ) (ks : List γ) (e : List ℝ)
    (hb : D.boxes.flatten.length = e.length)
    (hf : ∀ k ∈ ks, ∃ P ∈ D.boxes, ∃ b ∈ P, b.has (D.load k).pt) :
    ∃ e', spread D zL zH ks e = .ok e' ∧ e'.length = e.length ∧
      e'.sum = e.sum + (ks.map (loadVal D zL zH)).sum := by
  induction ks generalizing e with
  | nil => exact ⟨e, rfl, rfl, by simp⟩
  | cons k ks ih =>
    obtain ⟨e1, h1, h2, -⟩ := addAll_spec
      (loadVal D zL zH k / (found (D.load k).pt 0 [] D.boxes).length)
      (found (D.load k).pt 0 [] D.boxes) e (fun j hj => by
        have := found_range (D.load k).pt D.boxes 0 [] (by simp) j hj
        omega)
    obtain ⟨e', h3, h4, h5⟩ := ih e1 (by omega) (fun j hj => hf j (List.mem_cons_of_mem _ hj))
    refine ⟨e', by simp [spread, h1, Outcome.bind, h3], by omega, ?_⟩
    have hn : ((found (D.load k).pt 0 [] D.boxes).length : ℝ) ≠ 0 := by
      have := found_ne_nil (D.load k).pt D.boxes 0 [] (hf k (by simp))
      exact_mod_cast (List.length_pos_iff.2 this).ne'
    rw [h5, addAll_sum _ _ _ _ h1]
    simp only [List.map_cons, List.sum_cons]
    field_simp
    ring

theorem found_empty (x : Fin 2 → ℝ) (Ps : List (List Box)) (c : ℕ) (priv : List ℕ)
    (h : ∀ P ∈ Ps, ∀ b ∈ P, ¬ b.has x) (j : ℕ) :
    (found x c priv Ps).count j = Ps.length * priv.count j ∧
      (found x c priv Ps).length = Ps.length * priv.length := by
  induction Ps generalizing c priv with
  | nil => simp [found]
  | cons P Ps ih =>
    have h0 : hits x c P = [] := by
      classical
      have := hits_length x P c
      rw [List.countP_eq_zero.2 (fun b hb => by simpa using h P (by simp) b hb)] at this
      exact List.length_eq_zero_iff.1 this
    have e := ih (c + P.length) priv (fun Q hQ => h Q (List.mem_cons_of_mem _ hQ))
    simp only [found, h0, List.append_nil, List.count_append, List.length_append, e.1, e.2,
      List.length_cons]
    constructor <;> ring

theorem found_own (x : Fin 2 → ℝ) (pre post : List (List Box)) (P : List Box) (c : ℕ)
    (h1 : ∀ Q ∈ pre, ∀ b ∈ Q, ¬ b.has x) (h2 : ∀ Q ∈ post, ∀ b ∈ Q, ¬ b.has x) (j : ℕ) :
    (found x c [] (pre ++ P :: post)).count j
        = (post.length + 1) * (hits x (c + pre.flatten.length) P).count j ∧
      (found x c [] (pre ++ P :: post)).length
        = (post.length + 1) * (hits x (c + pre.flatten.length) P).length := by
  induction pre generalizing c with
  | nil =>
    have e := found_empty x post (c + P.length) (hits x c P) h2 j
    simp only [List.nil_append, found, List.count_append, List.length_append, e.1, e.2,
      List.flatten_nil, List.length_nil, Nat.add_zero]
    constructor <;> ring
  | cons Q pre ih =>
    have h0 : hits x c Q = [] := by
      classical
      have := hits_length x Q c
      rw [List.countP_eq_zero.2 (fun b hb => by simpa using h1 Q (by simp) b hb)] at this
      exact List.length_eq_zero_iff.1 this
    have e := ih (c + Q.length) (fun R hR => h1 R (List.mem_cons_of_mem _ hR))
    simp only [List.cons_append, found, h0, List.append_nil, List.nil_append, e.1, e.2,
      List.flatten_cons, List.length_append]
    rw [show c + (Q.length + pre.flatten.length) = c + Q.length + pre.flatten.length by omega]
    exact ⟨rfl, rfl⟩

/-! ## Example -/

/-- Flat square with orthonormal tangents. -/
def sq1 : Surf := ⟨![⟨1, 0, 0⟩, ⟨0, 1, 0⟩], 0, 0, 0⟩

theorem sq1_area : area sq1 = 1 := by simp [area, sq1, dot, cross]

theorem sq1_measure : Variation.measure sq1 = 1 := sq1_area

theorem sq1_indep : Indep (sq1.a 0) (sq1.a 1) := by
  simp [Indep, sq1, V3.ext_iff]

/-- Vertical unit vector. -/
def up : V3 := ⟨0, 0, 1⟩

/-- One element with one quadrature point; a vertical body force `f`, traction `g` and point load `l`
on the given patch, pressure `p`. -/
noncomputable def ex1 (f g l p : ℝ) (patch : ℕ) (boxes : List (List Box)) : Setup Unit Unit Unit where
  elems := [[()]]
  wt _ := 1
  ori _ := sq1
  defo _ := sq1
  F _ := f • up
  N _ := fun _ => 0
  M _ := fun _ => 0
  press _ := p
  bed _ := 0
  disp _ := 0
  bdr := [()]
  bwt _ := 1
  gN _ := g • up
  tv _ := 1
  loads := [()]
  load _ := ⟨patch, fun _ => 1 / 2, l • up⟩
  boxes := boxes

/-- The unit square. -/
def unitBox : Box := ⟨fun _ => 0, fun _ => 1⟩

/-- A constant vertical function. -/
noncomputable def const1 (c : ℝ) : Disc Unit Unit Unit :=
  ⟨fun _ => c • up, fun _ => ⟨fun _ => 0, 0, 0, 0⟩, fun _ => c • up, fun _ => c • up⟩

theorem unitBox_mid : unitBox.has fun _ => 1 / 2 := fun i => by constructor <;> norm_num [unitBox]

end Verif.DWR
