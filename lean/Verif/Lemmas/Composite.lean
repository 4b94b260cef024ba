import Verif.Spec.Composite
import Verif.Spec.Geometry
import Verif.Lemmas.Tensor

/-! # Helper lemmas for laminates -/

namespace Verif.Composite

open MeasureTheory intervalIntegral

/-- The layer loop as a recursion. -/
noncomputable def acc (f : ℝ → ℝ → ℝ) (i j : Fin 3) : List Layer → ℝ → ℝ → ℝ
  | [], _, _ => 0
  | l :: ls, p, zmid => plyD l i j * f l.t (zmid - (l.t / 2 + p)) + acc f i j ls (p + l.t) zmid

theorem foldl_step (w : Which) (zmid : ℝ) (ls : List Layer) (C : T3) (p : ℝ) (i j : Fin 3) :
    (ls.foldl (step w zmid) (C, p)).1 i j = C i j + acc (factor w) i j ls p zmid := by
  induction ls generalizing C p with
  | nil => simp [acc]
  | cons l ls ih => rw [List.foldl_cons, step, ih]; simp only [acc]; ring

theorem foldl_add (ls : List Layer) (f : Layer → ℝ) (c : ℝ) :
    ls.foldl (fun a l => a + f l) c = c + (ls.map f).sum := by
  induction ls generalizing c with
  | nil => simp
  | cons l ls ih => rw [List.foldl_cons, ih, List.map_cons, List.sum_cons]; ring

theorem total_eq (ls : List Layer) : total ls = thickness ls := by
  unfold total thickness; rw [foldl_add ls (fun l => l.t)]; simp

theorem mass_eq (ls : List Layer) : mass ls = (ls.map fun l => l.t * l.ρ).sum := by
  unfold mass; rw [foldl_add ls (fun l => l.t * l.ρ)]; simp

theorem abd_eq (w : Which) (ls : List Layer) (i j : Fin 3) :
    abd w ls i j = acc (factor w) i j ls 0 (thickness ls / 2) := by
  unfold abd; rw [foldl_step, total_eq]; simp

theorem acc_append (f : ℝ → ℝ → ℝ) (i j : Fin 3) (xs ys : List Layer) (p zmid : ℝ) :
    acc f i j (xs ++ ys) p zmid = acc f i j xs p zmid + acc f i j ys (p + thickness xs) zmid := by
  induction xs generalizing p with
  | nil => simp [acc, thickness]
  | cons l ls ih =>
    simp only [List.cons_append, acc, ih]
    have : p + l.t + thickness ls = p + thickness (l :: ls) := by simp [thickness]; ring
    rw [this]; ring

theorem thickness_append (xs ys : List Layer) : thickness (xs ++ ys) = thickness xs + thickness ys := by
  simp [thickness]

theorem thickness_cons (l : Layer) (ls : List Layer) : thickness (l :: ls) = l.t + thickness ls := by
  simp [thickness]

theorem thickness_reverse (ls : List Layer) : thickness ls.reverse = thickness ls := by
  unfold thickness; rw [List.map_reverse, List.sum_reverse]

theorem acc_reverse (f : ℝ → ℝ → ℝ) (i j : Fin 3) (ls : List Layer) (p q zmid : ℝ)
    (h : p + q + thickness ls = 2 * zmid) :
    acc f i j ls.reverse p zmid = acc (fun t dz => f t (-dz)) i j ls q zmid := by
  induction ls generalizing p q with
  | nil => simp [acc]
  | cons l ls ih =>
    rw [List.reverse_cons, acc_append, thickness_reverse]
    simp only [acc]
    rw [thickness_cons] at h
    rw [ih p (q + l.t) (by linarith)]
    have : zmid - (l.t / 2 + (p + thickness ls)) = -(zmid - (l.t / 2 + q)) := by linarith
    rw [this]; ring

theorem acc_neg (f : ℝ → ℝ → ℝ) (i j : Fin 3) (ls : List Layer) (p zmid : ℝ) :
    acc (fun t dz => -f t dz) i j ls p zmid = -acc f i j ls p zmid := by
  induction ls generalizing p with
  | nil => simp [acc]
  | cons l ls ih => simp only [acc, ih]; ring

/-- Closed form of the integrals layer by layer. -/
noncomputable def sumInt (m : Nat) (i j : Fin 3) : List Layer → ℝ → ℝ
  | [], _ => 0
  | l :: ls, h => plyD l i j * ((h ^ (m + 1) - (h - l.t) ^ (m + 1)) / ((m : ℝ) + 1))
      + sumInt m i j ls (h - l.t)

theorem integral_stiff (m : Nat) (i j : Fin 3) (ls : List Layer) (hpos : ∀ l ∈ ls, 0 ≤ l.t) (h : ℝ) :
    IntervalIntegrable (fun z => z ^ m * stiffAt ls h z i j) volume (h - thickness ls) h ∧
    (∫ z in (h - thickness ls)..h, z ^ m * stiffAt ls h z i j) = sumInt m i j ls h := by
  induction ls generalizing h with
  | nil => simp [thickness, sumInt]
  | cons l ls ih =>
    have hl : 0 ≤ l.t := hpos l (by simp)
    have hls : ∀ x ∈ ls, 0 ≤ x.t := fun x hx => hpos x (by simp [hx])
    have hT : 0 ≤ thickness ls := by
      unfold thickness; apply List.sum_nonneg; intro x hx
      obtain ⟨y, hy, rfl⟩ := List.mem_map.1 hx; exact hls y hy
    obtain ⟨hi, he⟩ := ih hls (h - l.t)
    have ht : h - thickness (l :: ls) = h - l.t - thickness ls := by rw [thickness_cons]; ring
    rw [ht]
    have hle : h - l.t - thickness ls ≤ h - l.t := by linarith
    have hle2 : h - l.t ≤ h := by linarith
    -- lower part
    have lowEq : Set.EqOn (fun z => z ^ m * stiffAt ls (h - l.t) z i j)
        (fun z => z ^ m * stiffAt (l :: ls) h z i j) (Set.Ioo (h - l.t - thickness ls) (h - l.t)) := by
      intro z hz
      simp only [stiffAt]
      rw [if_neg (not_le.2 hz.2)]
    have upEq : Set.EqOn (fun z => z ^ m * plyD l i j)
        (fun z => z ^ m * stiffAt (l :: ls) h z i j) (Set.Ioo (h - l.t) h) := by
      intro z hz
      simp only [stiffAt]
      rw [if_pos hz.1.le]
    have lowI : IntervalIntegrable (fun z => z ^ m * stiffAt (l :: ls) h z i j) volume
        (h - l.t - thickness ls) (h - l.t) := hi.congr_uIoo (by rw [Set.uIoo_of_le hle]; exact lowEq)
    have upI0 : IntervalIntegrable (fun z : ℝ => z ^ m * plyD l i j) volume (h - l.t) h :=
      Continuous.intervalIntegrable (by fun_prop) _ _
    have upI : IntervalIntegrable (fun z => z ^ m * stiffAt (l :: ls) h z i j) volume
        (h - l.t) h := upI0.congr_uIoo (by rw [Set.uIoo_of_le hle2]; exact upEq)
    refine ⟨lowI.trans upI, ?_⟩
    rw [← integral_add_adjacent_intervals lowI upI]
    rw [← integral_congr_Ioo_of_le hle lowEq, ← integral_congr_Ioo_of_le hle2 upEq, he,
      intervalIntegral.integral_mul_const, integral_pow]
    simp only [sumInt]; ring

theorem acc_eq_sumInt (m : Nat) (f : ℝ → ℝ → ℝ) (i j : Fin 3)
    (hf : ∀ t h, f t (h - t / 2) = (h ^ (m + 1) - (h - t) ^ (m + 1)) / ((m : ℝ) + 1))
    (ls : List Layer) (p zmid : ℝ) :
    acc f i j ls p zmid = sumInt m i j ls (zmid - p) := by
  induction ls generalizing p with
  | nil => simp [acc, sumInt]
  | cons l ls ih =>
    simp only [acc, sumInt]
    rw [ih]
    have e1 : zmid - (l.t / 2 + p) = zmid - p - l.t / 2 := by ring
    have e2 : zmid - (p + l.t) = zmid - p - l.t := by ring
    rw [e1, e2, hf]

/-- A layer whose stiffness entries are the density. -/
noncomputable def massLayer (l : Layer) : Layer :=
  ⟨l.t, mk3 l.ρ 0 0 0 l.ρ 0 0 0 l.ρ, 0, l.ρ⟩

theorem plyD_massLayer (l : Layer) : plyD (massLayer l) 0 0 = l.ρ := by
  simp [plyD, massLayer, rot, mul3, Fin.sum_univ_three, mk3, vec3, transpose3]

theorem densAt_eq (ls : List Layer) (h z : ℝ) :
    densAt ls h z = stiffAt (ls.map massLayer) h z 0 0 := by
  induction ls generalizing h with
  | nil => rfl
  | cons l ls ih =>
    simp only [densAt, List.map_cons, stiffAt]
    have : (massLayer l).t = l.t := rfl
    rw [this]
    split_ifs
    · rw [plyD_massLayer]
    · exact ih _

theorem thickness_massLayer (ls : List Layer) : thickness (ls.map massLayer) = thickness ls := by
  unfold thickness; rw [List.map_map]; rfl

theorem sumInt_massLayer (ls : List Layer) (h : ℝ) :
    sumInt 0 0 0 (ls.map massLayer) h = (ls.map fun l => l.t * l.ρ).sum := by
  induction ls generalizing h with
  | nil => rfl
  | cons l ls ih =>
    simp only [List.map_cons, sumInt, List.sum_cons, ih, plyD_massLayer]
    have : (massLayer l).t = l.t := rfl
    rw [this]; push_cast; ring

end Verif.Composite
