import Verif.Lemmas.Principal
import Verif.Lemmas.TFT
import Verif.Props.SpectralAgree

/-!
# C110-C112: principal stresses and strains

Property theorems.
-/

namespace Verif.Principal

open Verif.Spectral Spec.Spectral Spec.Principal Verif.Hyper

/-! ## C110: principal values at one of several points -/

/-- C110 (partial): if the reference metric at the point is that of the last point of the call,
the values returned for the point are its principal stresses.  Missing: different metrics. -/
theorem C110_pstress_partial (solver : T3 → Eig) {n m : ℕ} (g0 : Cols)
    (g : Fin (n + 1) → Fin (m + 1) → Cols) (S : Fin (n + 1) → Fin (m + 1) → T2)
    (k : Fin (n + 1)) (j : Fin (m + 1)) (x y : ℝ)
    (hg : gram (g k j) = gram (g (Fin.last n) (Fin.last m)))
    (hsolve : IsEigenDecomposition (Bmat (S k j) (g (Fin.last n) (Fin.last m)))
      (solver (Bmat (S k j) (g (Fin.last n) (Fin.last m)))).val
      (solver (Bmat (S k j) (g (Fin.last n) (Fin.last m)))).vec)
    (hp : PrincipalValues (S k j) (gram (g k j)) x y) :
    ∃ p, eval3DPStress solver g0 g S k j = .ok p ∧
      |p 0 - x| ≤ 1e-14 * max |x| |y| ∧ |p 1 - y| ≤ 1e-14 * max |x| |y| := by
  rw [hg] at hp
  obtain ⟨q, hq⟩ := select_ok _ (has_zero hsolve)
  refine ⟨q.val, ?_, select_values hsolve hp hq⟩
  unfold eval3DPStress evalPStress
  rw [stored_last, hq]
  rfl

/-- C110 (partial): the same for the principal strains (`g` are the contravariant basis
vectors).  Missing: different metrics. -/
theorem C110_pstrain_partial (solver : T3 → Eig) {n m : ℕ} (g0 : Cols)
    (g : Fin (n + 1) → Fin (m + 1) → Cols) (E : Fin (n + 1) → Fin (m + 1) → T2)
    (k : Fin (n + 1)) (j : Fin (m + 1)) (x y : ℝ)
    (hg : gram (g k j) = gram (g (Fin.last n) (Fin.last m)))
    (hsolve : IsEigenDecomposition (Bmat (E k j) (g (Fin.last n) (Fin.last m)))
      (solver (Bmat (E k j) (g (Fin.last n) (Fin.last m)))).val
      (solver (Bmat (E k j) (g (Fin.last n) (Fin.last m)))).vec)
    (hp : PrincipalValues (E k j) (gram (g k j)) x y) :
    ∃ p, eval3DPStrain solver g0 g E k j = .ok p ∧
      |p 0 - x| ≤ 1e-14 * max |x| |y| ∧ |p 1 - y| ≤ 1e-14 * max |x| |y| := by
  rw [hg] at hp
  obtain ⟨q, hq⟩ := select_ok _ (has_zero hsolve)
  refine ⟨vec3 (q.val 0) (q.val 1) 0, ?_, ?_⟩
  · unfold eval3DPStrain evalPStrain
    rw [stored_last, hq]
    rfl
  · simpa using select_values hsolve hp hq

/-- An orthonormal in-plane basis and one that is twice as long. -/
def unitCols : Cols := mk3 1 0 0 0 1 0 0 0 1
def longCols : Cols := mk3 2 0 0 0 2 0 0 0 1

theorem gram_unit : gram unitCols = ![![1, 0], ![0, 1]] := by
  funext i j
  rcases fin2_cases i with rfl | rfl <;> rcases fin2_cases j with rfl | rfl <;>
    simp [gram, unitCols, Fin.sum_univ_three]

theorem gram_long : gram longCols = ![![4, 0], ![0, 4]] := by
  funext i j
  rcases fin2_cases i with rfl | rfl <;> rcases fin2_cases j with rfl | rfl <;>
    simp [gram, longCols, Fin.sum_univ_three] <;> norm_num

theorem values_diag (a b c d : ℝ) (h : a * c ≤ b * d) :
    PrincipalValues ![![a, 0], ![0, b]] ![![c, 0], ![0, d]] (a * c) (b * d) := by
  refine ⟨h, fun t => ?_⟩
  simp [mul2]
  ring

/-- The hypotheses of `C110_pstress_partial` hold for two points with the same metric, the
second being the last one. -/
example : gram ((fun _ _ => unitCols : Fin 2 → Fin 1 → Cols) 0 0)
      = gram ((fun _ _ => unitCols : Fin 2 → Fin 1 → Cols) (Fin.last 1) (Fin.last 0)) ∧
    PrincipalValues ![![1, 0], ![0, 2]] (gram unitCols) 1 2 ∧
    IsEigenDecomposition (Bmat ![![1, 0], ![0, 2]] unitCols) (vec3 0 1 2)
      (mk3 0 0 1 1 0 0 0 1 0) := by
  refine ⟨rfl, ?_, by norm_num, ?_, ?_⟩
  · rw [gram_unit]
    simpa using values_diag 1 2 1 1 (by norm_num)
  · intro a b
    rcases fin3_cases a with rfl | rfl | rfl <;> rcases fin3_cases b with rfl | rfl | rfl <;>
      simp [Fin.sum_univ_three]
  · intro a i
    rcases fin3_cases a with rfl | rfl | rfl <;> rcases fin3_cases i with rfl | rfl | rfl <;>
      simp [Fin.sum_univ_three, Bmat, unitCols]

/-- C110 (violated): two points with the same stress components, the second with tangents twice
as long: the principal stresses at the first point are 1 and 1, the values returned for it are
near 4. -/
theorem C110_pstress_violated : ∃ (g : Fin 2 → Fin 1 → Cols) (S : Fin 2 → Fin 1 → T2),
    PrincipalValues (S 0 0) (gram (g 0 0)) 1 1 ∧
    ∀ (solver : T3 → Eig) (g0 : Cols),
      IsEigenDecomposition (Bmat (S 0 0) (g 1 0)) (solver (Bmat (S 0 0) (g 1 0))).val
        (solver (Bmat (S 0 0) (g 1 0))).vec →
      ∃ p, eval3DPStress solver g0 g S 0 0 = .ok p ∧ 3 < p 0 ∧ 3 < p 1 := by
  refine ⟨fun k _ => if k = 0 then unitCols else longCols, fun _ _ => ![![1, 0], ![0, 1]], ?_, ?_⟩
  · show PrincipalValues _ (gram unitCols) 1 1
    rw [gram_unit]
    simpa using values_diag 1 1 1 1 le_rfl
  · intro solver g0 hs
    have hp : PrincipalValues ![![1, 0], ![0, 1]] (gram longCols) 4 4 := by
      rw [gram_long]
      simpa using values_diag 1 1 4 4 le_rfl
    obtain ⟨q, hq⟩ := select_ok _ (has_zero hs)
    have hv := select_values hs hp hq
    refine ⟨q.val, ?_, ?_, ?_⟩
    · unfold eval3DPStress evalPStress
      rw [stored_last]
      exact congrArg (Outcome.map Princ.val) hq
    · have := (abs_le.1 hv.1).1
      norm_num at this
      linarith
    · have := (abs_le.1 hv.2).1
      norm_num at this
      linarith

/-- C110 (violated): the same for the principal strains. -/
theorem C110_pstrain_violated : ∃ (g : Fin 2 → Fin 1 → Cols) (E : Fin 2 → Fin 1 → T2),
    PrincipalValues (E 0 0) (gram (g 0 0)) 1 1 ∧
    ∀ (solver : T3 → Eig) (g0 : Cols),
      IsEigenDecomposition (Bmat (E 0 0) (g 1 0)) (solver (Bmat (E 0 0) (g 1 0))).val
        (solver (Bmat (E 0 0) (g 1 0))).vec →
      ∃ p, eval3DPStrain solver g0 g E 0 0 = .ok p ∧ 3 < p 0 ∧ 3 < p 1 := by
  obtain ⟨g, E, h1, h2⟩ := C110_pstress_violated
  refine ⟨g, E, h1, fun solver g0 hs => ?_⟩
  obtain ⟨p, hp, h3, h4⟩ := h2 solver g0 hs
  unfold eval3DPStress evalPStress at hp
  unfold eval3DPStrain evalPStrain
  cases hq : select (solver (Bmat (E 0 0) (stored g0 g))) with
  | ok q =>
    rw [hq] at hp
    have := Outcome.ok.inj hp
    subst this
    exact ⟨_, rfl, by simpa using h3, by simpa using h4⟩
  | throws => rw [hq] at hp; exact absurd hp (by simp [Outcome.map])
  | ub => rw [hq] at hp; exact absurd hp (by simp [Outcome.map])

/-- C110: the signs of the principal values, and so whether a state is taut, slack or wrinkled
when no tolerance is used, do not depend on the metric. -/
theorem C110_signs (S G G' : T2) (x y x' y' : ℝ) (hS : S 0 1 = S 1 0)
    (hG : G 0 1 = G 1 0) (hG0 : 0 < G 0 0) (hd : 0 < G 0 0 * G 1 1 - G 0 1 * G 1 0)
    (hG' : G' 0 1 = G' 1 0) (hG0' : 0 < G' 0 0) (hd' : 0 < G' 0 0 * G' 1 1 - G' 0 1 * G' 1 0)
    (h : PrincipalValues S G x y) (h' : PrincipalValues S G' x' y') :
    (0 < x ↔ 0 < x') ∧ (0 ≤ x ↔ 0 ≤ x') ∧ (y < 0 ↔ y' < 0) ∧ (y ≤ 0 ↔ y' ≤ 0) := by
  have a := pos_iff h hS hG hG0 hd
  have a' := pos_iff h' hS hG' hG0' hd'
  have hS' : (fun i j => -S i j : T2) 0 1 = (fun i j => -S i j : T2) 1 0 := by simp [hS]
  have b := pos_iff (values_neg h) hS' hG hG0 hd
  have b' := pos_iff (values_neg h') hS' hG' hG0' hd'
  have c1 := b.1.trans b'.1.symm
  have c2 := b.2.trans b'.2.symm
  simp only [neg_pos, neg_nonneg] at c1 c2
  exact ⟨a.1.trans a'.1.symm, a.2.trans a'.2.symm, c1, c2⟩

example : (fun (_ _ : Fin 2) => (1 : ℝ)) 0 1 = (fun (_ _ : Fin 2) => (1 : ℝ)) 1 0 ∧
    PrincipalValues ![![-1, 0], ![0, 2]] ![![1, 0], ![0, 1]] (-1) 2 ∧
    PrincipalValues ![![-1, 0], ![0, 2]] ![![4, 0], ![0, 3]] (-4) 6 := by
  refine ⟨rfl, ?_, ?_⟩
  · simpa using values_diag (-1) 2 1 1 (by norm_num)
  · have := values_diag (-1) 2 4 3 (by norm_num)
    norm_num at this ⊢
    exact this

/-- C110 (partial): the tension field of the stress criterion found with the metric `G'` is that
found with the metric `G`, unless one of the two is within the tolerance of the criterion.
Missing: states within the tolerance. -/
theorem C110_field_partial (S G G' : T2) (x y x' y' e0 e1 : ℝ) (hS : S 0 1 = S 1 0)
    (hG : G 0 1 = G 1 0) (hG0 : 0 < G 0 0) (hd : 0 < G 0 0 * G 1 1 - G 0 1 * G 1 0)
    (hG' : G' 0 1 = G' 1 0) (hG0' : 0 < G' 0 0) (hd' : 0 < G' 0 0 * G' 1 1 - G' 0 1 * G' 1 0)
    (h : PrincipalValues S G x y) (h' : PrincipalValues S G' x' y')
    (ht : 0 ≤ x ∨ x < -(1e-12 * |y|)) (ht' : 0 ≤ x' ∨ x' < -(1e-12 * |y'|)) :
    TFT.tensionField 1 x y e0 e1 = TFT.tensionField 1 x' y' e0 e1 := by
  obtain ⟨-, s1, s2, -⟩ := C110_signs S G G' x y x' y' hS hG hG0 hd hG' hG0' hd' h h'
  have key : ∀ u v : ℝ, u ≤ v → (0 ≤ u ∨ u < -(1e-12 * |v|)) →
      TFT.tensionField 1 u v e0 e1 = .ok (if 0 ≤ u then 1 else if v < 0 then -1 else 0) := by
    intro u v huv hu
    have hd : TFT.tensionField 1 u v e0 e1 = .ok (TFT.fieldOf u (max u v) v) := rfl
    rw [hd, max_eq_right huv]
    congr 1
    unfold TFT.fieldOf
    rcases hu with hu | hu
    · rw [if_pos hu]
      rcases hu.lt_or_eq with h0 | h0
      · rw [if_pos (Or.inl h0)]
      · rw [if_pos]
        right
        rw [← h0, abs_zero]
        have : 0 ≤ v := by linarith
        positivity
    · have hv := abs_nonneg v
      have hneg : u < 0 := by
        have : 0 ≤ 1e-12 * |v| := by positivity
        linarith
      rw [if_neg (not_le.2 hneg), if_neg]
      rintro (h0 | h0)
      · linarith
      · rw [abs_of_neg hneg] at h0
        have := le_abs_self v
        have h1 : v * 1e-12 ≤ 1e-12 * |v| := by
          rw [mul_comm]
          exact mul_le_mul_of_nonneg_left this (by norm_num)
        linarith
  rw [key x y h.le ht, key x' y' h'.le ht']
  simp only [s1, s2]

/-- C110 (violated): a stress that is taut in the metric of its point is classified as wrinkled
with the metric of another point. -/
theorem C110_field_violated : ∃ (S G G' : T2) (x y x' y' : ℝ),
    PrincipalValues S G x y ∧ PrincipalValues S G' x' y' ∧
    ∀ e0 e1, TFT.tensionField 1 x y e0 e1 = .ok 1 ∧ TFT.tensionField 1 x' y' e0 e1 = .ok 0 := by
  refine ⟨![![-5e-13, 0], ![0, 1]], ![![1, 0], ![0, 1]], ![![4, 0], ![0, 1]], -5e-13, 1,
    -2e-12, 1, ?_, ?_, fun e0 e1 => ⟨?_, ?_⟩⟩
  · simpa using values_diag (-5e-13) 1 1 1 (by norm_num)
  · have := values_diag (-5e-13) 1 4 1 (by norm_num)
    norm_num at this ⊢
    exact this
  · show Outcome.ok (TFT.fieldOf _ _ _) = _
    congr 1
    unfold TFT.fieldOf
    rw [if_pos]
    right
    rw [max_eq_right (by norm_num)]
    norm_num [abs_le]
  · show Outcome.ok (TFT.fieldOf _ _ _) = _
    congr 1
    unfold TFT.fieldOf
    rw [max_eq_right (by norm_num), if_neg, if_neg]
    · norm_num
    · rintro (h0 | h0)
      · norm_num at h0
      · norm_num [abs_le] at h0

/-! ## C111: principal stresses and strains -/

/-- C111: for every basis and every tensor the selection finds a vanishing eigenvalue, so
nothing is written outside the result. -/
theorem C111_total (solver : T3 → Eig) (g : Cols) (S : T2)
    (hsolve : IsEigenDecomposition (Bmat S g) (solver (Bmat S g)).val (solver (Bmat S g)).vec) :
    ∃ p, evalPStress solver g S = .ok p ∧ p.val 0 ≤ p.val 1 := by
  obtain ⟨p, hp⟩ := select_ok _ (has_zero hsolve)
  exact ⟨p, hp, select_ascending hsolve.ascending hp⟩

/-- C111: the two values are the principal values of the tensor `S^{ij} g_i g_j`, up to
`1e-14` times the larger modulus. -/
theorem C111_values (solver : T3 → Eig) (g : Cols) (S : T2) (x y : ℝ)
    (hsolve : IsEigenDecomposition (Bmat S g) (solver (Bmat S g)).val (solver (Bmat S g)).vec)
    (hp : PrincipalValues S (gram g) x y) :
    ∃ p, evalPStress solver g S = .ok p ∧
      |p.val 0 - x| ≤ 1e-14 * max |x| |y| ∧ |p.val 1 - y| ≤ 1e-14 * max |x| |y| := by
  obtain ⟨p, hs⟩ := select_ok _ (has_zero hsolve)
  exact ⟨p, hs, select_values hsolve hp hs⟩

/-- Principal values exist for every symmetric tensor in every basis of a plane, so
`C111_values` always applies. -/
theorem C111_exist (g : Cols) (S : T2) (hS : S 0 1 = S 1 0) (h0 : 0 < gram g 0 0)
    (hd : 0 < gram g 0 0 * gram g 1 1 - gram g 0 1 * gram g 1 0) :
    ∃ x y, PrincipalValues S (gram g) x y ∧
      ∀ x' y', PrincipalValues S (gram g) x' y' → x = x' ∧ y = y' := by
  obtain ⟨x, y, h⟩ := exists_values S (gram g) hS
    (by simp only [gram_apply, cdot, Fin.sum_univ_three]; ring) h0 hd
  exact ⟨x, y, h, fun _ _ h' => values_unique h h'⟩

example : PrincipalValues ![![1, 0], ![0, 2]] (gram longCols) 4 8 ∧ 0 < gram longCols 0 0 ∧
    0 < gram longCols 0 0 * gram longCols 1 1 - gram longCols 0 1 * gram longCols 1 0 := by
  rw [gram_long]
  refine ⟨?_, by norm_num, by norm_num⟩
  have := values_diag 1 2 4 4 (by norm_num)
  norm_num at this ⊢
  exact this

/-- C111 (partial): the directions are orthonormal, the traction on the section normal to a
direction is the value times the direction, and the direction of a value that is not zero lies
in the tangent plane.  Missing: the direction of a vanishing value. -/
theorem C111_directions_partial (solver : T3 → Eig) (g : Cols) (S : T2) (p : Princ)
    (hsolve : IsEigenDecomposition (Bmat S g) (solver (Bmat S g)).val (solver (Bmat S g)).vec)
    (hp : evalPStress solver g S = .ok p) :
    (∀ a b, (∑ i, p.vec a i * p.vec b i) = if a = b then 1 else 0) ∧
    (∀ a i, (S 0 0 * cdot (g 0) (p.vec a) + S 0 1 * cdot (g 1) (p.vec a)) * g 0 i
      + (S 1 0 * cdot (g 0) (p.vec a) + S 1 1 * cdot (g 1) (p.vec a)) * g 1 i
        = p.val a * p.vec a i) ∧
    (∀ a n, p.val a ≠ 0 → cdot (g 0) n = 0 → cdot (g 1) n = 0 → cdot (p.vec a) n = 0) := by
  have hpick : ∃ c d : Fin 3, c ≠ d ∧ p = pick (solver (Bmat S g)) c d := by
    rcases select_cases _ p hp with ⟨h, -⟩ | ⟨h, -⟩ | ⟨h, -⟩
    · exact ⟨0, 1, by decide, h⟩
    · exact ⟨0, 2, by decide, h⟩
    · exact ⟨1, 2, by decide, h⟩
  obtain ⟨c, d, hcd, rfl⟩ := hpick
  set e := solver (Bmat S g) with he
  have h2 : ∀ a i, (S 0 0 * cdot (g 0) ((pick e c d).vec a)
        + S 0 1 * cdot (g 1) ((pick e c d).vec a)) * g 0 i
      + (S 1 0 * cdot (g 0) ((pick e c d).vec a) + S 1 1 * cdot (g 1) ((pick e c d).vec a)) * g 1 i
        = (pick e c d).val a * (pick e c d).vec a i := by
    have gen : ∀ b i, (S 0 0 * cdot (g 0) (e.vec b) + S 0 1 * cdot (g 1) (e.vec b)) * g 0 i
        + (S 1 0 * cdot (g 0) (e.vec b) + S 1 1 * cdot (g 1) (e.vec b)) * g 1 i
          = e.val b * e.vec b i := by
      intro b i
      rw [← hsolve.eigen b i]
      simp only [Bmat, cdot, Fin.sum_univ_three, Fin.sum_univ_two, up_zero, up_one]
      ring
    intro a i
    rcases fin2_cases a with rfl | rfl
    · exact gen c i
    · exact gen d i
  refine ⟨?_, h2, ?_⟩
  · intro a b
    rcases fin2_cases a with rfl | rfl <;> rcases fin2_cases b with rfl | rfl
    · exact (hsolve.orthonormal c c).trans (by simp)
    · exact (hsolve.orthonormal c d).trans (by simp [hcd])
    · exact (hsolve.orthonormal d c).trans (by simp [hcd.symm])
    · exact (hsolve.orthonormal d d).trans (by simp)
  · intro a n ha h0 h1
    have e0 := h2 a 0
    have e1 := h2 a 1
    have e2 := h2 a 2
    have : (pick e c d).val a * cdot ((pick e c d).vec a) n = 0 := by
      simp only [cdot, Fin.sum_univ_three] at h0 h1 e0 e1 e2 ⊢
      linear_combination (-n 0) * e0 - n 1 * e1 - n 2 * e2
        + (S 0 0 * (g 0 0 * (pick e c d).vec a 0 + g 0 1 * (pick e c d).vec a 1
            + g 0 2 * (pick e c d).vec a 2) + S 0 1 * (g 1 0 * (pick e c d).vec a 0
            + g 1 1 * (pick e c d).vec a 1 + g 1 2 * (pick e c d).vec a 2)) * h0
        + (S 1 0 * (g 0 0 * (pick e c d).vec a 0 + g 0 1 * (pick e c d).vec a 1
            + g 0 2 * (pick e c d).vec a 2) + S 1 1 * (g 1 0 * (pick e c d).vec a 0
            + g 1 1 * (pick e c d).vec a 1 + g 1 2 * (pick e c d).vec a 2)) * h1
    exact (mul_eq_zero.1 this).resolve_left ha

/-- C111 (violated): a uniaxial stress and a correct decomposition for which the normal of the
surface is returned as first principal direction. -/
theorem C111_directions_violated : ∃ (g : Cols) (S : T2) (e : Eig),
    IsEigenDecomposition (Bmat S g) e.val e.vec ∧ gram g 0 0 = 1 ∧ gram g 1 1 = 1 ∧
    cdot (g 0) (g 2) = 0 ∧ cdot (g 1) (g 2) = 0 ∧
    ∃ p, select e = .ok p ∧ p.val 0 = 0 ∧ p.val 1 = 1 ∧ p.vec 0 = g 2 := by
  refine ⟨unitCols, ![![1, 0], ![0, 0]], ⟨vec3 0 0 1, mk3 0 0 1 0 1 0 1 0 0⟩, ⟨by norm_num, ?_, ?_⟩,
    by rw [gram_unit]; simp, by rw [gram_unit]; simp,
    by simp [cdot, unitCols, Fin.sum_univ_three], by simp [cdot, unitCols, Fin.sum_univ_three],
    pick ⟨vec3 0 0 1, mk3 0 0 1 0 1 0 1 0 0⟩ 0 2, ?_, rfl, rfl, rfl⟩
  · intro a b
    rcases fin3_cases a with rfl | rfl | rfl <;> rcases fin3_cases b with rfl | rfl | rfl <;>
      simp [Fin.sum_univ_three]
  · intro a i
    rcases fin3_cases a with rfl | rfl | rfl <;> rcases fin3_cases i with rfl | rfl | rfl <;>
      simp [Fin.sum_univ_three, Bmat, unitCols]
  · rw [select_eq]; unfold relMax
    norm_num [vec3_zero, vec3_one, vec3_two]

/-- C111 (partial): the principal Cauchy stresses are right when the deformation preserves the
metric.  Missing: the basis used is that of the undeformed surface, the components of the
Cauchy stress refer to the deformed one. -/
theorem C111_cauchy_partial (solver : T3 → Eig) (g gdef : Cols) (σ : T2) (x y : ℝ)
    (hsolve : IsEigenDecomposition (Bmat σ g) (solver (Bmat σ g)).val (solver (Bmat σ g)).vec)
    (hiso : gram g = gram gdef) (hp : PrincipalValues σ (gram gdef) x y) :
    ∃ p, evalPStress solver g σ = .ok p ∧
      |p.val 0 - x| ≤ 1e-14 * max |x| |y| ∧ |p.val 1 - y| ≤ 1e-14 * max |x| |y| :=
  C111_values solver g σ x y hsolve (by rw [hiso]; exact hp)

example : gram unitCols = gram (mk3 0 1 0 0 0 1 1 0 0) ∧
    PrincipalValues ![![1, 0], ![0, 2]] (gram (mk3 0 1 0 0 0 1 1 0 0)) 1 2 := by
  have h : gram (mk3 0 1 0 0 0 1 1 0 0) = ![![1, 0], ![0, 1]] := by
    funext i j
    rcases fin2_cases i with rfl | rfl <;> rcases fin2_cases j with rfl | rfl <;>
      simp [gram, Fin.sum_univ_three]
  rw [h, gram_unit]
  exact ⟨rfl, by simpa using values_diag 1 2 1 1 (by norm_num)⟩

/-- C111 (violated): under a stretch by two, Cauchy components that describe the principal
stresses 4 and 4 give values below 2. -/
theorem C111_cauchy_violated : ∃ (g gdef : Cols) (σ : T2),
    PrincipalValues σ (gram gdef) 4 4 ∧
    ∀ solver : T3 → Eig,
      IsEigenDecomposition (Bmat σ g) (solver (Bmat σ g)).val (solver (Bmat σ g)).vec →
      ∃ p, evalPStress solver g σ = .ok p ∧ p.val 0 < 2 ∧ p.val 1 < 2 := by
  refine ⟨unitCols, longCols, ![![1, 0], ![0, 1]], ?_, fun solver hs => ?_⟩
  · rw [gram_long]
    simpa using values_diag 1 1 4 4 le_rfl
  · obtain ⟨p, hp, h0, h1⟩ := C111_values solver unitCols ![![1, 0], ![0, 1]] 1 1 hs
      (by rw [gram_unit]; simpa using values_diag 1 1 1 1 le_rfl)
    refine ⟨p, hp, ?_, ?_⟩
    · have := (abs_le.1 h0).2
      norm_num at this
      linarith
    · have := (abs_le.1 h1).2
      norm_num at this
      linarith

/-- Principal strains in terms of principal stretches: `(λ² - 1)/2`. -/
theorem strain_of_stretch {A C : T2} (hA : det2 A ≠ 0) {a b : ℝ} (hab : a ≤ b)
    (h : AreEigenvalues A C a b) :
    PrincipalValues (fun i j => (C i j - A i j) / 2) (inv2 A) ((a - 1) / 2) ((b - 1) / 2) := by
  refine ⟨by linarith, fun t => ?_⟩
  have h1 := h (1 + 2 * t)
  have hA' : A 0 0 * A 1 1 - A 0 1 * A 1 0 ≠ 0 := hA
  have h2 : (mul2 (fun i j => (C i j - A i j) / 2) (inv2 A) 0 0 - t)
      * (mul2 (fun i j => (C i j - A i j) / 2) (inv2 A) 1 1 - t)
      - mul2 (fun i j => (C i j - A i j) / 2) (inv2 A) 0 1
        * mul2 (fun i j => (C i j - A i j) / 2) (inv2 A) 1 0
      = ((C 0 0 - (1 + 2 * t) * A 0 0) * (C 1 1 - (1 + 2 * t) * A 1 1)
        - (C 0 1 - (1 + 2 * t) * A 0 1) * (C 1 0 - (1 + 2 * t) * A 1 0))
        / (4 * (A 0 0 * A 1 1 - A 0 1 * A 1 0)) := by
    have i00 : inv2 A 0 0 = A 1 1 / (A 0 0 * A 1 1 - A 0 1 * A 1 0) := rfl
    have i01 : inv2 A 0 1 = -A 0 1 / (A 0 0 * A 1 1 - A 0 1 * A 1 0) := rfl
    have i10 : inv2 A 1 0 = -A 1 0 / (A 0 0 * A 1 1 - A 0 1 * A 1 0) := rfl
    have i11 : inv2 A 1 1 = A 0 0 / (A 0 0 * A 1 1 - A 0 1 * A 1 0) := rfl
    simp only [mul2, i00, i01, i10, i11]
    field_simp
    ring
  rw [h2, h1]
  field_simp
  ring

section
variable {A C : T2} {g : Cols} {solver : T3 → Eig} {c33 : ℝ}

/-- C111 (partial): the in-plane principal strains are `(λ² - 1)/2` of the principal stretches
returned for the same point (outside the shortcut of C58) and the
third value is entry (2,2) of the argument.  Missing: the third stretch (`C111_thickness_violated`). -/
theorem C111_stretch_partial (hdet : 0 < det2 A) (hsA : A 0 1 = A 1 0) (hC : SPD C)
    (hdual : ∀ i j, cdot (g (up i)) (g (up j)) = inv2 A i j)
    (hn : ∀ i, cdot (g (up i)) (g 2) = 0) (hn0 : cdot (g 2) (g 2) ≠ 0)
    (hsolve : IsEigenDecomposition (Bmat C g) (solver (Bmat C g)).val (solver (Bmat C g)).vec)
    (hshort : ¬ shortcut (Bmat C g)) (hc : 0 < c33)
    (hsolveE : IsEigenDecomposition (Bmat (fun i j => (C i j - A i j) / 2) g)
      (solver (Bmat (fun i j => (C i j - A i j) / 2) g)).val
      (solver (Bmat (fun i j => (C i j - A i j) / 2) g)).vec) (E33 : ℝ) :
    ∃ p, evalPStrain solver g (fun i j => (C i j - A i j) / 2) E33 = .ok p ∧ p 2 = E33 ∧
      let l := stretches solver C c33 g
      let M := max |(l 0 ^ 2 - 1) / 2| |(l 1 ^ 2 - 1) / 2|
      |p 0 - (l 0 ^ 2 - 1) / 2| ≤ 1e-14 * M ∧ |p 1 - (l 1 ^ 2 - 1) / 2| ≤ 1e-14 * M := by
  obtain ⟨h1, -, hpos⟩ := C58_partial hdet hsA hC hdual hn hn0 hsolve hshort hc
  have hle : stretches solver C c33 g 0 ^ 2 ≤ stretches solver C c33 g 1 ^ 2 := by
    have : stretches solver C c33 g 0 ≤ stretches solver C c33 g 1 := by
      unfold stretches eigOf
      rw [if_neg hshort]
      simpa using Real.sqrt_le_sqrt hsolve.ascending.2
    exact pow_le_pow_left₀ (hpos 0).le this 2
  have hg : gram g = inv2 A := by
    funext i j
    rw [gram_apply, hdual]
  have hp := strain_of_stretch hdet.ne' hle h1
  rw [← hg] at hp
  obtain ⟨q, hq⟩ := select_ok _ (has_zero hsolveE)
  refine ⟨vec3 (q.val 0) (q.val 1) E33, ?_, rfl, ?_⟩
  · unfold evalPStrain
    rw [hq]
    rfl
  · simpa using select_values hsolveE hp hq

end

/-- A solver for the diagonal tensors of the next example. -/
def diagSolver (B : T3) : Eig := ⟨vec3 0 (B 0 0) (B 1 1), mk3 0 0 1 1 0 0 0 1 0⟩

theorem diagSolver_ok (a b : ℝ) (ha : 0 ≤ a) (hab : a ≤ b) :
    IsEigenDecomposition (Bmat ![![a, 0], ![0, b]] unitCols)
      (diagSolver (Bmat ![![a, 0], ![0, b]] unitCols)).val
      (diagSolver (Bmat ![![a, 0], ![0, b]] unitCols)).vec := by
  refine ⟨?_, ?_, ?_⟩
  · simp [diagSolver, Bmat, unitCols, ha, hab]
  · intro c d
    rcases fin3_cases c with rfl | rfl | rfl <;> rcases fin3_cases d with rfl | rfl | rfl <;>
      simp [Fin.sum_univ_three, diagSolver]
  · intro c i
    rcases fin3_cases c with rfl | rfl | rfl <;> rcases fin3_cases i with rfl | rfl | rfl <;>
      simp [Fin.sum_univ_three, Bmat, unitCols, diagSolver]

/-- The hypotheses of `C111_stretch_partial` hold for stretches 2 and 3. -/
example : 0 < det2 (![![1, 0], ![0, 1]] : T2) ∧ SPD ![![4, 0], ![0, 9]] ∧
    (∀ i j, cdot (unitCols (up i)) (unitCols (up j)) = inv2 ![![1, 0], ![0, 1]] i j) ∧
    (∀ i, cdot (unitCols (up i)) (unitCols 2) = 0) ∧ cdot (unitCols 2) (unitCols 2) ≠ 0 ∧
    IsEigenDecomposition (Bmat ![![4, 0], ![0, 9]] unitCols)
      (diagSolver (Bmat ![![4, 0], ![0, 9]] unitCols)).val
      (diagSolver (Bmat ![![4, 0], ![0, 9]] unitCols)).vec ∧
    ¬ shortcut (Bmat ![![4, 0], ![0, 9]] unitCols) ∧
    IsEigenDecomposition (Bmat ![![3 / 2, 0], ![0, 4]] unitCols)
      (diagSolver (Bmat ![![3 / 2, 0], ![0, 4]] unitCols)).val
      (diagSolver (Bmat ![![3 / 2, 0], ![0, 4]] unitCols)).vec := by
  refine ⟨by simp [det2], ⟨by simp, ?_⟩, ?_, ?_, ?_, diagSolver_ok 4 9 (by norm_num) (by norm_num),
    ?_, diagSolver_ok (3 / 2) 4 (by norm_num) (by norm_num)⟩
  · intro x y h
    simp only [Matrix.cons_val_zero, Matrix.cons_val_one, Fin.isValue]
    rcases h with h | h
    · have := mul_self_pos.2 h
      nlinarith [mul_self_nonneg y]
    · have := mul_self_pos.2 h
      nlinarith [mul_self_nonneg x]
  · intro i j
    rcases fin2_cases i with rfl | rfl <;> rcases fin2_cases j with rfl | rfl <;>
      simp [cdot, Fin.sum_univ_three, inv2, det2, unitCols]
  · intro i
    rcases fin2_cases i with rfl | rfl <;> simp [cdot, Fin.sum_univ_three, unitCols]
  · simp [cdot, Fin.sum_univ_three, unitCols]
  · unfold shortcut eps
    simp [Bmat, unitCols]
    norm_num

/-- The third principal stretch of the incompressible and of the linear materials is `1/J0`
(C58, `C33 = 1/J0²`). -/
noncomputable def thicknessStrain (j0sq : ℝ) : ℝ := (1 / j0sq - 1) / 2

/-- C111 (violated): the third principal strain is zero for every deformation, which is the
strain of the thickness stretch only if the area is preserved. -/
theorem C111_thickness_violated (solver : T3 → Eig) (g : Cols) (E : T2)
    (hsolve : IsEigenDecomposition (Bmat E g) (solver (Bmat E g)).val (solver (Bmat E g)).vec)
    (j0sq : ℝ) (hj : 0 < j0sq) :
    ∃ p, evalPStrain solver g E 0 = .ok p ∧ p 2 = 0 ∧ (p 2 = thicknessStrain j0sq ↔ j0sq = 1) := by
  obtain ⟨q, hq⟩ := select_ok _ (has_zero hsolve)
  refine ⟨vec3 (q.val 0) (q.val 1) 0, ?_, rfl, ?_⟩
  · unfold evalPStrain
    rw [hq]
    rfl
  · simp only [vec3_two]
    unfold thicknessStrain
    constructor
    · intro h
      field_simp at h
      linarith
    · intro h
      rw [h]
      norm_num

/-! ## C112: outputs of the tension-field material -/

/-- C112 (partial: the stress of the wrapped material is its matrix times its strain; the linear
material away from the middle surface is missing, see `C112_elastic_violated`): the returned
stress is the matrix times the returned strain in each of the three states. -/
theorem C112_elastic_partial (tf : Int) (slack θ : ℝ) (C : T3) (S E : Voigt)
    (hE : S = mulVec3 C E) :
    TFT.evalStress tf slack θ C S = (tftStrain tf slack θ C S E).map (mulVec3 C) := by
  subst hE
  unfold TFT.evalStress tftStrain
  split_ifs
  · rfl
  · simp only [Outcome.map]
    congr 1
    funext i
    simp only [mulVec3, Fin.sum_univ_three]
    ring
  · simp only [Outcome.map]
    congr 1
    funext i
    simp only [TFT.computeS, TFT.computeE, mulVec3, Fin.sum_univ_three]
    ring
  · rfl

example : (vec3 1 2 3 : Voigt) = mulVec3 (mk3 1 0 0 0 1 0 0 0 1) (vec3 1 2 3) := by
  funext i
  rcases fin3_cases i with rfl | rfl | rfl <;> simp [mulVec3, Fin.sum_univ_three]

/-- C112 (partial): in a taut and in a slack state the principal stresses are those of the
returned stress (multiplier not negative).  Missing: the wrinkled state. -/
theorem C112_pstress_partial (tf : Int) (slack θ : ℝ) (C : T3) (S : Voigt) (G : T2) (x y : ℝ)
    (htf : tf = 1 ∨ tf = -1) (hs : 0 ≤ slack) (h : PrincipalValues (TFT.stressTensor S) G x y) :
    ∃ S' p, TFT.evalStress tf slack θ C S = .ok S' ∧ tftPStress tf slack ![x, y] = .ok p ∧
      PrincipalValues (TFT.stressTensor S') G (p 0) (p 1) := by
  rcases htf with rfl | rfl
  · exact ⟨S, ![x, y], by simp [TFT.evalStress], by simp [tftPStress], h⟩
  · refine ⟨fun i => S i * slack, fun i => ![x, y] i * slack, by simp [TFT.evalStress],
      by simp [tftPStress], ?_⟩
    have e : TFT.stressTensor (fun i => S i * slack) = fun i j => TFT.stressTensor S i j * slack := by
      funext i j
      rcases fin2_cases i with rfl | rfl <;> rcases fin2_cases j with rfl | rfl <;>
        simp [TFT.stressTensor]
    rw [e]
    exact values_smul hs h

/-- C112 (partial): the same for the strains. -/
theorem C112_pstrain_partial (tf : Int) (slack θ : ℝ) (C : T3) (S E : Voigt) (G : T2) (x y : ℝ)
    (htf : tf = 1 ∨ tf = -1) (hs : 0 ≤ slack) (h : PrincipalValues (TFT.strainTensor E) G x y) :
    ∃ E' p, tftStrain tf slack θ C S E = .ok E' ∧ tftPStrain tf slack (vec3 x y 0) = .ok p ∧
      PrincipalValues (TFT.strainTensor E') G (p 0) (p 1) := by
  rcases htf with rfl | rfl
  · exact ⟨E, vec3 x y 0, by simp [tftStrain], by simp [tftPStrain], h⟩
  · refine ⟨fun i => E i * slack, fun i => vec3 x y 0 i * slack, by simp [tftStrain],
      by simp [tftPStrain], ?_⟩
    have e : TFT.strainTensor (fun i => E i * slack) = fun i j => TFT.strainTensor E i j * slack := by
      funext i j
      rcases fin2_cases i with rfl | rfl <;> rcases fin2_cases j with rfl | rfl <;>
        simp [TFT.strainTensor] <;> ring
    rw [e]
    exact values_smul hs h

/-- The hypotheses of the two theorems hold for a biaxial state in a slack material. -/
example : PrincipalValues (TFT.stressTensor (vec3 (-2) (-1) 0)) ![![1, 0], ![0, 1]] (-2) (-1) ∧
    (0 : ℝ) ≤ 1e-3 := by
  refine ⟨⟨by norm_num, fun t => ?_⟩, by norm_num⟩
  simp [TFT.stressTensor, mul2]
  ring

/-- C112 (violated): a wrinkled state whose returned stress and strain are free of compression
while the returned principal stresses and strains contain the value -1. -/
theorem C112_wrinkled_violated : ∃ (C : T3) (S E : Voigt) (θ : ℝ), S = mulVec3 C E ∧
    TFT.tensionField 2 (-1) 2 (-1) 2 = .ok 0 ∧ TFT.objective C S θ = 0 ∧ TFT.checkTheta θ S E ∧
    ∀ slack, ∃ S' E', TFT.evalStress 0 slack θ C S = .ok S' ∧
      tftStrain 0 slack θ C S E = .ok E' ∧
      PrincipalValues (TFT.stressTensor S) ![![1, 0], ![0, 1]] (-1) 2 ∧
      PrincipalValues (TFT.stressTensor S') ![![1, 0], ![0, 1]] 0 2 ∧
      PrincipalValues (TFT.strainTensor E') ![![1, 0], ![0, 1]] 0 2 ∧
      tftPStress 0 slack ![-1, 2] = .ok ![-1, 2] ∧
      tftPStrain 0 slack (vec3 (-1) 2 0) = .ok (vec3 (-1) 2 0) := by
  have hg : TFT.gamma 0 (mk3 1 0 0 0 1 0 0 0 1) (vec3 (-1) 2 0) = 1 := by
    simp [TFT.gamma, TFT.quad, TFT.n1, dotV, mulVec3, Fin.sum_univ_three]
  refine ⟨mk3 1 0 0 0 1 0 0 0 1, vec3 (-1) 2 0, vec3 (-1) 2 0, 0, ?_, ?_, ?_, ⟨?_, ?_⟩,
    fun slack => ⟨_, _, rfl, rfl, ?_, ?_, ?_, ?_, ?_⟩⟩
  · funext i
    rcases fin3_cases i with rfl | rfl | rfl <;> simp [mulVec3, Fin.sum_univ_three]
  · show Outcome.ok (TFT.fieldOf _ _ _) = _
    congr 1
    unfold TFT.fieldOf
    norm_num
  · unfold TFT.objective
    rw [hg]
    simp [TFT.quad, TFT.n1, TFT.n2, dotV, mulVec3, Fin.sum_univ_three]
  · simp [TFT.n1, dotV, Fin.sum_univ_three]
  · simp [TFT.n4, dotV, Fin.sum_univ_three]
  · refine ⟨by norm_num, fun t => ?_⟩
    simp [TFT.stressTensor, mul2]
    ring
  · refine ⟨by norm_num, fun t => ?_⟩
    simp [TFT.stressTensor, mul2, TFT.computeS, hg, TFT.n1, mulVec3, Fin.sum_univ_three]
    ring
  · refine ⟨by norm_num, fun t => ?_⟩
    simp [TFT.strainTensor, mul2, TFT.computeE, hg, TFT.n1]
    ring
  · simp [tftPStress]
  · simp [tftPStrain]

/-- C112 (partial): in a taut state the principal Cauchy stresses are those of the returned
Cauchy stress.  Missing: slack and wrinkled states. -/
theorem C112_cauchy_partial (slack θ : ℝ) (C : T3) (S σ : Voigt) (j0sq : ℝ) (G : T2) (x y : ℝ)
    (h : PrincipalValues (TFT.stressTensor σ) G x y) :
    ∃ σ' p, TFT.evalCauchy 1 slack θ C S σ j0sq = .ok σ' ∧
      tftCauchyPStress 1 slack ![x, y] = .ok p ∧
      PrincipalValues (TFT.stressTensor σ') G (p 0) (p 1) :=
  ⟨σ, ![x, y], by simp [TFT.evalCauchy], rfl, h⟩

example : PrincipalValues (TFT.stressTensor (vec3 1 2 0)) ![![1, 0], ![0, 1]] 1 2 := by
  refine ⟨by norm_num, fun t => ?_⟩
  simp [TFT.stressTensor, mul2]
  ring

/-- C112 (violated): a slack state with the default multiplier 0: the returned Cauchy stress
vanishes, the returned principal Cauchy stresses are -2 and -1. -/
theorem C112_cauchy_violated : ∃ (C : T3) (S σ : Voigt) (j0sq θ : ℝ),
    TFT.tensionField 1 (-2) (-1) (-2) (-1) = .ok (-1) ∧
    PrincipalValues (TFT.stressTensor σ) ![![1, 0], ![0, 1]] (-2) (-1) ∧
    TFT.evalCauchy (-1) 0 θ C S σ j0sq = .ok (fun _ => 0) ∧
    tftCauchyPStress (-1) 0 ![-2, -1] = .ok ![-2, -1] := by
  refine ⟨mk3 1 0 0 0 1 0 0 0 1, vec3 (-2) (-1) 0, vec3 (-2) (-1) 0, 1, 0, ?_, ?_, ?_, rfl⟩
  · show Outcome.ok (TFT.fieldOf _ _ _) = _
    congr 1
    unfold TFT.fieldOf
    norm_num
  · refine ⟨by norm_num, fun t => ?_⟩
    simp [TFT.stressTensor, mul2]
    ring
  · simp [TFT.evalCauchy]

end Verif.Principal
