import Verif.Lemmas.System

/-! # Helper lemmas: moduli of the linear problem -/

namespace Verif.System

open V3 Verif.Geometry Verif.Variation Verif.Balance Verif.Integrate Spec.System Spec.PosDef
open Verif.Linear (Output)

/-- Quadratic form of a matrix. -/
def quad (M : T3) (v : Voigt) : ℝ := ∑ i, ∑ j, v i * M i j * v j

theorem quad_nonneg {M : T3} (h : PosMat M) (v : Voigt) : 0 ≤ quad M v := by
  by_cases h0 : v = 0
  · simp [quad, h0]
  · exact (h v h0).le

theorem quad_pos {M : T3} (h : PosMat M) {v : Voigt} (h0 : v ≠ 0) : 0 < quad M v := h v h0

/-! ## Linear material -/

theorem linear_posMat (E ν : ℝ) (hE : 0 < E) (h1 : -1 < ν) (h2 : ν < 1 / 2) (s : Surf)
    (h : Indep (s.a 0) (s.a 1)) : PosMat (Linear.matrix E ν (Acon s)) := by
  intro v hv
  obtain ⟨hA, hp, hd⟩ := Linear.C20_surface_metric s h
  have he : tens v 0 1 = tens v 1 0 := rfl
  have hne : ∃ i j, tens v i j ≠ 0 := by
    by_contra hcon
    push Not at hcon
    apply hv
    have a := hcon 0 0
    have b := hcon 1 1
    have c := hcon 0 1
    simp [tens] at a b c
    funext k
    rcases fin3_cases k with rfl | rfl | rfl
    · exact a
    · exact b
    · exact c
  have := Linear.C20_positive_energy E ν hE h1 h2 (Acon s) (tens v) hA hp hd he hne
  rw [← Linear.C20_matrix_form E ν (Acon s) (tens v) hA he] at this
  refine this.trans_le (le_of_eq ?_)
  have e : vec3 (tens v 0 0) (tens v 1 1) (2 * tens v 0 1) = v := by
    funext k
    rcases fin3_cases k with rfl | rfl | rfl <;> simp [tens]; ring
  rw [e]
  simp only [dotV, mulVec3, Fin.sum_univ_three]; ring

theorem linear_A (r : Rule) (t E ν : ℝ) (s : Surf) (i j : Fin 3) :
    (linearModuli r t E ν s).A i j = t * Linear.matrix E ν (Acon s) i j := by
  show multiplyZ t 0 (fun _ => Linear.matrix E ν (Acon s) i j) = _
  simp [multiplyZ]; ring

theorem linear_B (r : Rule) (t E ν : ℝ) (s : Surf) (i j : Fin 3) :
    (linearModuli r t E ν s).B i j = 0 := by
  show multiplyZ t 1 (fun _ => Linear.matrix E ν (Acon s) i j) = _
  simp [multiplyZ]

theorem linear_C (r : Rule) (t E ν : ℝ) (s : Surf) (i j : Fin 3) :
    (linearModuli r t E ν s).C i j = 0 := by
  show multiplyZ t 1 (fun _ => Linear.matrix E ν (Acon s) i j) = _
  simp [multiplyZ]

theorem linear_D (r : Rule) (t E ν : ℝ) (s : Surf) (i j : Fin 3) :
    (linearModuli r t E ν s).D i j = t ^ 3 / 12 * Linear.matrix E ν (Acon s) i j := by
  show multiplyZ t 2 (fun _ => Linear.matrix E ν (Acon s) i j) = _
  simp [multiplyZ]; ring

theorem linear_density (r : Rule) (t E ν : ℝ) (s : Surf) (e k : Voigt) :
    density (linearModuli r t E ν s) e k
      = t * quad (Linear.matrix E ν (Acon s)) e + t ^ 3 / 12 * quad (Linear.matrix E ν (Acon s)) k := by
  simp only [density, linear_A, linear_B, linear_C, linear_D, quad, Fin.sum_univ_three]; ring

theorem linear_definite (r : Rule) (t E ν : ℝ) (ht : 0 < t) (hE : 0 < E) (h1 : -1 < ν)
    (h2 : ν < 1 / 2) (s : Surf) (h : Indep (s.a 0) (s.a 1)) : Definite (linearModuli r t E ν s) := by
  have hp := linear_posMat E ν hE h1 h2 s h
  refine ⟨⟨fun i j => ?_, fun i j => ?_, fun i j => ?_⟩, fun e k hek => ?_⟩
  · rw [linear_A, linear_A, Linear.C18_matrix_symmetric]
  · rw [linear_D, linear_D, Linear.C18_matrix_symmetric]
  · rw [linear_B, linear_C]
  · rw [linear_density]
    have a := quad_nonneg hp e
    have b := quad_nonneg hp k
    have ht3 : 0 < t ^ 3 / 12 := by positivity
    by_cases hk : k = 0
    · have he : e ≠ 0 := fun he => hek ⟨he, hk⟩
      have := mul_pos ht (quad_pos hp he)
      have := mul_nonneg ht3.le b
      linarith
    · have := mul_pos ht3 (quad_pos hp hk)
      have := mul_nonneg ht.le a
      linarith

/-! ## Materials integrated by a quadrature rule -/

theorem gauss_density (r : Rule) (t : ℝ) (M : ℝ → T3) (e k : Voigt) :
    density (moduli .notIntegrated r t (fun _ => M)) e k
      = ∑ j, r.w j * t * (∑ a, ∑ b, (e a * M (r.ξ j) a b * e b
          + (r.ξ j * t) * (k a * M (r.ξ j) a b * e b) + (r.ξ j * t) * (e a * M (r.ξ j) a b * k b)
          + (r.ξ j * t) ^ 2 * (k a * M (r.ξ j) a b * k b))) := by
  have hA : ∀ i j, (moduli .notIntegrated r t (fun _ => M)).A i j
      = ∑ q, r.w q * (r.ξ q * t) ^ 0 * M (r.ξ q) i j * t := fun _ _ => rfl
  have hB : ∀ i j, (moduli .notIntegrated r t (fun _ => M)).B i j
      = ∑ q, r.w q * (r.ξ q * t) ^ 1 * M (r.ξ q) i j * t := fun _ _ => rfl
  have hC : ∀ i j, (moduli .notIntegrated r t (fun _ => M)).C i j
      = ∑ q, r.w q * (r.ξ q * t) ^ 1 * M (r.ξ q) i j * t := fun _ _ => rfl
  have hD : ∀ i j, (moduli .notIntegrated r t (fun _ => M)).D i j
      = ∑ q, r.w q * (r.ξ q * t) ^ 2 * M (r.ξ q) i j * t := fun _ _ => rfl
  simp only [density, hA, hB, hC, hD, Finset.mul_sum, Finset.sum_mul, ← Finset.sum_add_distrib]
  rw [Finset.sum_congr rfl fun i _ => Finset.sum_comm, Finset.sum_comm]
  exact Finset.sum_congr rfl fun q _ => Finset.sum_congr rfl fun a _ =>
    Finset.sum_congr rfl fun b _ => by ring

theorem gauss_density' (r : Rule) (t : ℝ) (M : ℝ → T3) (e k : Voigt) :
    density (moduli .notIntegrated r t (fun _ => M)) e k
      = ∑ j, r.w j * t * quad (M (r.ξ j)) (fun a => e a + r.ξ j * t * k a) := by
  rw [gauss_density]
  refine Finset.sum_congr rfl fun q _ => ?_
  simp only [quad, Fin.sum_univ_three]; ring

theorem gauss_definite (r : Rule) (t : ℝ) (M : ℝ → T3) (ht : 0 < t) (hw : ∀ j, 0 < r.w j)
    (hsym : ∀ j a b, M (r.ξ j) a b = M (r.ξ j) b a) (hM : ∀ j, PosMat (M (r.ξ j)))
    (h2 : ∃ i j, r.ξ i ≠ r.ξ j) : Definite (moduli .notIntegrated r t (fun _ => M)) := by
  refine ⟨⟨fun i j => ?_, fun i j => ?_, fun i j => ?_⟩, fun e k hek => ?_⟩
  · show ∑ q, r.w q * (r.ξ q * t) ^ 0 * M (r.ξ q) i j * t = ∑ q, r.w q * (r.ξ q * t) ^ 0 * M (r.ξ q) j i * t
    exact Finset.sum_congr rfl fun q _ => by rw [hsym q i j]
  · show ∑ q, r.w q * (r.ξ q * t) ^ 2 * M (r.ξ q) i j * t = ∑ q, r.w q * (r.ξ q * t) ^ 2 * M (r.ξ q) j i * t
    exact Finset.sum_congr rfl fun q _ => by rw [hsym q i j]
  · show ∑ q, r.w q * (r.ξ q * t) ^ 1 * M (r.ξ q) i j * t = ∑ q, r.w q * (r.ξ q * t) ^ 1 * M (r.ξ q) j i * t
    exact Finset.sum_congr rfl fun q _ => by rw [hsym q i j]
  · rw [gauss_density']
    obtain ⟨i, j, hij⟩ := h2
    have hne : ∃ q : Fin r.n, (fun a => e a + r.ξ q * t * k a) ≠ 0 := by
      by_contra hcon
      push Not at hcon
      apply hek
      have hk : k = 0 := by
        funext a
        have p := congrFun (hcon i) a
        have q := congrFun (hcon j) a
        simp only [Pi.zero_apply] at p q
        have : (r.ξ i - r.ξ j) * t * k a = 0 := by linear_combination p - q
        rcases mul_eq_zero.1 this with h | h
        · rcases mul_eq_zero.1 h with h | h
          · exact absurd (sub_eq_zero.1 h) hij
          · exact absurd h ht.ne'
        · exact h
      refine ⟨?_, hk⟩
      funext a
      have p := congrFun (hcon i) a
      simpa [hk] using p
    obtain ⟨q, hq⟩ := hne
    refine Finset.sum_pos' (fun j _ => ?_) ⟨q, Finset.mem_univ q, ?_⟩
    · exact mul_nonneg (mul_pos (hw j) ht).le (quad_nonneg (hM j) _)
    · exact mul_pos (mul_pos (hw q) ht) (quad_pos (hM q) hq)

/-! ## Laminates -/

theorem rot_inj (φ : ℝ) {v : Voigt} (h : mulVec3 (Composite.rot φ) v = 0) : v = 0 := by
  have hc := Real.sin_sq_add_cos_sq φ
  have h0 := congrFun h 0
  have h1 := congrFun h 1
  have h2 := congrFun h 2
  simp [mulVec3, Composite.rot, Fin.sum_univ_three] at h0 h1 h2
  set S := Real.sin φ
  set C := Real.cos φ
  have g0 : v 0 + v 1 = 0 := by linear_combination h0 + h1 - (v 0 + v 1) * hc
  have g1 : (C ^ 2 - S ^ 2) * (v 0 - v 1) + 2 * S * C * v 2 = 0 := by linear_combination h0 - h1
  have g2 : -2 * (S * C) * (v 0 - v 1) + (C ^ 2 - S ^ 2) * v 2 = 0 := by linear_combination h2
  have d : (C ^ 2 - S ^ 2) ^ 2 + (2 * S * C) ^ 2 = 1 := by
    have : (C ^ 2 - S ^ 2) ^ 2 + (2 * S * C) ^ 2 = (S ^ 2 + C ^ 2) ^ 2 := by ring
    rw [this, hc]; norm_num
  have g3 : v 0 - v 1 = 0 := by
    linear_combination (C ^ 2 - S ^ 2) * g1 - (2 * S * C) * g2 - (v 0 - v 1) * d
  have g4 : v 2 = 0 := by
    linear_combination (2 * S * C) * g1 + (C ^ 2 - S ^ 2) * g2 - v 2 * d
  funext k
  rcases fin3_cases k with rfl | rfl | rfl
  · show v 0 = 0; linarith
  · show v 1 = 0; linarith
  · exact g4

theorem plyD_pos (l : Composite.Layer) (h : PosMat l.G) : PosMat (Composite.plyD l) := by
  intro v hv
  have hne : mulVec3 (Composite.rot l.φ) v ≠ 0 := fun h0 => hv (rot_inj l.φ h0)
  refine (h _ hne).trans_le (le_of_eq ?_)
  unfold Composite.plyD
  generalize Composite.rot l.φ = R
  simp only [mulVec3, mul3, transpose3, Fin.sum_univ_three]; ring

theorem plyD_symm (l : Composite.Layer) (h : ∀ i j, l.G i j = l.G j i) (i j : Fin 3) :
    Composite.plyD l i j = Composite.plyD l j i := by
  unfold Composite.plyD
  generalize Composite.rot l.φ = R
  simp only [mul3, transpose3, Fin.sum_univ_three, h 1 0, h 2 0, h 2 1]; ring

open Composite in
theorem acc_symm (f : ℝ → ℝ → ℝ) (i j : Fin 3) (ls : List Layer)
    (h : ∀ l ∈ ls, ∀ i j, l.G i j = l.G j i) (p z : ℝ) : acc f i j ls p z = acc f j i ls p z := by
  induction ls generalizing p with
  | nil => rfl
  | cons l ls ih =>
    simp only [acc]
    rw [plyD_symm l (h l (by simp)) i j, ih fun l hl => h l (by simp [hl])]

open Composite in
/-- Form of the layer sums. -/
noncomputable def accForm (e k : Voigt) (ls : List Layer) (p z : ℝ) : ℝ :=
  ∑ i, ∑ j, (e i * acc (factor .A) i j ls p z * e j + k i * acc (factor .B) i j ls p z * e j
    + e i * acc (factor .C) i j ls p z * k j + k i * acc (factor .D) i j ls p z * k j)

open Composite in
theorem accForm_cons (e k : Voigt) (l : Layer) (ls : List Layer) (p z : ℝ) :
    accForm e k (l :: ls) p z = (l.t * quad (plyD l) (fun a => e a + (z - (l.t / 2 + p)) * k a)
      + l.t ^ 3 / 12 * quad (plyD l) k) + accForm e k ls (p + l.t) z := by
  simp only [accForm, acc, quad, factor, Fin.sum_univ_three]
  ring

open Composite in
theorem accForm_nonneg (e k : Voigt) (ls : List Layer) (ht : ∀ l ∈ ls, 0 < l.t)
    (hG : ∀ l ∈ ls, PosMat l.G) (p z : ℝ) : 0 ≤ accForm e k ls p z := by
  induction ls generalizing p with
  | nil => simp [accForm, acc]
  | cons l ls ih =>
    rw [accForm_cons]
    have h1 := ih (fun l hl => ht l (by simp [hl])) (fun l hl => hG l (by simp [hl])) (p + l.t)
    have hp := plyD_pos l (hG l (by simp))
    have t := ht l (by simp)
    have := mul_nonneg t.le (quad_nonneg hp (fun a => e a + (z - (l.t / 2 + p)) * k a))
    have := mul_nonneg (show 0 ≤ l.t ^ 3 / 12 by positivity) (quad_nonneg hp k)
    linarith

open Composite in
theorem accForm_pos (e k : Voigt) (ls : List Layer) (hls : ls ≠ []) (ht : ∀ l ∈ ls, 0 < l.t)
    (hG : ∀ l ∈ ls, PosMat l.G) (p z : ℝ) (hek : ¬ (e = 0 ∧ k = 0)) : 0 < accForm e k ls p z := by
  cases ls with
  | nil => exact absurd rfl hls
  | cons l ls =>
    rw [accForm_cons]
    have h1 := accForm_nonneg e k ls (fun l hl => ht l (by simp [hl])) (fun l hl => hG l (by simp [hl]))
      (p + l.t) z
    have hp := plyD_pos l (hG l (by simp))
    have t := ht l (by simp)
    have t3 : 0 < l.t ^ 3 / 12 := by positivity
    have a := mul_nonneg t.le (quad_nonneg hp (fun a => e a + (z - (l.t / 2 + p)) * k a))
    have b := mul_nonneg t3.le (quad_nonneg hp k)
    by_cases hk : k = 0
    · have he : (fun a => e a + (z - (l.t / 2 + p)) * k a) ≠ 0 := by
        intro h
        apply hek
        refine ⟨?_, hk⟩
        funext a
        have := congrFun h a
        simpa [hk] using this
      have := mul_pos t (quad_pos hp he)
      linarith
    · have := mul_pos t3 (quad_pos hp hk)
      linarith

theorem acon_orthogonal (s : Surf) (h1 : s.a 0 ≠ 0) (h2 : s.a 1 ≠ 0) (h : dot (s.a 0) (s.a 1) = 0) :
    acon s 0 = (1 / dot (s.a 0) (s.a 0)) • s.a 0 ∧ acon s 1 = (1 / dot (s.a 1) (s.a 1)) • s.a 1 := by
  have p1 := (dot_self_pos h1).ne'
  have p2 := (dot_self_pos h2).ne'
  have h' : dot (s.a 1) (s.a 0) = 0 := by rw [dot_comm]; exact h
  have a00 : Acon s 0 0 = 1 / dot (s.a 0) (s.a 0) := by
    have : Acon s 0 0 = dot (s.a 1) (s.a 1)
      / (dot (s.a 0) (s.a 0) * dot (s.a 1) (s.a 1) - dot (s.a 0) (s.a 1) * dot (s.a 1) (s.a 0)) := rfl
    rw [this, h, h']; field_simp; ring
  have a01 : Acon s 0 1 = 0 := by
    have : Acon s 0 1 = -dot (s.a 0) (s.a 1)
      / (dot (s.a 0) (s.a 0) * dot (s.a 1) (s.a 1) - dot (s.a 0) (s.a 1) * dot (s.a 1) (s.a 0)) := rfl
    rw [this, h]; simp
  have a10 : Acon s 1 0 = 0 := by
    have : Acon s 1 0 = -dot (s.a 1) (s.a 0)
      / (dot (s.a 0) (s.a 0) * dot (s.a 1) (s.a 1) - dot (s.a 0) (s.a 1) * dot (s.a 1) (s.a 0)) := rfl
    rw [this, h']; simp
  have a11 : Acon s 1 1 = 1 / dot (s.a 1) (s.a 1) := by
    have : Acon s 1 1 = dot (s.a 0) (s.a 0)
      / (dot (s.a 0) (s.a 0) * dot (s.a 1) (s.a 1) - dot (s.a 0) (s.a 1) * dot (s.a 1) (s.a 0)) := rfl
    rw [this, h, h']; field_simp; ring
  constructor
  · unfold acon; rw [a00, a01]; ext <;> simp
  · unfold acon; rw [a10, a11]; ext <;> simp

open Composite in
/-- In orthogonal bases the change of basis scales the entries. -/
theorem toSurface_scale (s : Surf) (h1 : s.a 0 ≠ 0) (h2 : s.a 1 ≠ 0)
    (h : dot (s.a 0) (s.a 1) = 0) : ∃ σ : Voigt, (∀ a, 0 < σ a) ∧
      ∀ D a b, toSurface (s.a 0) (s.a 1) (acon s 0) (acon s 1) D a b = σ a * σ b * D a b := by
  obtain ⟨e1, e2⟩ := acon_orthogonal s h1 h2 h
  have n1 := norm_pos h1
  have n2 := norm_pos h2
  have q1 := norm_sq (s.a 0)
  have q2 := norm_sq (s.a 1)
  have e3 : normalized (acon s 1) = normalized (s.a 1) := by
    have hn : V3.norm (acon s 1) = V3.norm (s.a 1) / dot (s.a 1) (s.a 1) := by
      unfold V3.norm
      rw [e2, dot_smul_left, dot_smul_right, ← mul_assoc, Real.sqrt_mul (mul_self_nonneg _),
        Real.sqrt_mul_self (by rw [one_div]; exact inv_nonneg.2 (dot_self_nonneg _))]
      ring
    have hd : dot (s.a 1) (s.a 1) ≠ 0 := (dot_self_pos h2).ne'
    unfold normalized
    rw [hn, e2]
    ext <;> simp <;> field_simp
  have d11 : dot (s.a 0) (normalized (s.a 0)) = V3.norm (s.a 0) := by
    unfold normalized; rw [dot_smul_right, ← q1]; field_simp
  have d22 : dot (s.a 1) (normalized (s.a 1)) = V3.norm (s.a 1) := by
    unfold normalized; rw [dot_smul_right, ← q2]; field_simp
  have c11 : dot (acon s 0) (normalized (s.a 0)) = 1 / V3.norm (s.a 0) := by
    rw [e1, dot_smul_left, d11, ← q1]; field_simp
  have c22 : dot (acon s 1) (normalized (acon s 1)) = 1 / V3.norm (s.a 1) := by
    rw [e3, e2, dot_smul_left, d22, ← q2]; field_simp
  have c12 : dot (acon s 0) (normalized (acon s 1)) = 0 := by
    rw [e3, e1, dot_smul_left]; unfold normalized; rw [dot_smul_right, h]; simp
  have c21 : dot (acon s 1) (normalized (s.a 0)) = 0 := by
    rw [e2, dot_smul_left]; unfold normalized; rw [dot_smul_right, dot_comm (s.a 1) (s.a 0), h]; simp
  have key := fun D => C32_toSurface_partial (s.a 0) (s.a 1) (acon s 0) (acon s 1) h1 h2 h e1 e2 D
  refine ⟨vec3 (1 / V3.norm (s.a 0) * (1 / V3.norm (s.a 0))) (1 / V3.norm (s.a 1) * (1 / V3.norm (s.a 1)))
    (1 / V3.norm (s.a 0) * (1 / V3.norm (s.a 1))), ?_, ?_⟩
  · intro a
    rcases fin3_cases a with rfl | rfl | rfl
    · show 0 < 1 / V3.norm (s.a 0) * (1 / V3.norm (s.a 0)); positivity
    · show 0 < 1 / V3.norm (s.a 1) * (1 / V3.norm (s.a 1)); positivity
    · show 0 < 1 / V3.norm (s.a 0) * (1 / V3.norm (s.a 1)); positivity
  · intro D
    have tc : ∀ i j k l, tensorComp D (fun i α => if i = 0 then (if α = 0 then
          dot (acon s 0) (normalized (s.a 0)) else dot (acon s 0) (normalized (acon s 1))) else
          (if α = 0 then dot (acon s 1) (normalized (s.a 0)) else
          dot (acon s 1) (normalized (acon s 1)))) i j k l
        = (if i = 0 then 1 / V3.norm (s.a 0) else 1 / V3.norm (s.a 1))
          * (if j = 0 then 1 / V3.norm (s.a 0) else 1 / V3.norm (s.a 1))
          * (if k = 0 then 1 / V3.norm (s.a 0) else 1 / V3.norm (s.a 1))
          * (if l = 0 then 1 / V3.norm (s.a 0) else 1 / V3.norm (s.a 1)) * D (vi i j) (vi k l) := by
      rw [c11, c12, c21, c22]
      intro i j k l
      rcases fin2_cases i with rfl | rfl <;> rcases fin2_cases j with rfl | rfl <;>
        rcases fin2_cases k with rfl | rfl <;> rcases fin2_cases l with rfl | rfl <;>
        simp [tensorComp, Fin.sum_univ_two]
    have ix : ∀ a : Fin 3, ∃ i j, a = vi i j ∧ (i, j) ∈ [((0 : Fin 2), (0 : Fin 2)), (1, 1), (0, 1)] ∧
        vec3 (1 / V3.norm (s.a 0) * (1 / V3.norm (s.a 0))) (1 / V3.norm (s.a 1) * (1 / V3.norm (s.a 1)))
          (1 / V3.norm (s.a 0) * (1 / V3.norm (s.a 1))) a
          = (if i = 0 then 1 / V3.norm (s.a 0) else 1 / V3.norm (s.a 1))
            * (if j = 0 then 1 / V3.norm (s.a 0) else 1 / V3.norm (s.a 1)) := by
      intro a
      rcases fin3_cases a with rfl | rfl | rfl
      · exact ⟨0, 0, by simp [vi], by simp, by simp⟩
      · exact ⟨1, 1, by simp [vi], by simp, by simp⟩
      · exact ⟨0, 1, by simp [vi], by simp, by simp⟩
    intro a b
    obtain ⟨i, j, rfl, hij, e⟩ := ix a
    obtain ⟨k, l, rfl, hkl, e'⟩ := ix b
    rw [key D i j k l hij hkl, tc, e, e']
    ring

open Composite in
theorem laminate_definite (r : Rule) (t : ℝ) (ls : List Layer) (s : Surf) (hls : ls ≠ [])
    (ht : ∀ l ∈ ls, 0 < l.t) (hs : ∀ l ∈ ls, ∀ i j, l.G i j = l.G j i) (hG : ∀ l ∈ ls, PosMat l.G)
    (h1 : s.a 0 ≠ 0) (h2 : s.a 1 ≠ 0) (h : dot (s.a 0) (s.a 1) = 0) :
    Definite (laminateModuli r t ls s) := by
  obtain ⟨σ, hσ, hT⟩ := toSurface_scale s h1 h2 h
  have hA : ∀ i j, (laminateModuli r t ls s).A i j = σ i * σ j * acc (factor .A) i j ls 0 (thickness ls / 2) :=
    fun i j => by rw [← abd_eq]; exact hT _ i j
  have hB : ∀ i j, (laminateModuli r t ls s).B i j = σ i * σ j * acc (factor .B) i j ls 0 (thickness ls / 2) :=
    fun i j => by rw [← abd_eq]; exact hT _ i j
  have hC : ∀ i j, (laminateModuli r t ls s).C i j = σ i * σ j * acc (factor .C) i j ls 0 (thickness ls / 2) :=
    fun i j => by rw [← abd_eq]; exact hT _ i j
  have hD : ∀ i j, (laminateModuli r t ls s).D i j = σ i * σ j * acc (factor .D) i j ls 0 (thickness ls / 2) :=
    fun i j => by rw [← abd_eq]; exact hT _ i j
  refine ⟨⟨fun i j => ?_, fun i j => ?_, fun i j => ?_⟩, fun e k hek => ?_⟩
  · rw [hA, hA, acc_symm _ i j ls hs]; ring
  · rw [hD, hD, acc_symm _ i j ls hs]; ring
  · rw [hC, hB, acc_symm _ i j ls hs]
    have : factor .C = factor .B := rfl
    rw [this]; ring
  · have := accForm_pos (fun a => σ a * e a) (fun a => σ a * k a) ls hls ht hG 0 (thickness ls / 2) (by
      rintro ⟨g1, g2⟩
      apply hek
      constructor
      · funext a
        exact (mul_eq_zero.1 (congrFun g1 a)).resolve_left (hσ a).ne'
      · funext a
        exact (mul_eq_zero.1 (congrFun g2 a)).resolve_left (hσ a).ne')
    refine this.trans_le (le_of_eq ?_)
    simp only [accForm, density, hA, hB, hC, hD]
    exact Finset.sum_congr rfl fun i _ => Finset.sum_congr rfl fun j _ => by ring

end Verif.System
