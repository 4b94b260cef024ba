import Verif.Model.OgdenReference
import Verif.Spec.OgdenReference
import Verif.Model.Linear
import Verif.Props.SpectralAgree
import Mathlib.LinearAlgebra.Matrix.NonsingularInverse

/-! # Helper lemmas for C172 -/

namespace Verif.OgdenReference

open Verif.Hyper Verif.Spectral Spec.OgdenReference

/-- The undeformed state. -/
abbrev one3 : Stretch := vec3 1 1 1

theorem Jsq_one : Jsq one3 = 1 := by simp [Jsq]
theorem one3_apply (a : Fin 3) : one3 a = 1 := by rcases fin3_cases a with rfl | rfl | rfl <;> rfl

/-- Incompressible: from the derivatives of the energy. -/
theorem cabI {w : Pot} {p q s : ℝ} (h1 : ∀ a, w.d1 one3 a = p) (h2 : ∀ a b, w.d2 one3 a b = q * delta a b + s)
    (P : T2) (i j k l : Fin 2) :
    cProj (CabI w one3) P i j k l = planeIncompressible ((p + q) / 2) (metric P) i j k l := by
  have e0 : CabI w one3 0 0 0 0 = 2 * (p + q) := by
    simp [CabI, dSaI, dpr, dJ, d2J, pr, h1, h2, delta]; ring
  have e1 : CabI w one3 1 1 1 1 = 2 * (p + q) := by
    simp [CabI, dSaI, dpr, dJ, d2J, pr, h1, h2, delta]; ring
  have e2 : CabI w one3 0 0 1 1 = p + q := by
    simp [CabI, dSaI, dpr, dJ, d2J, pr, h1, h2, delta]; ring
  have e3 : CabI w one3 0 1 0 1 = (p + q) / 2 := by
    simp [CabI, frac, dSaI, dpr, dJ, d2J, pr, h1, h2, delta]; ring
  simp only [cProj, e0, e1, e2, e3, planeIncompressible, metric, Fin.sum_univ_two]
  ring

/-- Compressible: the same. -/
theorem cabC {w : Pot} {l m : ℝ} (h1 : ∀ a, w.d1 one3 a = 0)
    (h2 : ∀ a b, w.d2 one3 a b = l + 2 * m * delta a b) (h0 : l + 2 * m ≠ 0) (P : T2) (i j k n : Fin 2) :
    cProj (CabCond w one3) P i j k n = planeStress l m (metric P) i j k n := by
  have c0 : ∀ a, CabC w one3 a a a a = l + 2 * m := by
    intro a; simp [CabC, dSaC, h1, h2, delta, one3_apply]
  have c1 : ∀ a b, a ≠ b → CabC w one3 a a b b = l := by
    intro a b h; simp [CabC, dSaC, h2, delta, one3_apply, h]
  have c2 : CabC w one3 0 1 0 1 = m := by
    simp [CabC, frac, dSaC, h1, h2, delta]
  have c3 : CabC w one3 2 2 0 1 = 0 := by simp [CabC]
  have e0 : CabCond w one3 0 0 0 0 = l + 2 * m - l ^ 2 / (l + 2 * m) := by
    simp only [CabCond, c0, c1 2 0 (by decide)]; simp
  have e1 : CabCond w one3 1 1 1 1 = l + 2 * m - l ^ 2 / (l + 2 * m) := by
    simp only [CabCond, c0, c1 2 1 (by decide)]; simp
  have e2 : CabCond w one3 0 0 1 1 = l - l * l / (l + 2 * m) := by
    simp only [CabCond, c0, c1 0 1 (by decide), c1 0 2 (by decide), c1 2 1 (by decide)]; simp
  have e3 : CabCond w one3 0 1 0 1 = m := by
    simp only [CabCond, c2, c3]; simp
  simp only [cProj, e0, e1, e2, e3, planeStress, metric, Fin.sum_univ_two]
  field_simp
  ring

theorem ogden_d (terms : List (ℝ × ℝ)) (a b : Fin 3) :
    (potOG terms).d1 one3 a = (terms.map Prod.fst).sum ∧
    (potOG terms).d2 one3 a b = (2 * ogdenShear terms - (terms.map Prod.fst).sum) * delta a b + 0 := by
  refine ⟨by simp only [potOG, one3_apply, Real.one_rpow, mul_one], ?_⟩
  simp only [potOG, one3_apply, Real.one_rpow, mul_one, ogdenShear]
  induction terms with
  | nil => simp
  | cons t ts ih => simp only [List.map_cons, List.sum_cons, ih]; ring

theorem ogdenC_d (p : Par) (terms : List (ℝ × ℝ)) (a b : Fin 3) :
    (potOGc p terms).d1 one3 a = 0 ∧
    (potOGc p terms).d2 one3 a b = p.K - 2 / 3 * ogdenShear terms + 2 * ogdenShear terms * delta a b := by
  have hL : ∀ x, Lam one3 x = 3 := by intro x; simp [Lam]; norm_num
  simp only [potOGc, one3_apply, Jsq_one, Real.one_rpow, hL, ogdenShear, vol1, vol2]
  constructor
  · induction terms with
    | nil => simp
    | cons t ts ih => simp only [List.map_cons, List.sum_cons]; linarith
  · induction terms with
    | nil => simp; ring
    | cons t ts ih => simp only [List.map_cons, List.sum_cons]; linarith

theorem nh_d (p : Par) (a b : Fin 3) :
    (potNH p).d1 one3 a = p.mu ∧ (potNH p).d2 one3 a b = p.mu * delta a b + 0 := by
  simp only [potNH, Spectral.dI1, Spectral.d2I1, one3_apply]
  constructor <;> ring

theorem mr_d (p : Par) (a b : Fin 3) :
    (potMR p).d1 one3 a = p.c1 + 2 * p.c2 ∧ (potMR p).d2 one3 a b = p.c1 * delta a b + 2 * p.c2 := by
  simp only [potMR, Spectral.dI1, Spectral.dI2, Spectral.d2I1, Spectral.d2I2, Spectral.I1, one3_apply]
  have : idelta a b = 1 - delta a b := by unfold idelta delta; split <;> norm_num
  rw [this]
  constructor <;> ring

theorem nhc_d (p : Par) (a b : Fin 3) :
    (potNHc p).d1 one3 a = 0 ∧ (potNHc p).d2 one3 a b = p.K - 2 / 3 * p.mu + 2 * p.mu * delta a b := by
  simp only [potNHc, Spectral.dI1, Spectral.d2I1, Spectral.I1, one3_apply, Jsq_one, Real.one_rpow, vol1, vol2]
  constructor <;> ring

theorem mrc_d (p : Par) (a b : Fin 3) :
    (potMRc p).d1 one3 a = 0 ∧
    (potMRc p).d2 one3 a b = p.K - 2 / 3 * (p.c1 + p.c2) + 2 * (p.c1 + p.c2) * delta a b := by
  simp only [potMRc, Spectral.dI1, Spectral.dI2, Spectral.d2I1, Spectral.d2I2, Spectral.I1, Spectral.I2, one3_apply, Jsq_one, Real.one_rpow, vol1, vol2]
  have : idelta a b = 1 - delta a b := by unfold idelta delta; split <;> norm_num
  rw [this]
  constructor <;> ring

theorem nhe_d (p : Par) (a b : Fin 3) :
    (potNHe p).d1 one3 a = 0 ∧ (potNHe p).d2 one3 a b = p.lam + 2 * p.mu * delta a b := by
  simp only [potNHe, Spectral.dI1, Spectral.d2I1, one3_apply, Jsq_one]
  constructor <;> ring

/-- In the undeformed state all principal stretches in the surface are 1. -/
theorem frame_one {A P : T2} {e : Fin 2 → ℝ} (hA : det2 A ≠ 0) (f : Frame A A P e) : e 0 = 1 ∧ e 1 = 1 := by
  have G := f.G
  have g : ∀ i j, (∑ k, A i k * inv2 A k j) = if i = j then 1 else 0 := by
    intro i j
    rcases fin2_cases i with rfl | rfl <;> rcases fin2_cases j with rfl | rfl <;>
      simp [Fin.sum_univ_two, inv2] <;> field_simp <;> simp only [det2] <;> ring
  set M : Matrix (Fin 2) (Fin 2) ℝ := Matrix.of A with hM
  set Q : Matrix (Fin 2) (Fin 2) ℝ := Matrix.of P with hQ
  have m : (M * Q) * Q.transpose = 1 := by
    rw [Matrix.mul_assoc]
    ext i j
    rw [Matrix.mul_apply, Matrix.one_apply, ← g i j]
    refine Finset.sum_congr rfl fun k _ => ?_
    rw [Matrix.mul_apply, Fin.sum_univ_two, G]
    rfl
  have m' := mul_eq_one_comm.1 m
  have e0 := congrFun (congrFun m' 0) 0
  have e1 := congrFun (congrFun m' 1) 1
  simp only [Matrix.mul_apply, Fin.sum_univ_two, Matrix.one_apply_eq, Matrix.transpose_apply, hM, hQ, Matrix.of_apply]
    at e0 e1
  exact ⟨f.d00.symm.trans (by linarith), f.d11.symm.trans (by linarith)⟩

section
variable {A : T2} {g : Cols} {solver : T3 → Eig}

theorem undeformed (r : Regular A A g (eigOf solver (Bmat A g))) :
    stretches solver A 1 g = vec3 1 1 1 ∧ (data A A).J0 = 1 ∧ ∀ i j, metric (projection solver A g) i j = inv2 A i j := by
  obtain ⟨f, hp, h2⟩ := regular_frame r one_pos
  obtain ⟨e0, e1⟩ := frame_one r.det.ne' f
  have s : ∀ x : ℝ, 0 < x → x ^ 2 = 1 → x = 1 := fun x h0 h => by nlinarith
  refine ⟨?_, ?_, fun i j => ?_⟩
  · funext a
    rcases fin3_cases a with rfl | rfl | rfl
    · exact s _ (hp 0) (by simpa [sqs] using e0)
    · exact s _ (hp 1) (by simpa [sqs] using e1)
    · exact s _ (hp 2) h2
  · simp [data, r.det.ne']
  · rw [f.G, metric, Fin.sum_univ_two]

end

theorem young_inc {m : ℝ} {P : T2} (hP : ∀ i j, metric P i j = if i = j then 1 else 0) (Y : ℝ) :
    Young (planeIncompressible m (metric P)) Y ↔ Y = 3 * m := by
  have hs : ∀ e : T2, stress (planeIncompressible m (metric P)) e 0 0 = 4 * m * e 0 0 + 2 * m * e 1 1
      ∧ stress (planeIncompressible m (metric P)) e 1 1 = 2 * m * e 0 0 + 4 * m * e 1 1 := by
    intro e
    have h00 : metric P 0 0 = 1 := hP 0 0
    have h01 : metric P 0 1 = 0 := hP 0 1
    have h10 : metric P 1 0 = 0 := hP 1 0
    have h11 : metric P 1 1 = 1 := hP 1 1
    simp only [stress, planeIncompressible, Fin.sum_univ_two, h00, h01, h10, h11]
    constructor <;> ring
  constructor
  · intro h
    have := h ![![2, 0], ![0, -1]] (by rw [(hs _).2]; simp; ring)
    rw [(hs _).1] at this
    simp at this
    linarith
  · rintro rfl e h
    rw [(hs e).2] at h
    rw [(hs e).1]
    linarith

/-- Strain in the principal basis. -/
def turned (P e : T2) (a b : Fin 2) : ℝ := ∑ i, ∑ j, P i a * e i j * P j b

theorem turned_zero {P e : T2} (hP : det2 P ≠ 0) (hs : e 0 1 = e 1 0) (h0 : turned P e 0 0 = 0) (h1 : turned P e 0 1 = 0)
    (h2 : turned P e 1 1 = 0) : e = 0 := by
  simp only [turned, Fin.sum_univ_two, hs] at h0 h1 h2
  have d : det2 P = P 0 0 * P 1 1 - P 0 1 * P 1 0 := rfl
  have z : ∀ x : ℝ, det2 P ^ 2 * x = 0 → x = 0 := fun x h => (mul_eq_zero.1 h).resolve_left (by positivity)
  have e00 : e 0 0 = 0 := z _ (by
    rw [d]; linear_combination P 1 1 ^ 2 * h0 - 2 * P 1 1 * P 1 0 * h1 + P 1 0 ^ 2 * h2)
  have e11 : e 1 1 = 0 := z _ (by
    rw [d]; linear_combination P 0 1 ^ 2 * h0 - 2 * P 0 0 * P 0 1 * h1 + P 0 0 ^ 2 * h2)
  have e10 : e 1 0 = 0 := z _ (by
    rw [d]; linear_combination -P 1 1 * P 0 1 * h0 + (P 1 1 * P 0 0 + P 1 0 * P 0 1) * h1 - P 1 0 * P 0 0 * h2)
  funext i j
  rcases fin2_cases i with rfl | rfl <;> rcases fin2_cases j with rfl | rfl <;> simp [e00, e11, e10, hs]

/-- Energy of a strain, from its components in the principal basis. -/
theorem energy_turned (x m : ℝ) (P e : T2) (hs : e 0 1 = e 1 0) :
    ∑ i, ∑ j, stress (fun i j k n => x * (metric P i j * metric P k n)
      + m * (metric P i k * metric P j n + metric P i n * metric P j k)) e i j * e i j
      = x * (turned P e 0 0 + turned P e 1 1) ^ 2
        + 2 * m * (turned P e 0 0 ^ 2 + 2 * turned P e 0 1 ^ 2 + turned P e 1 1 ^ 2) := by
  simp only [stress, turned, metric, Fin.sum_univ_two, hs]
  ring

/-- A strain with the principal components `p` and `q`, up to the factor `det2 P ^ 2`. -/
def diagonal (P : T2) (p q : ℝ) : T2 := fun i j =>
  p * (![P 1 1, -P 0 1] i * ![P 1 1, -P 0 1] j) + q * (![-P 1 0, P 0 0] i * ![-P 1 0, P 0 0] j)

theorem turned_diagonal (P : T2) (p q : ℝ) :
    turned P (diagonal P p q) 0 0 = det2 P ^ 2 * p ∧ turned P (diagonal P p q) 0 1 = 0
      ∧ turned P (diagonal P p q) 1 1 = det2 P ^ 2 * q := by
  have d : det2 P = P 0 0 * P 1 1 - P 0 1 * P 1 0 := rfl
  refine ⟨?_, ?_, ?_⟩ <;> simp [turned, diagonal, Fin.sum_univ_two, d] <;> ring

theorem stable_iff {x m : ℝ} {P : T2} (hP : det2 P ≠ 0) :
    Stable (fun i j k n => x * (metric P i j * metric P k n)
      + m * (metric P i k * metric P j n + metric P i n * metric P j k)) ↔ 0 < m ∧ 0 < x + m := by
  have hD : 0 < det2 P ^ 2 := by positivity
  constructor
  · intro h
    have key : ∀ q : ℝ, 0 < x * (det2 P ^ 2 * 1 + det2 P ^ 2 * q) ^ 2
        + 2 * m * ((det2 P ^ 2 * 1) ^ 2 + 2 * 0 ^ 2 + (det2 P ^ 2 * q) ^ 2) := by
      intro q
      obtain ⟨h0, h1, h2⟩ := turned_diagonal P 1 q
      have hs : diagonal P 1 q 0 1 = diagonal P 1 q 1 0 := by simp [diagonal]; ring
      have hne : diagonal P 1 q ≠ 0 := by
        intro hz
        rw [hz] at h0
        simp [turned] at h0
        exact hD.ne h0
      have := h _ hs hne
      rw [energy_turned x m P _ hs, h0, h1, h2] at this
      exact this
    have hD4 : 0 < (det2 P ^ 2) ^ 2 := by positivity
    have k1 := key (-1)
    have k2 := key 1
    constructor
    · refine pos_of_mul_pos_right (a := 4 * (det2 P ^ 2) ^ 2) ?_ (by positivity)
      linarith only [k1]
    · refine pos_of_mul_pos_right (a := 4 * (det2 P ^ 2) ^ 2) ?_ (by positivity)
      linarith only [k2]
  · rintro ⟨hm, hx⟩ e hs hne
    rw [energy_turned x m P e hs]
    by_contra hle
    have a0 : 0 ≤ (x + m) * (turned P e 0 0 + turned P e 1 1) ^ 2 := by positivity
    have a1 : 0 ≤ m * (turned P e 0 0 - turned P e 1 1) ^ 2 := by positivity
    have a2 : 0 ≤ m * turned P e 0 1 ^ 2 := by positivity
    have z0 : (x + m) * (turned P e 0 0 + turned P e 1 1) ^ 2 = 0 := by linarith only [a0, a1, a2, hle]
    have z1 : m * (turned P e 0 0 - turned P e 1 1) ^ 2 = 0 := by linarith only [a0, a1, a2, hle]
    have z2 : m * turned P e 0 1 ^ 2 = 0 := by linarith only [a0, a1, a2, hle]
    have s0 := pow_eq_zero_iff (two_ne_zero) |>.1 ((mul_eq_zero.1 z0).resolve_left hx.ne')
    have s1 := pow_eq_zero_iff (two_ne_zero) |>.1 ((mul_eq_zero.1 z1).resolve_left hm.ne')
    have s2 := pow_eq_zero_iff (two_ne_zero) |>.1 ((mul_eq_zero.1 z2).resolve_left hm.ne')
    exact hne (turned_zero hP hs (by linarith) s2 (by linarith))

theorem stable_incompressible {m : ℝ} {P : T2} (hP : det2 P ≠ 0) {C : Fin 2 → Fin 2 → Fin 2 → Fin 2 → ℝ}
    (h : ∀ i j k l, C i j k l = planeIncompressible m (metric P) i j k l) : Stable C ↔ 0 < m := by
  have : C = planeIncompressible m (metric P) := funext fun i => funext fun j => funext fun k => funext fun l => h i j k l
  rw [this]
  exact (stable_iff hP).trans ⟨fun h => h.1, fun h => ⟨h, by linarith⟩⟩

theorem stable_planeStress {K m : ℝ} (hK : 0 < K) {P : T2} (hP : det2 P ≠ 0) {C : Fin 2 → Fin 2 → Fin 2 → Fin 2 → ℝ}
    (h : ∀ i j k l, C i j k l = planeStress (K - 2 / 3 * m) m (metric P) i j k l) : Stable C ↔ 0 < m := by
  have : C = planeStress (K - 2 / 3 * m) m (metric P) :=
    funext fun i => funext fun j => funext fun k => funext fun l => h i j k l
  rw [this]
  refine (stable_iff hP).trans ⟨fun h => h.1, fun h => ⟨h, ?_⟩⟩
  have hd : 0 < K - 2 / 3 * m + 2 * m := by linarith
  have e : 2 * (K - 2 / 3 * m) * m / (K - 2 / 3 * m + 2 * m) + m = 3 * K * m / (K - 2 / 3 * m + 2 * m) := by
    rw [div_add' _ _ _ hd.ne']
    congr 1
    ring
  rw [e]
  positivity

end Verif.OgdenReference
