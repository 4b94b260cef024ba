import Verif.Lemmas.Rayleigh
import Verif.Props.Plate
import Mathlib.LinearAlgebra.FiniteDimensional.Basic

/-! # Property C136: frequencies and solutions of discretised plates -/

namespace Verif.Plate

open V3 Geometry Fields MeasureTheory Verif.Variation Verif.Balance Spec.Balloon Spec.Plate Verif.Balloon
open Verif.Integrate (Rule)

section
variable {a b E ν ρ t : ℝ}

/-! ## Energy -/

/-- **C136** The bending stiffness of a supported isotropic plate is the bending stiffness `E t³/(12(1-ν²))`
times the product of the Laplacians: Poisson's ratio has no other influence. -/
theorem C136_laplace (r : Rule) (hE : 0 < E) (h1 : -1 < ν) (h2 : ν < 1 / 2) (ha : 0 ≤ a) (hb : 0 ≤ b)
    {u v : ℝ × ℝ → V3} (hu : Supported a b u) (hv : Supported a b v) (hx : ∀ q, (u q).x = 0)
    (hy : ∀ q, (u q).y = 0) :
    stiffForm plate (System.linearModuli r t E ν) (rect a b) u v
      = flexural E ν t * ∫ q in rect a b, lap (fun q => (u q).z) q * lap (fun q => (v q).z) q := by
  obtain ⟨hB, -, -, hD⟩ := linear_flat (t := t) r hE h1 h2
  rw [form_left _ hB hx hy]
  have fu : ContDiff ℝ 2 fun q => (u q).z := contDiffOn_univ.1 hu.1.2.2
  have fv : ContDiff ℝ 2 fun q => (v q).z := contDiffOn_univ.1 hv.1.2.2
  have hu0 := hu.2
  have hv0 := hv.2
  generalize hU : (fun q => (u q).z) = U at *
  generalize hV : (fun q => (v q).z) = V at *
  have u0 : ∀ q, Edge a b q → U q = 0 := fun q hq => by rw [← hU]; exact hu0 q hq
  have v0 : ∀ q, Edge a b q → V q = 0 := fun q hq => by rw [← hV]; exact hv0 q hq
  have lp : ∀ {f : ℝ × ℝ → ℝ}, ContDiff ℝ 2 f → ∀ q, lap f q = pd 0 (pd 0 f) q + pd 1 (pd 1 f) q := by
    intro f hf q
    have d := hf.differentiable (by norm_num)
    have d0 := (pd_cont (n := 1) hf 0).differentiable (by norm_num)
    have d1 := (pd_cont (n := 1) hf 1).differentiable (by norm_num)
    have e0 : (deriv fun x => f (x, q.2)) = fun x => pd 0 f (x, q.2) := funext fun x => (line_x d x q.2).deriv
    have e1 : (deriv fun y => f (q.1, y)) = fun y => pd 1 f (q.1, y) := funext fun y => (line_y d q.1 y).deriv
    rw [lap, e0, e1, (line_x d0 q.1 q.2).deriv, (line_y d1 q.1 q.2).deriv]
  simp only [lp fu, lp fv]
  have U00 : Continuous (pd 0 (pd 0 U)) := (pd_cont (n := 0) (pd_cont (n := 1) fu 0) 0).continuous
  have U11 : Continuous (pd 1 (pd 1 U)) := (pd_cont (n := 0) (pd_cont (n := 1) fu 1) 1).continuous
  have U01 : Continuous (pd 1 (pd 0 U)) := (pd_cont (n := 0) (pd_cont (n := 1) fu 0) 1).continuous
  have V00 : Continuous (pd 0 (pd 0 V)) := (pd_cont (n := 0) (pd_cont (n := 1) fv 0) 0).continuous
  have V11 : Continuous (pd 1 (pd 1 V)) := (pd_cont (n := 0) (pd_cont (n := 1) fv 1) 1).continuous
  have V01 : Continuous (pd 1 (pd 0 V)) := (pd_cont (n := 0) (pd_cont (n := 1) fv 0) 1).continuous
  have n1 : 1 - ν ^ 2 ≠ 0 := by nlinarith
  set F := flexural E ν t with hF
  have e : ∀ q, bend (System.linearModuli r t E ν flatS).D U V q
      = F * ((pd 0 (pd 0 U) q + pd 1 (pd 1 U) q) * (pd 0 (pd 0 V) q + pd 1 (pd 1 V) q))
        + (2 * (F * (1 - ν)) * (pd 1 (pd 0 U) q * pd 1 (pd 0 V) q)
          - (F * (1 - ν) * (pd 0 (pd 0 U) q * pd 1 (pd 1 V) q)
            + F * (1 - ν) * (pd 0 (pd 0 V) q * pd 1 (pd 1 U) q))) := by
    intro q
    simp only [bend, dotV, rowMul, kap, Fin.sum_univ_three, vec3_zero, vec3_one, vec3_two, hD, iso, mk3_zero,
      mk3_one, mk3_two, hF, flexural]
    field_simp
    ring
  have i1 : IntegrableOn (fun q => F * ((pd 0 (pd 0 U) q + pd 1 (pd 1 U) q)
      * (pd 0 (pd 0 V) q + pd 1 (pd 1 V) q))) (rect a b) := rect_integrable (by fun_prop) a b
  have i2 : IntegrableOn (fun q => 2 * (F * (1 - ν)) * (pd 1 (pd 0 U) q * pd 1 (pd 0 V) q)) (rect a b) :=
    rect_integrable (by fun_prop) a b
  have i3 : IntegrableOn (fun q => F * (1 - ν) * (pd 0 (pd 0 U) q * pd 1 (pd 1 V) q)) (rect a b) :=
    rect_integrable (by fun_prop) a b
  have i4 : IntegrableOn (fun q => F * (1 - ν) * (pd 0 (pd 0 V) q * pd 1 (pd 1 U) q)) (rect a b) :=
    rect_integrable (by fun_prop) a b
  have i34 : IntegrableOn (fun q => F * (1 - ν) * (pd 0 (pd 0 U) q * pd 1 (pd 1 V) q)
      + F * (1 - ν) * (pd 0 (pd 0 V) q * pd 1 (pd 1 U) q)) (rect a b) := i3.add i4
  have i234 : IntegrableOn (fun q => 2 * (F * (1 - ν)) * (pd 1 (pd 0 U) q * pd 1 (pd 0 V) q)
      - (F * (1 - ν) * (pd 0 (pd 0 U) q * pd 1 (pd 1 V) q)
      + F * (1 - ν) * (pd 0 (pd 0 V) q * pd 1 (pd 1 U) q))) (rect a b) := i2.sub i34
  simp only [e]
  rw [integral_add i1 i234, integral_sub i2 i34, integral_add i3 i4, integral_const_mul, integral_const_mul,
    integral_const_mul, integral_const_mul, gauss ha hb fu fv u0 v0, gauss ha hb fv fu v0 u0]
  have s : ∫ q in rect a b, pd 1 (pd 0 V) q * pd 1 (pd 0 U) q
      = ∫ q in rect a b, pd 1 (pd 0 U) q * pd 1 (pd 0 V) q := by
    congr 1; funext q; ring
  rw [s]
  ring

/-- **C136** The energy of every deflection of a supported orthotropic plate is at least that of the first
Navier mode with the same mean square. -/
theorem C136_orthotropic {S : Surf → Section} (hB : (S flatS).B = fun _ _ => 0) (hD : Uncoupled (S flatS).D)
    (d0 : 0 ≤ (S flatS).D 0 0) (d1 : 0 ≤ (S flatS).D 1 1)
    (d2 : 0 ≤ (S flatS).D 0 1 + (S flatS).D 1 0 + 4 * (S flatS).D 2 2) (ha : 0 < a) (hb : 0 < b)
    {u : ℝ × ℝ → V3} (hu : Supported a b u) (hx : ∀ q, (u q).x = 0) (hy : ∀ q, (u q).y = 0) :
    navier (S flatS).D a b 1 1 * ∫ q in rect a b, (u q).z ^ 2 ≤ stiffForm plate S (rect a b) u u := by
  rw [form_left _ hB hx hy]
  exact bend_bound hD d0 d1 d2 ha hb (contDiffOn_univ.1 hu.1.2.2) hu.2

/-- **C136** The energy of every displacement of a pinned isotropic plate, in and out of plane. -/
theorem C136_coercive (r : Rule) (hE : 0 < E) (h1 : -1 < ν) (h2 : ν < 1 / 2) (ht : 0 < t) (ha : 0 < a)
    (hb : 0 < b) {u : ℝ × ℝ → V3} (hu : Pinned a b u) :
    t * shear E ν * wave2 a b * (∫ q in rect a b, ((u q).x ^ 2 + (u q).y ^ 2))
        + flexural E ν t * wave2 a b ^ 2 * ∫ q in rect a b, (u q).z ^ 2
      ≤ stiffForm plate (System.linearModuli r t E ν) (rect a b) u u :=
  coercive r hE h1 h2 ht ha hb hu

/-! ## Frequencies -/

/-- **C136** The low modes of a pinned plate are bending modes: below the in-plane bound the eigenvalues of
all displacements, in and out of plane, are exactly Navier's. -/
theorem C136_lowest (r : Rule) (hE : 0 < E) (h1 : -1 < ν) (h2 : ν < 1 / 2) (hρ : 0 < ρ) (ht : 0 < t)
    (ha : 0 < a) (hb : 0 < b) {lam : ℝ} (hl : lam < shear E ν / ρ * wave2 a b) :
    (∃ u, Pinned a b u ∧ Moves a b u ∧ ∀ v, Pinned a b v →
      stiffForm plate (System.linearModuli r t E ν) (rect a b) u v
        = lam * massForm plate (areaMass t ρ) (rect a b) u v) ↔
    ∃ m n : ℕ, 1 ≤ m ∧ 1 ≤ n ∧ lam = freq2 E ν ρ t a b m n := by
  obtain ⟨hB, hC, hA, hD⟩ := linear_flat (t := t) r hE h1 h2
  have hm : areaMass t ρ ≠ 0 := by unfold areaMass; positivity
  have nv : ∀ m n, navier (System.linearModuli r t E ν flatS).D a b m n / areaMass t ρ
      = freq2 E ν ρ t a b m n := by
    intro m n
    rw [navier_flex h1 (by linarith) hD, freq2, areaMass, mul_comm ρ t]
    ring
  have sp := C134_spectrum hB hC (iso_uncoupled hD) ha hb hm lam
  simp only [nv] at sp
  constructor
  · rintro ⟨u, hu, ⟨q, hq, hne⟩, h⟩
    refine sp.1 ⟨u, hu.supported, ⟨q, hq, fun hz => hne ?_⟩, h⟩
    set w : ℝ × ℝ → V3 := fun q => ⟨(u q).x, (u q).y, 0⟩ with hw
    have pw : Pinned a b w := by
      refine ⟨⟨hu.1.1, hu.1.2.1, contDiffOn_const⟩, fun q hq => ?_⟩
      have := hu.2 q hq
      simp only [hw, this]; rfl
    have k := h w pw
    have hx : Continuous fun q => (u q).x := (contDiffOn_univ.1 hu.1.1).continuous
    have hy : Continuous fun q => (u q).y := (contDiffOn_univ.1 hu.1.2.1).continuous
    have m1 : massForm plate (areaMass t ρ) (rect a b) u w
        = t * ρ * ∫ q in rect a b, ((u q).x ^ 2 + (u q).y ^ 2) := by
      rw [mass_eq, integral_const_mul]
      congr 2
      funext q
      simp only [hw, dot]; ring
    have k1 : stiffForm plate (System.linearModuli r t E ν) (rect a b) u w
        = ∫ q in rect a b, memb (System.linearModuli r t E ν flatS).A u u q := by
      rw [form_full _ hB hC]
      congr 1
      funext q
      have z : kap (fun q => (w q).z) q = fun _ => 0 := by
        have p0 : ∀ i, pd i (fun q => (w q).z) = fun _ => 0 := fun i => funext fun q => pd_const i 0 q
        funext k
        rcases fin3_cases k with rfl | rfl | rfl <;> simp [kap, p0, pd_const]
      have em : eps w q = eps u q := rfl
      simp [memb, bend, z, em, dotV]
    have mb := memb_bound hE h1 (by linarith) ht hA ha hb hu
    rw [← k1, k, m1] at mb
    have n1 : 0 ≤ ∫ q in rect a b, ((u q).x ^ 2 + (u q).y ^ 2) := integral_nonneg fun q => by positivity
    have l2 : lam * ρ < shear E ν * wave2 a b := by
      rw [div_mul_eq_mul_div, lt_div_iff₀ hρ] at hl
      linarith
    have z : ∫ q in rect a b, ((u q).x ^ 2 + (u q).y ^ 2) = 0 := by
      rcases n1.eq_or_lt with h0 | h0
      · exact h0.symm
      · exfalso
        have l3 : t * shear E ν * wave2 a b ≤ lam * (t * ρ) := by
          refine le_of_mul_le_mul_right ?_ h0
          linarith
        nlinarith
    have e1 := zero_of_integral ha hb (F := fun q => (u q).x ^ 2 + (u q).y ^ 2) (by fun_prop)
      (fun q => by positivity) z q hq
    ext
    · exact pow_eq_zero_iff (two_ne_zero) |>.1 (by nlinarith [sq_nonneg (u q).x, sq_nonneg (u q).y] : (u q).x ^ 2 = 0)
    · exact pow_eq_zero_iff (two_ne_zero) |>.1 (by nlinarith [sq_nonneg (u q).x, sq_nonneg (u q).y] : (u q).y ^ 2 = 0)
    · exact hz
  · rintro ⟨m, n, hm1, hn1, rfl⟩
    refine ⟨mode a b m n, mode_pinned ha hb m n, ?_, fun v hv => ?_⟩
    · obtain ⟨q, hq, hne⟩ := mode_nonzero ha hb hm1 hn1
      exact ⟨q, hq, fun e => hne (by rw [e]; rfl)⟩
    · rw [← nv]
      exact C134_modes hB (iso_uncoupled hD) ha hb hm m n hv.supported

/-- **C136** The frequencies of a discretised plate are never too low: whatever basis is used, every
eigenvalue of the matrices is at least the smaller one of Navier's first and the in-plane bound. -/
theorem C136_discrete (r : Rule) (hE : 0 < E) (h1 : -1 < ν) (h2 : ν < 1 / 2) (hρ : 0 < ρ) (ht : 0 < t)
    (ha : 0 < a) (hb : 0 < b) {N : ℕ} {φ : Fin N → ℝ × ℝ → V3} (hφ : ∀ i, Pinned a b (φ i)) {c : Fin N → ℝ}
    {lam : ℝ} (hm : Moves a b (comb φ c))
    (h : ∀ i, ∑ j, stiffForm plate (System.linearModuli r t E ν) (rect a b) (φ j) (φ i) * c j
      = lam * ∑ j, massForm plate (areaMass t ρ) (rect a b) (φ j) (φ i) * c j) :
    min (freq2 E ν ρ t a b 1 1) (shear E ν / ρ * wave2 a b) ≤ lam := by
  obtain ⟨hB, hC, hA, hD⟩ := linear_flat (t := t) r hE h1 h2
  have hu := comb_pinned hφ c
  have sm : ∀ {v : ℝ × ℝ → V3}, Pinned a b v → SmoothOn 0 v Set.univ := fun hv =>
    hv.1.mono (by norm_num) (Set.subset_univ _)
  obtain ⟨sA, sD⟩ := linear_symm (t := t) (E := E) (ν := ν) r
  have key : stiffForm plate (System.linearModuli r t E ν) (rect a b) (comb φ c) (comb φ c)
      = lam * massForm plate (areaMass t ρ) (rect a b) (comb φ c) (comb φ c) := by
    have ms : ∀ u v, massForm plate (areaMass t ρ) (rect a b) u v = massForm plate (areaMass t ρ) (rect a b) v u := by
      intro u v
      simp only [mass_eq, dot]
      congr 1; funext q; ring
    rw [form_comb hB hC (fun i => (hφ i).1) c hu.1, mass_comb (fun i => (hφ i).1) c (sm hu), Finset.mul_sum]
    refine Finset.sum_congr rfl fun i _ => ?_
    rw [form_symm _ hB hC sA sD, form_comb hB hC (fun i => (hφ i).1) c (hφ i).1, ms,
      mass_comb (fun i => (hφ i).1) c (sm (hφ i))]
    have := h i
    simp only [mul_comm _ (c _)] at this
    rw [this]
    ring
  have k := C136_coercive r hE h1 h2 ht ha hb hu
  rw [key] at k
  generalize comb φ c = u at *
  have hx : Continuous fun q => (u q).x := (contDiffOn_univ.1 hu.1.1).continuous
  have hy : Continuous fun q => (u q).y := (contDiffOn_univ.1 hu.1.2.1).continuous
  have hz : Continuous fun q => (u q).z := (contDiffOn_univ.1 hu.1.2.2).continuous
  have i1 : IntegrableOn (fun q => (u q).x ^ 2 + (u q).y ^ 2) (rect a b) := rect_integrable (by fun_prop) a b
  have i2 : IntegrableOn (fun q => (u q).z ^ 2) (rect a b) := rect_integrable (by fun_prop) a b
  have me : massForm plate (areaMass t ρ) (rect a b) u u = t * ρ * ((∫ q in rect a b, ((u q).x ^ 2 + (u q).y ^ 2))
      + ∫ q in rect a b, (u q).z ^ 2) := by
    rw [mass_eq, integral_const_mul, ← integral_add i1 i2]
    congr 2
    funext q
    simp only [dot]; ring
  rw [me] at k
  have n1 : 0 ≤ ∫ q in rect a b, ((u q).x ^ 2 + (u q).y ^ 2) := integral_nonneg fun q => by positivity
  have n2 : 0 ≤ ∫ q in rect a b, (u q).z ^ 2 := integral_nonneg fun q => by positivity
  have pos : 0 < (∫ q in rect a b, ((u q).x ^ 2 + (u q).y ^ 2)) + ∫ q in rect a b, (u q).z ^ 2 := by
    rcases (add_nonneg n1 n2).eq_or_lt with h0 | h0
    · exfalso
      obtain ⟨q, hq, hne⟩ := hm
      refine hne ?_
      have z1 : ∫ q in rect a b, ((u q).x ^ 2 + (u q).y ^ 2) = 0 := by linarith
      have z2 : ∫ q in rect a b, (u q).z ^ 2 = 0 := by linarith
      have e1 := zero_of_integral ha hb (F := fun q => (u q).x ^ 2 + (u q).y ^ 2) (by fun_prop)
        (fun q => by positivity) z1 q hq
      have e2 := zero_of_integral ha hb (F := fun q => (u q).z ^ 2) (by fun_prop) (fun q => by positivity) z2 q hq
      ext
      · exact pow_eq_zero_iff (two_ne_zero) |>.1 (by nlinarith [sq_nonneg (u q).x, sq_nonneg (u q).y] : (u q).x ^ 2 = 0)
      · exact pow_eq_zero_iff (two_ne_zero) |>.1 (by nlinarith [sq_nonneg (u q).x, sq_nonneg (u q).y] : (u q).y ^ 2 = 0)
      · exact pow_eq_zero_iff (two_ne_zero) |>.1 e2
    · exact h0
  set I := ∫ q in rect a b, ((u q).x ^ 2 + (u q).y ^ 2)
  set J := ∫ q in rect a b, (u q).z ^ 2
  set M := min (freq2 E ν ρ t a b 1 1) (shear E ν / ρ * wave2 a b)
  have l1 : M * (t * ρ) ≤ t * shear E ν * wave2 a b := by
    have : M ≤ shear E ν / ρ * wave2 a b := min_le_right _ _
    have := mul_le_mul_of_nonneg_right this (by positivity : 0 ≤ t * ρ)
    refine this.trans (le_of_eq ?_)
    field_simp
  have l2 : M * (t * ρ) ≤ flexural E ν t * wave2 a b ^ 2 := by
    have : M ≤ freq2 E ν ρ t a b 1 1 := min_le_left _ _
    have := mul_le_mul_of_nonneg_right this (by positivity : 0 ≤ t * ρ)
    refine this.trans (le_of_eq ?_)
    simp only [freq2, wave2, Nat.cast_one, one_mul]
    field_simp
  have l3 := mul_le_mul_of_nonneg_right l1 n1
  have l4 := mul_le_mul_of_nonneg_right l2 n2
  have tr : 0 < t * ρ := by positivity
  have : M * (t * ρ * (I + J)) ≤ lam * (t * ρ * (I + J)) := by nlinarith
  exact le_of_mul_le_mul_right this (by positivity)

/-! ## Static problems -/

/-- **C136** The linear system of a pinned plate has exactly one solution for every load, whatever
independent basis is used. -/
theorem C136_solvable (r : Rule) (hE : 0 < E) (h1 : -1 < ν) (h2 : ν < 1 / 2) (ht : 0 < t)
    (ha : 0 < a) (hb : 0 < b) {N : ℕ} {φ : Fin N → ℝ × ℝ → V3} (hφ : ∀ i, Pinned a b (φ i))
    (hi : Independent a b φ) (F : Fin N → ℝ) :
    ∃! c : Fin N → ℝ, ∀ i,
      ∑ j, stiffForm plate (System.linearModuli r t E ν) (rect a b) (φ j) (φ i) * c j = F i := by
  obtain ⟨hB, hC, hA, hD⟩ := linear_flat (t := t) r hE h1 h2
  obtain ⟨sA, sD⟩ := linear_symm (t := t) (E := E) (ν := ν) r
  set K := stiffForm plate (System.linearModuli r t E ν) (rect a b) with hK
  let L : (Fin N → ℝ) →ₗ[ℝ] (Fin N → ℝ) :=
    { toFun := fun c i => ∑ j, K (φ j) (φ i) * c j
      map_add' := fun c d => by
        funext i
        simp only [Pi.add_apply, mul_add, Finset.sum_add_distrib]
      map_smul' := fun s c => by
        funext i
        simp only [Pi.smul_apply, smul_eq_mul, RingHom.id_apply, Finset.mul_sum]
        exact Finset.sum_congr rfl fun j _ => by ring }
  have inj : Function.Injective L := by
    refine (injective_iff_map_eq_zero L).2 fun c hc => hi c ?_
    refine energy_zero r hE h1 h2 ht ha hb (comb_pinned hφ c) (le_of_eq ?_)
    rw [form_comb hB hC (fun i => (hφ i).1) c (comb_pinned hφ c).1]
    refine Finset.sum_eq_zero fun i _ => ?_
    have : ∑ j, K (φ j) (φ i) * c j = 0 := congrFun hc i
    rw [form_symm _ hB hC sA sD, form_comb hB hC (fun i => (hφ i).1) c (hφ i).1]
    have e : ∑ j, c j * K (φ j) (φ i) = 0 := by rw [← this]; exact Finset.sum_congr rfl fun j _ => mul_comm _ _
    rw [← hK, e, mul_zero]
  obtain ⟨c, hc⟩ := (LinearMap.injective_iff_surjective.1 inj) F
  exact ⟨c, fun i => congrFun hc i, fun d hd => inj (by rw [hc]; funext i; exact hd i)⟩

/-- **C136** Among all displacements of the basis the solution of the linear system has the smallest error in
energy, and its work under the load is never larger than that of the exact solution. -/
theorem C136_best (r : Rule) (hE : 0 < E) (h1 : -1 < ν) (h2 : ν < 1 / 2) (ht : 0 < t)
    (ha : 0 < a) (hb : 0 < b) {N : ℕ} {φ : Fin N → ℝ × ℝ → V3} (hφ : ∀ i, Pinned a b (φ i))
    {f : ℝ × ℝ → V3} (hf : SmoothOn 0 f Set.univ) {u : ℝ × ℝ → V3} (hu : Pinned a b u)
    (ex : ∀ v, Pinned a b v → stiffForm plate (System.linearModuli r t E ν) (rect a b) u v
      = loadForm plate f (rect a b) v) {c : Fin N → ℝ}
    (h : ∀ i, ∑ j, stiffForm plate (System.linearModuli r t E ν) (rect a b) (φ j) (φ i) * c j
      = loadForm plate f (rect a b) (φ i)) :
    (∀ d, stiffForm plate (System.linearModuli r t E ν) (rect a b) (fun q => u q - comb φ c q)
        (fun q => u q - comb φ c q)
      ≤ stiffForm plate (System.linearModuli r t E ν) (rect a b) (fun q => u q - comb φ d q)
        (fun q => u q - comb φ d q)) ∧
    loadForm plate f (rect a b) (comb φ c) ≤ loadForm plate f (rect a b) u := by
  obtain ⟨hB, hC, hA, hD⟩ := linear_flat (t := t) r hE h1 h2
  obtain ⟨sA, sD⟩ := linear_symm (t := t) (E := E) (ν := ν) r
  have sy := form_symm (S := System.linearModuli r t E ν) (rect a b) hB hC sA sD
  have pc := comb_pinned hφ c
  -- energies of differences
  have sub : ∀ {v w : ℝ × ℝ → V3}, Pinned a b v → Pinned a b w →
      Pinned a b (fun q => v q - w q) ∧ stiffForm plate (System.linearModuli r t E ν) (rect a b) (fun q => v q - w q)
        (fun q => v q - w q) = stiffForm plate (System.linearModuli r t E ν) (rect a b) v v
          - 2 * stiffForm plate (System.linearModuli r t E ν) (rect a b) v w
          + stiffForm plate (System.linearModuli r t E ν) (rect a b) w w := by
    intro v w hv hw
    have p : ∀ i : Fin 2, Pinned a b ((![v, w] : Fin 2 → ℝ × ℝ → V3) i) := by
      intro i; rcases fin2_cases i with rfl | rfl
      · exact hv
      · exact hw
    have pp := comb_pinned p ![1, -1]
    rw [sub_comb]
    refine ⟨pp, ?_⟩
    rw [form_comb hB hC (fun i => (p i).1) _ pp.1]
    simp only [Fin.sum_univ_two, sy _ (comb _ _)]
    rw [form_comb hB hC (fun i => (p i).1) _ (p 0).1, form_comb hB hC (fun i => (p i).1) _ (p 1).1]
    simp only [Fin.sum_univ_two, Matrix.cons_val_zero, Matrix.cons_val_one]
    rw [sy w v]
    ring
  have nn : ∀ {v : ℝ × ℝ → V3}, Pinned a b v →
      0 ≤ stiffForm plate (System.linearModuli r t E ν) (rect a b) v v := by
    intro v hv
    refine le_trans ?_ (C136_coercive r hE h1 h2 ht ha hb hv)
    have g : 0 < shear E ν := by unfold shear; exact div_pos hE (by linarith)
    have f : 0 < flexural E ν t := by unfold flexural; exact div_pos (by positivity) (by nlinarith)
    have w : 0 < wave2 a b := by have := Real.pi_pos; unfold wave2; positivity
    have n1 : 0 ≤ ∫ q in rect a b, ((v q).x ^ 2 + (v q).y ^ 2) := integral_nonneg fun q => by positivity
    have n2 : 0 ≤ ∫ q in rect a b, (v q).z ^ 2 := integral_nonneg fun q => by positivity
    positivity
  have orth : ∀ d, stiffForm plate (System.linearModuli r t E ν) (rect a b) (comb φ c) (comb φ d)
      = loadForm plate f (rect a b) (comb φ d) := by
    intro d
    rw [sy, form_comb hB hC (fun i => (hφ i).1) d pc.1, load_comb hf (fun i => (hφ i).1)]
    refine Finset.sum_congr rfl fun i _ => ?_
    rw [sy, form_comb hB hC (fun i => (hφ i).1) c (hφ i).1, ← h i]
    simp only [mul_comm (c _) (stiffForm _ _ _ _ _)]
  refine ⟨fun d => ?_, ?_⟩
  · have pd := comb_pinned hφ d
    rw [(sub hu pc).2, (sub hu pd).2, ex _ pc, ex _ pd, ← orth c, ← orth d]
    have := nn (sub pc pd).1
    rw [(sub pc pd).2] at this
    linarith
  · have := nn (sub hu pc).1
    rw [(sub hu pc).2, ex _ pc, ex _ hu, orth c] at this
    linarith

end

/-! ## The unit test and examples -/

/-- **C136** The unit test compares the ten lowest eigenvalues of all displacements with the ten lowest
values of Navier's formula, the largest of which has one and four half waves: up to there both are the same. -/
theorem C136_unitTest (r : Rule) {lam : ℝ} (hl : lam ≤ omega 100000 (3 / 10) 1 (1 / 100) 1 4 ^ 2) :
    (∃ u, Pinned 1 1 u ∧ Moves 1 1 u ∧ ∀ v, Pinned 1 1 v →
      stiffForm plate (System.linearModuli r (1 / 100) 100000 (3 / 10)) (rect 1 1) u v
        = lam * massForm plate (areaMass (1 / 100) 1) (rect 1 1) u v) ↔
    ∃ m n : ℕ, 1 ≤ m ∧ 1 ≤ n ∧ lam = omega 100000 (3 / 10) 1 (1 / 100) m n ^ 2 := by
  have f := freq2_omega (E := 100000) (ν := 3 / 10) (ρ := 1) (t := 1 / 100) (by norm_num) (by norm_num)
    (by norm_num) one_pos (by norm_num)
  simp only [← f] at hl ⊢
  refine C136_lowest r (by norm_num) (by norm_num) (by norm_num) one_pos (by norm_num) one_pos one_pos
    (hl.trans_lt ?_)
  have p0 := Real.pi_pos
  have p4 := Real.pi_le_four
  have s : Real.pi ^ 2 ≤ 16 := by nlinarith
  have s0 : 0 < Real.pi ^ 2 := by positivity
  simp only [freq2, shear, wave2, flexural, div_one]
  norm_num
  nlinarith

example (r : Rule) (F : Fin 2 → ℝ) : ∃! c : Fin 2 → ℝ, ∀ i,
    ∑ j, stiffForm plate (System.linearModuli r (1 / 100) 100000 (3 / 10)) (rect 1 1) (twoFields j) (twoFields i) * c j
      = F i :=
  C136_solvable r (by norm_num) (by norm_num) (by norm_num) (by norm_num) one_pos one_pos twoFields_pinned
    twoFields_independent F

/-- A displacement of the basis with an eigenvalue, as in `C136_discrete`. -/
example (r : Rule) : ∃ (c : Fin 1 → ℝ) (lam : ℝ), Moves 1 1 (comb (fun _ : Fin 1 => mode 1 1 1 1) c) ∧
    ∀ i, ∑ j, stiffForm plate (System.linearModuli r (1 / 100) 100000 (3 / 10)) (rect 1 1)
        ((fun _ : Fin 1 => mode 1 1 1 1) j) ((fun _ : Fin 1 => mode 1 1 1 1) i) * c j
      = lam * ∑ j, massForm plate (areaMass (1 / 100) 1) (rect 1 1)
        ((fun _ : Fin 1 => mode 1 1 1 1) j) ((fun _ : Fin 1 => mode 1 1 1 1) i) * c j := by
  have k := (C134_isotropic (E := 100000) (ν := 3 / 10) (ρ := 1) (t := 1 / 100) r (by norm_num) (by norm_num)
    (by norm_num) one_pos (by norm_num)).1 1 1 _ (mode_pinned one_pos one_pos 1 1).supported
  refine ⟨fun _ => 1, omega 100000 (3 / 10) 1 (1 / 100) 1 1 ^ 2, ?_, fun i => ?_⟩
  · obtain ⟨q, hq, hne⟩ := mode_nonzero (a := 1) (b := 1) one_pos one_pos (m := 1) (n := 1) le_rfl le_rfl
    refine ⟨q, hq, fun h => hne ?_⟩
    have := congrArg V3.z h
    simpa [comb] using this
  · simp only [Finset.univ_unique, Finset.sum_singleton, mul_one]
    exact k

/-- A load and its exact solution, as in `C136_best`. -/
example (r : Rule) : ∃ u f : ℝ × ℝ → V3, SmoothOn 0 f Set.univ ∧ Pinned 1 1 u ∧ ∀ v, Pinned 1 1 v →
    stiffForm plate (System.linearModuli r (1 / 100) 100000 (3 / 10)) (rect 1 1) u v
      = loadForm plate f (rect 1 1) v := by
  obtain ⟨hB, -, -, hD⟩ := linear_flat (E := 100000) (ν := 3 / 10) (t := 1 / 100) r (by norm_num) (by norm_num)
    (by norm_num)
  have k : ∀ v, Pinned 1 1 v → _ := fun v hv => C134_modes (mass := 1) hB (iso_uncoupled hD) one_pos one_pos one_ne_zero 1 1
    hv.supported
  set n := navier (System.linearModuli r (1 / 100) 100000 (3 / 10) flatS).D 1 1 1 1
  refine ⟨mode 1 1 1 1, fun q => n • mode 1 1 1 1 q, ?_, mode_pinned one_pos one_pos 1 1, fun v hv => ?_⟩
  · have h := (mode_pinned (a := 1) (b := 1) one_pos one_pos 1 1).1.mono (m := 0) (V := Set.univ) (by norm_num) (Set.subset_univ _)
    exact ⟨contDiffOn_const.mul h.1, contDiffOn_const.mul h.2.1, contDiffOn_const.mul h.2.2⟩
  · rw [k v hv, div_one, mass_eq, load_eq, ← integral_const_mul]
    congr 1
    funext q
    simp only [dot, smul_x, smul_y, smul_z]
    ring

/-! ## Layers at an angle -/

/-- **C136** With layers at an angle the frequencies lie below Navier's: some deflection has less energy
than the formula gives for the first mode. -/
theorem C136_angle (r : Rule) (t : ℝ) : ∃ v, Pinned 1 1 v ∧
    stiffForm plate (System.laminateModuli r t [diagonal]) (rect 1 1) v v
      < navier (System.laminateModuli r t [diagonal] flatS).D 1 1 1 1 / Composite.mass [diagonal]
        * massForm plate (Composite.mass [diagonal]) (rect 1 1) v v := by
  obtain ⟨eB, eC, eD⟩ := flat_laminate r t [diagonal]
  have hB : (System.laminateModuli r t [diagonal] flatS).B = fun _ _ => 0 := by
    rw [eB]; funext i j; exact abd_B (G := Composite.plyD diagonal) (by simp) i j
  have hC : (System.laminateModuli r t [diagonal] flatS).C = fun _ _ => 0 := by
    rw [eC]; funext i j; exact abd_C (G := Composite.plyD diagonal) (by simp) i j
  have hm : Composite.mass [diagonal] ≠ 0 := by rw [Composite.mass_eq]; simp [diagonal]
  rw [diagonal_D] at eD
  have m1 := mode_pinned (a := 1) (b := 1) one_pos one_pos 1 1
  have m2 := mode_pinned (a := 1) (b := 1) one_pos one_pos 2 2
  have z1 : (fun q => (mode 1 1 1 1 q).z) = ss Real.pi Real.pi := by funext q; simp [mode, ss]
  have z2 : (fun q => (mode 1 1 2 2 q).z) = ss (2 * Real.pi) (2 * Real.pi) := by funext q; simp [mode, ss]
  set K := stiffForm plate (System.laminateModuli r t [diagonal]) (rect 1 1) with hK
  set n := navier (System.laminateModuli r t [diagonal] flatS).D 1 1 1 1 with hn
  by_contra hcon
  push Not at hcon
  have p : ∀ i : Fin 2, Pinned 1 1 ((![mode 1 1 1 1, mode 1 1 2 2] : Fin 2 → ℝ × ℝ → V3) i) := by
    intro i; rcases fin2_cases i with rfl | rfl
    · exact m1
    · exact m2
  have me : ∀ v, n / Composite.mass [diagonal] * massForm plate (Composite.mass [diagonal]) (rect 1 1) v v
      = n * massForm plate 1 (rect 1 1) v v := by
    intro v
    rw [mass_eq, mass_eq, integral_const_mul, integral_const_mul, ← mul_assoc, div_mul_cancel₀ _ hm, one_mul]
  simp only [me] at hcon
  have k12 : K (mode 1 1 1 1) (mode 1 1 2 2) = -(160 / 27) * Real.pi ^ 2 := by
    rw [hK, form_left _ hB (fun _ => rfl) (fun _ => rfl), z1, z2, eD, diagonal_mixed]
  have k21 : K (mode 1 1 2 2) (mode 1 1 1 1) = -(160 / 27) * Real.pi ^ 2 := by
    rw [hK, form_left _ hB (fun _ => rfl) (fun _ => rfl), z1, z2, eD, ← diagonal_mixed]
    congr 1
    funext q
    simp only [bend, dotV, rowMul, Fin.sum_univ_three, mk3_zero, mk3_one, mk3_two, vec3_zero, vec3_one, vec3_two]
    ring
  have m12 : massForm plate 1 (rect 1 1) (mode 1 1 1 1) (mode 1 1 2 2) = 0 := by
    have p1 := rect_prod (g := fun x => Real.sin (Real.pi * x) * Real.sin (2 * Real.pi * x))
      (h := fun x => Real.sin (Real.pi * x) * Real.sin (2 * Real.pi * x)) (by fun_prop) (by fun_prop)
    rw [int_ss, mul_zero] at p1
    rw [mass_eq, ← p1]
    congr 1
    funext q
    simp [mode, dot]
    ring
  have m21 : massForm plate 1 (rect 1 1) (mode 1 1 2 2) (mode 1 1 1 1) = 0 := by
    rw [← m12, mass_eq, mass_eq]
    congr 1
    funext q
    simp only [dot]
    ring
  have k11 : K (mode 1 1 1 1) (mode 1 1 1 1) = n * massForm plate 1 (rect 1 1) (mode 1 1 1 1) (mode 1 1 1 1) := by
    rw [hK, form_left _ hB (fun _ => rfl) (fun _ => rfl), z1, eD]
    have cs : Continuous (ss Real.pi Real.pi) := (ss_smooth _ _).continuous
    have nl := navier_left (D := fun i j => 1 / 12 * mk3 5 3 0 3 5 0 0 0 4 i j) (a := 1) (b := 1) (α := Real.pi)
      (β := Real.pi) (f := ss Real.pi Real.pi) (by simp [Uncoupled]) zero_le_one zero_le_one (by simp) (by simp)
      (ss_smooth _ _) (fun q hq => by
        have := ss_edge (a := 1) (b := 1) one_pos one_pos 1 1 q hq
        simpa using this)
    have p1 := rect_prod (g := fun x => Real.sin (Real.pi * x) * Real.cos (Real.pi * x))
      (h := fun x => Real.sin (Real.pi * x) * Real.cos (Real.pi * x)) (by fun_prop) (by fun_prop)
    rw [int_sincos, mul_zero] at p1
    have i1 : IntegrableOn (fun q => bend (fun i j => 1 / 12 * mk3 5 3 0 3 5 0 0 0 4 i j) (ss Real.pi Real.pi)
      (ss Real.pi Real.pi) q) (rect 1 1) := rect_integrable (bend_cont _ (ss_smooth _ _) (ss_smooth _ _)) 1 1
    have i2 : IntegrableOn (fun q : ℝ × ℝ => -(4 / 3) * Real.pi ^ 4 * ((Real.sin (Real.pi * q.1) * Real.cos (Real.pi * q.1))
      * (Real.sin (Real.pi * q.2) * Real.cos (Real.pi * q.2)))) (rect 1 1) := rect_integrable (by fun_prop) 1 1
    have e : ∀ q, bend (fun i j => 1 / 12 * mk3 5 3 2 3 5 2 2 2 4 i j) (ss Real.pi Real.pi) (ss Real.pi Real.pi) q
        = bend (fun i j => 1 / 12 * mk3 5 3 0 3 5 0 0 0 4 i j) (ss Real.pi Real.pi) (ss Real.pi Real.pi) q
          + -(4 / 3) * Real.pi ^ 4 * ((Real.sin (Real.pi * q.1) * Real.cos (Real.pi * q.1))
      * (Real.sin (Real.pi * q.2) * Real.cos (Real.pi * q.2))) := by
      intro q
      simp only [bend, dotV, rowMul, kap, Fin.sum_univ_three, mk3_zero, mk3_one, mk3_two, vec3_zero, vec3_one,
        vec3_two, ss_00, ss_11, ss_01]
      simp only [ss]
      ring
    simp only [e]
    rw [integral_add i1 i2, integral_const_mul, p1, mul_zero, add_zero, nl, mode_mass, one_mul]
    have e1 : ∀ q, ss ((1 : ℕ) * Real.pi / 1) ((1 : ℕ) * Real.pi / 1) q * (mode 1 1 1 1 q).z
        = ss Real.pi Real.pi q * ss Real.pi Real.pi q := by
      intro q; simp [ss, mode]
    simp only [e1]
    congr 1
    rw [hn, eD]
    simp only [navier, mk3_zero, mk3_one, mk3_two, vec3_zero, vec3_one, vec3_two, Nat.cast_one, one_mul, div_one]
  have sm : ∀ {v : ℝ × ℝ → V3}, Pinned 1 1 v → SmoothOn 0 v Set.univ := fun hv =>
    hv.1.mono (by norm_num) (Set.subset_univ _)
  have key : ∀ ε : ℝ, 0 ≤ 2 * ε * (-(160 / 27) * Real.pi ^ 2) + ε ^ 2 * (K (mode 1 1 2 2) (mode 1 1 2 2)
      - n * massForm plate 1 (rect 1 1) (mode 1 1 2 2) (mode 1 1 2 2)) := by
    intro ε
    have pp := comb_pinned p ![1, ε]
    have h := hcon _ pp
    have s1 := fun v (hv : Pinned 1 1 v) => form_comb (a := 1) (b := 1) hB hC (fun i => (p i).1) ![1, ε] hv.1
    have s2 := fun v (hv : Pinned 1 1 v) => mass_comb (a := 1) (b := 1) (m := 1) (fun i => (p i).1) ![1, ε] (sm hv)
    have sD : ∀ i j, (System.laminateModuli r t [diagonal] flatS).D i j
        = (System.laminateModuli r t [diagonal] flatS).D j i := by
      intro i j
      rw [eD]
      rcases fin3_cases i with rfl | rfl | rfl <;> rcases fin3_cases j with rfl | rfl | rfl <;> simp
    have ky : ∀ i : Fin 2, K ((![mode 1 1 1 1, mode 1 1 2 2] : Fin 2 → ℝ × ℝ → V3) i)
        (comb ![mode 1 1 1 1, mode 1 1 2 2] ![1, ε])
        = K (comb ![mode 1 1 1 1, mode 1 1 2 2] ![1, ε]) ((![mode 1 1 1 1, mode 1 1 2 2] : Fin 2 → ℝ × ℝ → V3) i) := by
      intro i
      have hx : ∀ q, (((![mode 1 1 1 1, mode 1 1 2 2] : Fin 2 → ℝ × ℝ → V3) i) q).x = 0 := by
        intro q; rcases fin2_cases i with rfl | rfl <;> rfl
      have hy : ∀ q, (((![mode 1 1 1 1, mode 1 1 2 2] : Fin 2 → ℝ × ℝ → V3) i) q).y = 0 := by
        intro q; rcases fin2_cases i with rfl | rfl <;> rfl
      rw [hK, form_left _ hB hx hy, form_right _ hC hx hy]
      congr 1
      funext q
      simp only [bend, dotV, rowMul, Fin.sum_univ_three, sD 1 0, sD 2 0, sD 2 1]
      ring
    have my : ∀ u v, massForm plate 1 (rect 1 1) u v = massForm plate 1 (rect 1 1) v u := by
      intro u v
      simp only [mass_eq, dot]
      congr 1; funext q; ring
    rw [s2 _ pp, hK, s1 _ pp, ← hK] at h
    simp only [Fin.sum_univ_two, ky, my _ (comb _ _)] at h
    rw [s2 _ (p 0), s2 _ (p 1), hK, s1 _ (p 0), s1 _ (p 1), ← hK] at h
    simp only [Fin.sum_univ_two, Matrix.cons_val_zero, Matrix.cons_val_one] at h
    rw [k11, k12, k21, m12, m21] at h
    nlinarith
  set R := K (mode 1 1 2 2) (mode 1 1 2 2) - n * massForm plate 1 (rect 1 1) (mode 1 1 2 2) (mode 1 1 2 2)
  have q := key (1 / (1 + |R|))
  have pos : 0 < 1 + |R| := by positivity
  have p4 : 4 ≤ Real.pi ^ 2 := by nlinarith [Real.two_le_pi]
  have : 2 * (1 / (1 + |R|)) * (-(160 / 27) * Real.pi ^ 2) + (1 / (1 + |R|)) ^ 2 * R
      = (2 * (-(160 / 27) * Real.pi ^ 2) * (1 + |R|) + R) / (1 + |R|) ^ 2 := by field_simp
  rw [this, le_div_iff₀ (by positivity), zero_mul] at q
  have ab := le_abs_self R
  have an := abs_nonneg R
  nlinarith

end Verif.Plate
