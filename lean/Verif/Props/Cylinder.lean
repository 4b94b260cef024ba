import Verif.Lemmas.CylinderRing
import Verif.Props.SectionForces

/-! # Property C137: pipes and rolled strips -/

namespace Verif.Cylinder

open V3 Geometry Fields MeasureTheory Verif.Variation Verif.Balance Spec.Balloon Spec.Plate Spec.Cylinder
open Verif.Balloon Verif.Plate
open Verif.Integrate (Rule)

/-! ## Pipe under pressure -/

section
variable {a b R ρ ly c p t E ν : ℝ} {S : Surf → Surf → Section} {s : Section}

/-- **C137** Any material: a pipe widened from radius `R` to `ρ` is in equilibrium exactly at the pressure of
its hoop force and moment. -/
theorem C137_balance (hR : 0 < R) (hρ : 0 < ρ) (hl : 0 < ly) (ha : 0 < a) (hb : 0 < b)
    (hS : ∀ q, S (jet (pipe R) q) (jet (arc ρ 1 ly c) q) = s) (hN : s.N 2 = 0) (hM : s.M 2 = 0) :
    (∀ v, Closed 1 a b v → residualForm (pipe R) (arc ρ 1 ly c) S p (rect a b) v = 0) ↔ p = s.N 0 * ρ + s.M 0 := by
  have h0 : 0 < R * 1 * 1 := by simpa using hR
  have h1 : 0 < ρ * 1 * ly := by positivity
  simp only [jet_arc] at hS
  have key : ∀ v, Closed 1 a b v → residualForm (pipe R) (arc ρ 1 ly c) S p (rect a b) v
      = R * ((p - (s.N 0 * ρ + s.M 0)) * ∫ q in rect a b, dot (v q) (outward 1 q)) := by
    intro v hv
    have e := parts_hoop (g := fun _ => 1) (g' := fun _ => 0) (ω := 1) ha.le hb.le hv.smooth (fun x => hasDerivAt_const x 1)
      continuous_const (fun y => by simpa using hv.gap y)
    simp only [one_mul, zero_mul, integral_zero, neg_zero, zero_add] at e
    rw [residual_arc (μ := R) h1 hS hN hM (fun q => by rw [pipe_jet, arc_measure h0]; ring) hv.smooth,
      work_turned ha.le hb.le hv.toTurned, e]
    ring
  constructor
  · intro h
    have := h _ outward_closed
    rw [key _ outward_closed] at this
    simp only [oo] at this
    rw [rect_const _ ha.le hb.le] at this
    have hab : a * b * 1 ≠ 0 := by positivity
    rcases mul_eq_zero.1 this with h | h
    · exact absurd h hR.ne'
    · linarith [(mul_eq_zero.1 h).resolve_right hab]
  · intro h v hv
    rw [key v hv, h]; ring

/-- **C137** The linear material: a pipe of radius `R`, widened to `ρ` and stretched by `ly`, is in equilibrium
exactly at this pressure. -/
theorem C137_pipe (r : Rule) (hE : 0 < E) (hn1 : -1 < ν) (hn2 : ν < 1 / 2) (hR : 0 < R) (hρ : 0 < ρ) (hl : 0 < ly)
    (ha : 0 < a) (hb : 0 < b) :
    (∀ v, Closed 1 a b v → residualForm (pipe R) (arc ρ 1 ly c) (linearSection r t E ν) p (rect a b) v = 0) ↔
      p = pipePressure E ν t R ρ ly := by
  -- forces and moments are the same everywhere
  let s : Section := ⟨fun _ _ => 0, fun _ _ => 0, fun _ _ => 0, fun _ _ => 0,
    (linearSection r t E ν (jet (pipe R) 0) (jet (arc ρ 1 ly c) 0)).N,
    (linearSection r t E ν (jet (pipe R) 0) (jet (arc ρ 1 ly c) 0)).M⟩
  let S : Surf → Surf → Section := fun o d => ⟨fun _ _ => 0, fun _ _ => 0, fun _ _ => 0, fun _ _ => 0,
    (linearSection r t E ν o d).N, (linearSection r t E ν o d).M⟩
  have hs := pipe_section (t := t) (c := c) r hE hn1 hn2 hR hρ hl
  have e : ∀ v, residualForm (pipe R) (arc ρ 1 ly c) (linearSection r t E ν) p (rect a b) v
      = residualForm (pipe R) (arc ρ 1 ly c) S p (rect a b) v := fun v => rfl
  have k := C137_balance (p := p) (c := c) (S := S) (s := s) hR hρ hl ha hb (fun q => by
    simp only [S, s, (hs q).1, (hs q).2, (hs 0).1, (hs 0).2]) (by simp [s, (hs 0).1]) (by simp [s, (hs 0).2])
  simp only [e, k]
  have : s.N 0 * ρ + s.M 0 = pipePressure E ν t R ρ ly := by
    simp only [s, (hs 0).1, (hs 0).2, vec3_zero, pipePressure]
    generalize E / (1 - ν ^ 2) = E'
    field_simp
  rw [this]

/-- **C137** For every inner pressure there is exactly one radius, at least that of the undeformed pipe, at which
the pipe of fixed length is in equilibrium. -/
theorem C137_unique (r : Rule) (hE : 0 < E) (hn1 : -1 < ν) (hn2 : ν < 1 / 2) (ht : 0 < t) (hR : 0 < R) (ha : 0 < a)
    (hb : 0 < b) (hp : 0 ≤ p) :
    ∃! ρ, R ≤ ρ ∧ ∀ v, Closed 1 a b v → residualForm (pipe R) (arc ρ 1 1 c) (linearSection r t E ν) p (rect a b) v = 0 := by
  have E' : 0 < E / (1 - ν ^ 2) := div_pos hE (by nlinarith)
  have iff : ∀ ρ, R ≤ ρ → ((∀ v, Closed 1 a b v →
      residualForm (pipe R) (arc ρ 1 1 c) (linearSection r t E ν) p (rect a b) v = 0) ↔
      p = pipePressure E ν t R ρ 1) := fun ρ h => C137_pipe r hE hn1 hn2 hR (lt_of_lt_of_le hR h) one_pos ha hb
  have mono : ∀ x y, R ≤ x → x < y → pipePressure E ν t R x 1 < pipePressure E ν t R y 1 := by
    intro x y hx hxy
    unfold pipePressure
    refine mul_lt_mul_of_pos_left ?_ (mul_pos ht E')
    have i1 : (x ^ 2 - R ^ 2) * x / (2 * R ^ 4) ≤ (y ^ 2 - R ^ 2) * y / (2 * R ^ 4) := by
      refine div_le_div_of_nonneg_right ?_ (by positivity)
      have : 0 ≤ x ^ 2 - R ^ 2 := by nlinarith
      have : x ^ 2 - R ^ 2 ≤ y ^ 2 - R ^ 2 := by nlinarith
      exact mul_le_mul this hxy.le (by linarith) (by linarith)
    have i2 : t ^ 2 / 12 * (x - R) / R ^ 4 < t ^ 2 / 12 * (y - R) / R ^ 4 := by
      refine div_lt_div_of_pos_right ?_ (by positivity)
      exact mul_lt_mul_of_pos_left (by linarith) (by positivity)
    have z : ∀ u : ℝ, ν * ((1 : ℝ) ^ 2 - 1) * u / (2 * R ^ 2) = 0 := fun u => by norm_num
    rw [z, z]; linarith
  -- a radius that is large enough
  set k := t * (E / (1 - ν ^ 2)) * (t ^ 2 / 12 / R ^ 4) with hk
  have k0 : 0 < k := by positivity
  have big : p ≤ pipePressure E ν t R (R + p / k) 1 := by
    have d0 : 0 ≤ p / k := by positivity
    have e : pipePressure E ν t R (R + p / k) 1
        = t * (E / (1 - ν ^ 2)) * (((R + p / k) ^ 2 - R ^ 2) * (R + p / k) / (2 * R ^ 4)) + k * (p / k) := by
      rw [pipePressure, hk]; norm_num; ring
    have : k * (p / k) = p := by field_simp
    rw [e, this]
    have : 0 ≤ (R + p / k) ^ 2 - R ^ 2 := by nlinarith
    have : 0 ≤ t * (E / (1 - ν ^ 2)) * (((R + p / k) ^ 2 - R ^ 2) * (R + p / k) / (2 * R ^ 4)) := by positivity
    linarith
  have small : pipePressure E ν t R R 1 ≤ p := by
    have : pipePressure E ν t R R 1 = 0 := by rw [pipePressure]; norm_num
    rw [this]; exact hp
  have cont : ContinuousOn (fun x => pipePressure E ν t R x 1) (Set.Icc R (R + p / k)) := by
    unfold pipePressure; fun_prop
  obtain ⟨x, ⟨x1, _⟩, hx⟩ := intermediate_value_Icc (by have : 0 ≤ p / k := by positivity
                                                        linarith) cont ⟨small, big⟩
  refine ⟨x, ⟨x1, (iff x x1).2 hx.symm⟩, ?_⟩
  rintro y ⟨y1, hy⟩
  have hy' := (iff y y1).1 hy
  rcases lt_trichotomy y x with h | h | h
  · have := mono y x y1 h
    simp only at hx; linarith
  · exact h
  · have := mono x y x1 h
    simp only at hx; linarith

/-- **C137** The linear problem: the pipe widens by `w` under the pressure `p` exactly if this holds. -/
theorem C137_linear (r : Rule) (hE : 0 < E) (hn1 : -1 < ν) (hn2 : ν < 1 / 2) (hR : 0 < R) (ha : 0 < a) (hb : 0 < b)
    (w : ℝ) :
    (∀ v, Closed 1 a b v → stiffForm (pipe R) (System.linearModuli r t E ν) (rect a b) (fun q => w • outward 1 q) v
        = pressForm (pipe R) p (rect a b) v) ↔
      E * t / (1 - ν ^ 2) * (1 / R ^ 2 + t ^ 2 / (12 * R ^ 4)) * w = p := by
  have u : (fun q => w • outward 1 q) = ring 0 w 0 := by
    funext q; ext <;> simp [ring]
  have key : ∀ v, Closed 1 a b v → stiffForm (pipe R) (System.linearModuli r t E ν) (rect a b) (fun q => w • outward 1 q) v
      = R * (E * t / (1 - ν ^ 2) * (1 / R ^ 2 + t ^ 2 / (12 * R ^ 4)) * w) * cosP a b 0 v := by
    intro v hv
    rw [u, ring_stiff r hE.ne' (by linarith) (by linarith) (by linarith) hR ha.le hb.le (by simp) (by simp) hv]
    simp only [Nat.cast_zero]
    ring
  constructor
  · intro h
    have := h _ outward_closed
    rw [key _ outward_closed, press_pipe hR] at this
    have c : cosP a b 0 (outward 1) = a * b := by
      simp only [cosP, oo]
      simp only [Nat.cast_zero, zero_mul, Real.cos_zero, mul_one]
      rw [rect_const _ ha.le hb.le, mul_one]
    rw [c] at this
    have hab : a * b ≠ 0 := by positivity
    exact mul_left_cancel₀ hR.ne' (mul_right_cancel₀ hab this)
  · intro h v hv
    rw [key v hv, press_pipe hR, h]

/-- **C137** The linear problem is the linearisation of the equilibrium of the pipe. -/
theorem C137_tangent (hR : 0 < R) : HasDerivAt (fun ρ => pipePressure E ν t R ρ 1)
    (E * t / (1 - ν ^ 2) * (1 / R ^ 2 + t ^ 2 / (12 * R ^ 4))) R := by
  have e : (fun ρ => pipePressure E ν t R ρ 1) = fun ρ => t * (E / (1 - ν ^ 2))
      * ((ρ ^ 3 - R ^ 2 * ρ) / (2 * R ^ 4) + t ^ 2 / 12 * (ρ - R) / R ^ 4) := by
    funext ρ; rw [pipePressure]; ring
  rw [e]
  have h := hasDerivAt_id' R
  have := ((((h.fun_pow 3).fun_sub (h.const_mul (R ^ 2))).div_const (2 * R ^ 4)).fun_add
    (((h.sub_const R).const_mul (t ^ 2 / 12)).div_const (R ^ 4))).const_mul (t * (E / (1 - ν ^ 2)))
  refine this.congr_deriv ?_
  generalize hE' : E / (1 - ν ^ 2) = E'
  rw [show E * t / (1 - ν ^ 2) = E' * t by rw [← hE']; ring]
  field_simp
  ring

/-- A pipe of radius 1, thickness 1 widened to the radius 2. -/
example : ∀ v, Closed 1 1 1 v → residualForm (pipe 1) (arc 2 1 1 0) (linearSection SectionForces.twoPoint 1 1 0)
    (37 / 12) (rect 1 1) v = 0 :=
  (C137_pipe _ one_pos (by norm_num) (by norm_num) one_pos two_pos one_pos one_pos one_pos).2 (by
    norm_num [pipePressure])

/-- The linear problem: it widens by 1 under the pressure 13/12. -/
example : ∀ v, Closed 1 1 1 v → stiffForm (pipe 1) (System.linearModuli SectionForces.twoPoint 1 1 0) (rect 1 1)
    (fun q => (1 : ℝ) • outward 1 q) v = pressForm (pipe 1) (13 / 12) (rect 1 1) v :=
  (C137_linear _ one_pos (by norm_num) (by norm_num) one_pos one_pos one_pos 1).2 (by norm_num)

example : ∃! ρ, (1 : ℝ) ≤ ρ ∧ ∀ v, Closed 1 (2 * Real.pi) 1 v →
    residualForm (pipe 1) (arc ρ 1 1 0) (linearSection SectionForces.twoPoint 1 1 0) 3 (rect (2 * Real.pi) 1) v = 0 :=
  C137_unique _ one_pos (by norm_num) (by norm_num) one_pos one_pos (by have := Real.pi_pos; positivity) one_pos
    (by norm_num)

end

/-! ## Waves around a pipe -/

section
variable {b R t E ν ρ lam : ℝ} {n : ℕ}

/-- **C137** Modes of the free vibration of a pipe with `n` waves around it: a problem for two amplitudes. -/
theorem C137_ring (r : Rule) (hE : 0 < E) (hn1 : -1 < ν) (hn2 : ν < 1 / 2) (hR : 0 < R) (hb : 0 < b) (hn : 1 ≤ n)
    (w s : ℝ) :
    (∀ v, Closed 1 (2 * Real.pi) b v →
      stiffForm (pipe R) (System.linearModuli r t E ν) (rect (2 * Real.pi) b) (ring n w s) v
        = lam * massForm (pipe R) (areaMass t ρ) (rect (2 * Real.pi) b) (ring n w s) v) ↔
    E * t / (1 - ν ^ 2) * ((w + n * s) / R ^ 2 + t ^ 2 / (12 * R ^ 4) * (n ^ 2 + 1) * ((n ^ 2 + 1) * w + 2 * n * s))
        = lam * ρ * t * w ∧
    E * t / (1 - ν ^ 2) * (n * (w + n * s) / R ^ 2 + t ^ 2 / (12 * R ^ 4) * (2 * n) * ((n ^ 2 + 1) * w + 2 * n * s))
        = lam * ρ * t * s := by
  obtain ⟨hs, hc⟩ := wave_a n
  have hp := Real.pi_pos
  set X := E * t / (1 - ν ^ 2) * ((w + n * s) / R ^ 2
    + t ^ 2 / (12 * R ^ 4) * (n ^ 2 + 1) * ((n ^ 2 + 1) * w + 2 * n * s)) with hX
  set Y := E * t / (1 - ν ^ 2) * (n * (w + n * s) / R ^ 2
    + t ^ 2 / (12 * R ^ 4) * (2 * n) * ((n ^ 2 + 1) * w + 2 * n * s)) with hY
  have key : ∀ v, Closed 1 (2 * Real.pi) b v →
      stiffForm (pipe R) (System.linearModuli r t E ν) (rect (2 * Real.pi) b) (ring n w s) v
        = R * X * cosP (2 * Real.pi) b n v + R * Y * sinT (2 * Real.pi) b n v := by
    intro v hv
    rw [ring_stiff r hE.ne' (by linarith) (by linarith) (by linarith) hR (by positivity) hb.le hs hc hv, hX, hY]
    ring
  have mass : ∀ v, Closed 1 (2 * Real.pi) b v →
      lam * massForm (pipe R) (areaMass t ρ) (rect (2 * Real.pi) b) (ring n w s) v
        = R * (lam * ρ * t * w) * cosP (2 * Real.pi) b n v + R * (lam * ρ * t * s) * sinT (2 * Real.pi) b n v := by
    intro v hv
    rw [ring_mass hR _ hv.smooth, areaMass]; ring
  constructor
  · intro h
    have c1 : Closed 1 (2 * Real.pi) b (ring n 1 0) := ring_closed hs
    have c2 : Closed 1 (2 * Real.pi) b (ring n 0 1) := ring_closed hs
    have h1 := h _ c1
    have h2 := h _ c2
    rw [key _ c1, mass _ c1, cosP_ring _ _ hb.le hn, sinT_ring _ _ hb.le hn] at h1
    rw [key _ c2, mass _ c2, cosP_ring _ _ hb.le hn, sinT_ring _ _ hb.le hn] at h2
    have k : R * (Real.pi * b) ≠ 0 := by positivity
    constructor
    · refine mul_left_cancel₀ k ?_
      linear_combination h1
    · refine mul_left_cancel₀ k ?_
      linear_combination h2
  · rintro ⟨h1, h2⟩ v hv
    rw [key v hv, mass v hv, h1, h2]

/-- **C137** The lowest frequency with `n` waves is that of a thin ring bent without extension, up to a factor
that depends on the thickness over the radius. -/
theorem C137_inextensional (r : Rule) (hE : 0 < E) (hn1 : -1 < ν) (hn2 : ν < 1 / 2) (ht : 0 < t) (hR : 0 < R)
    (hρ : 0 < ρ) (hb : 0 < b) (hn : 1 ≤ n) :
    (∃ lam w s, (w ≠ 0 ∨ s ≠ 0) ∧
      ringFreq2 E ν ρ t R n / (1 + t ^ 2 / (12 * R ^ 2) * ((((n : ℝ) ^ 2 + 1) ^ 2 + 4 * n ^ 2) / (n ^ 2 + 1))) ≤ lam ∧
      lam ≤ ringFreq2 E ν ρ t R n ∧ ∀ v, Closed 1 (2 * Real.pi) b v →
        stiffForm (pipe R) (System.linearModuli r t E ν) (rect (2 * Real.pi) b) (ring n w s) v
          = lam * massForm (pipe R) (areaMass t ρ) (rect (2 * Real.pi) b) (ring n w s) v) ∧
    ∀ lam w s, (w ≠ 0 ∨ s ≠ 0) → (∀ v, Closed 1 (2 * Real.pi) b v →
        stiffForm (pipe R) (System.linearModuli r t E ν) (rect (2 * Real.pi) b) (ring n w s) v
          = lam * massForm (pipe R) (areaMass t ρ) (rect (2 * Real.pi) b) (ring n w s) v) →
      ringFreq2 E ν ρ t R n / (1 + t ^ 2 / (12 * R ^ 2) * ((((n : ℝ) ^ 2 + 1) ^ 2 + 4 * n ^ 2) / (n ^ 2 + 1))) ≤ lam := by
  have s2 : 0 < 1 - ν ^ 2 := by nlinarith
  have N1 : (1 : ℝ) ≤ n := by exact_mod_cast hn
  have N0 : (0 : ℝ) < n := by linarith
  simp only [C137_ring r hE hn1 hn2 hR hb hn]
  have hE' : 0 < E * t / (1 - ν ^ 2) := by positivity
  set α := E * t / (1 - ν ^ 2) / R ^ 2 with hα
  set β := E * t / (1 - ν ^ 2) * (t ^ 2 / (12 * R ^ 4)) with hβ
  have α0 : 0 < α := by positivity
  have β0 : 0 < β := by positivity
  have q1 : β / α = t ^ 2 / (12 * R ^ 2) := by
    rw [hα, hβ]
    generalize E * t / (1 - ν ^ 2) = e at *
    field_simp
  have q2 : ringFreq2 E ν ρ t R n = β * (n ^ 2 * ((n : ℝ) ^ 2 - 1) ^ 2 / (n ^ 2 + 1)) / (ρ * t) := by
    rw [ringFreq2, hβ]
    generalize ((n : ℝ) ^ 2 * ((n : ℝ) ^ 2 - 1) ^ 2 / (n ^ 2 + 1)) = e
    generalize 1 - ν ^ 2 = f at *
    field_simp
  have r1 : ∀ w s : ℝ, E * t / (1 - ν ^ 2) * ((w + n * s) / R ^ 2
      + t ^ 2 / (12 * R ^ 4) * (n ^ 2 + 1) * ((n ^ 2 + 1) * w + 2 * n * s))
      = α * (w + n * s) + β * (n ^ 2 + 1) * ((n ^ 2 + 1) * w + 2 * n * s) := by
    intro w s; rw [hα, hβ]; ring
  have r2 : ∀ w s : ℝ, E * t / (1 - ν ^ 2) * (n * (w + n * s) / R ^ 2
      + t ^ 2 / (12 * R ^ 4) * (2 * n) * ((n ^ 2 + 1) * w + 2 * n * s))
      = α * n * (w + n * s) + β * (2 * n) * ((n ^ 2 + 1) * w + 2 * n * s) := by
    intro w s; rw [hα, hβ]; ring
  simp only [r1, r2, q2, ← q1]
  clear_value α β
  have m0 : 0 < ρ * t := by positivity
  constructor
  · obtain ⟨x, lo, hi, root⟩ := ring_root α0 β0 n
    refine ⟨x / (ρ * t), n * α + 2 * n * (n ^ 2 + 1) * β, x - (α + β * (n ^ 2 + 1) ^ 2), Or.inl ?_, ?_, ?_, ?_, ?_⟩
    · positivity
    · rw [div_right_comm]
      exact div_le_div_of_nonneg_right lo m0.le
    · exact div_le_div_of_nonneg_right hi m0.le
    · rw [show ∀ z : ℝ, x / (ρ * t) * ρ * t * z = x * z from fun z => by field_simp]
      ring
    · rw [show ∀ z : ℝ, x / (ρ * t) * ρ * t * z = x * z from fun z => by field_simp]
      linear_combination -root
  · rintro lam w s hws ⟨h1, h2⟩
    rw [div_right_comm, div_le_iff₀ m0]
    -- every eigenvalue is a root of the characteristic polynomial
    set x := lam * (ρ * t) with hx
    have h1' : (α + β * (n ^ 2 + 1) ^ 2 - x) * w + (n * α + 2 * n * (n ^ 2 + 1) * β) * s = 0 := by
      rw [hx]; linear_combination h1
    have h2' : (n * α + 2 * n * (n ^ 2 + 1) * β) * w + (n ^ 2 * α + 4 * n ^ 2 * β - x) * s = 0 := by
      rw [hx]; linear_combination h2
    have root : x ^ 2 - (α * (1 + n ^ 2) + β * (((n : ℝ) ^ 2 + 1) ^ 2 + 4 * n ^ 2)) * x
        + α * β * n ^ 2 * ((n : ℝ) ^ 2 - 1) ^ 2 = 0 := by
      rcases hws with hw | hs
      · refine (mul_eq_zero.1 (?_ : w * _ = 0)).resolve_left hw
        linear_combination (n ^ 2 * α + 4 * n ^ 2 * β - x) * h1' - (n * α + 2 * n * (n ^ 2 + 1) * β) * h2'
      · refine (mul_eq_zero.1 (?_ : s * _ = 0)).resolve_left hs
        linear_combination (α + β * (n ^ 2 + 1) ^ 2 - x) * h2' - (n * α + 2 * n * (n ^ 2 + 1) * β) * h1'
    clear_value x
    have M : (0 : ℝ) ≤ (n : ℝ) ^ 2 := by positivity
    generalize (n : ℝ) ^ 2 = m at *
    have T0 : 0 < α * (1 + m) + β * ((m + 1) ^ 2 + 4 * m) := by positivity
    have lo : β * (m * (m - 1) ^ 2 / (m + 1)) / (1 + β / α * (((m + 1) ^ 2 + 4 * m) / (m + 1)))
        = α * β * m * (m - 1) ^ 2 / (α * (1 + m) + β * ((m + 1) ^ 2 + 4 * m)) := by
      have : 0 < α * (m + 1) + β * ((m + 1) ^ 2 + 4 * m) := by positivity
      field_simp
      ring
    rw [lo, div_le_iff₀ T0]
    nlinarith [sq_nonneg x]

/-- One wave is a translation of the pipe. -/
example : ∀ v, Closed 1 (2 * Real.pi) 1 v →
    stiffForm (pipe 1) (System.linearModuli SectionForces.twoPoint 1 1 0) (rect (2 * Real.pi) 1) (ring 1 1 (-1)) v
      = 0 * massForm (pipe 1) (areaMass 1 1) (rect (2 * Real.pi) 1) (ring 1 1 (-1)) v :=
  (C137_ring _ one_pos (by norm_num) (by norm_num) one_pos one_pos le_rfl 1 (-1)).2 (by norm_num)

/-- Two waves. -/
example : ∃ lam w s, (w ≠ 0 ∨ s ≠ 0) ∧ lam ≤ ringFreq2 1 0 1 1 1 2 ∧ ∀ v, Closed 1 (2 * Real.pi) 1 v →
    stiffForm (pipe 1) (System.linearModuli SectionForces.twoPoint 1 1 0) (rect (2 * Real.pi) 1) (ring 2 w s) v
      = lam * massForm (pipe 1) (areaMass 1 1) (rect (2 * Real.pi) 1) (ring 2 w s) v := by
  obtain ⟨⟨l, w, s, h, _, h2, h3⟩, _⟩ := C137_inextensional (n := 2) (E := 1) (ν := 0) (t := 1) (R := 1) (ρ := 1) (b := 1)
    SectionForces.twoPoint one_pos (by norm_num) (by norm_num) one_pos one_pos one_pos one_pos (by norm_num)
  exact ⟨l, w, s, h, h2, h3⟩

end

/-! ## Rolled strips -/

section
variable {a b ρ lam t E ν : ℝ}

/-- **C137** A flat strip of linear material rolled to the radius `ρ` is in equilibrium without forces at its
ends exactly if its middle surface shortens by this amount. -/
theorem C137_rolled (r : Rule) (hE : 0 < E) (hn1 : -1 < ν) (hn2 : ν < 1 / 2) (ht : 0 < t) (hρ : 0 < ρ) (hl : 0 < lam)
    (ha : 0 < a) (hb : 0 < b) :
    (∀ v, Turned (lam / ρ) a b v → residualForm plate (rolled ρ lam) (linearSection r t E ν) 0 (rect a b) v = 0) ↔
      lam ^ 2 * (1 + t ^ 2 / (6 * ρ ^ 2)) = 1 := by
  have s2 : 0 < E / (1 - ν ^ 2) := div_pos hE (by nlinarith)
  have key : ∀ v, Turned (lam / ρ) a b v → residualForm plate (rolled ρ lam) (linearSection r t E ν) 0 (rect a b) v
      = -(t * (E / (1 - ν ^ 2)) * lam / 2 * (lam ^ 2 * (1 + t ^ 2 / (6 * ρ ^ 2)) - 1)
        * ∫ q in rect a b, dot (vpd 0 v q) (around (lam / ρ) q)) := by
    intro v hv
    rw [rolled_residual r hE hn1 hn2 hρ hl hv.smooth, work_turned ha.le hb.le hv]
    generalize E / (1 - ν ^ 2) = E'
    field_simp
    ring
  constructor
  · intro h
    have := h _ (outward_closed (a := a) (b := b)).toTurned
    rw [key _ outward_closed.toTurned, vpd0_o] at this
    simp only [dot_smul_left, aa, mul_one] at this
    rw [rect_const _ ha.le hb.le, neg_eq_zero] at this
    have k1 : a * b * (lam / ρ) ≠ 0 := by positivity
    have k2 : t * (E / (1 - ν ^ 2)) * lam / 2 ≠ 0 := by positivity
    linarith [(mul_eq_zero.1 ((mul_eq_zero.1 this).resolve_right k1)).resolve_left k2]
  · intro h v hv
    rw [key v hv, h]; ring

/-- **C137** At that stretch, only moments at the ends are needed: for every other displacement the residual is
the bending stiffness times the curvature, with the rotations of the ends. -/
theorem C137_moment (r : Rule) (hE : 0 < E) (hn1 : -1 < ν) (hn2 : ν < 1 / 2) (hρ : 0 < ρ) (hl : 0 < lam)
    (ha : 0 < a) (hb : 0 < b) (h : lam ^ 2 * (1 + t ^ 2 / (6 * ρ ^ 2)) = 1) {v : ℝ × ℝ → V3}
    (hv : SmoothOn 2 v Set.univ) (hs : Sides (lam / ρ) b v) :
    residualForm plate (rolled ρ lam) (linearSection r t E ν) 0 (rect a b) v
      = E * t ^ 3 / (12 * (1 - ν ^ 2)) * (lam ^ 2 / ρ) * ∫ y in (0 : ℝ)..b,
          (dot (vpd 0 v (a, y)) (outward (lam / ρ) (a, y)) - dot (vpd 0 v (0, y)) (outward (lam / ρ) (0, y))) := by
  have s1 := smooth0 hv 0
  have ct := cdot s1 (around_smooth 1 (lam / ρ))
  have cd := cdot (smooth00 hv 0 0) (outward_smooth 0 (lam / ρ))
  have x := ends_x ha.le hb.le (dot_C s1 (outward_smooth 1 (lam / ρ)))
  rw [pd_P s1, int_add (by fun_prop) (by fun_prop), integral_const_mul] at x
  rw [rolled_residual r hE hn1 hn2 hρ hl hv, work_split continuous_const hv,
    parts_axis ha.le hb.le hv hs continuous_const, parts_side ha.le hb.le hv hs continuous_const, ← x]
  simp only [one_mul]
  have s2 : (1 - ν ^ 2) ≠ 0 := by nlinarith
  have e : E * t ^ 3 / (12 * (1 - ν ^ 2)) = t ^ 3 / 12 * (E / (1 - ν ^ 2)) := by field_simp
  rw [e]
  generalize E / (1 - ν ^ 2) = E'
  generalize ∫ q in rect a b, dot (vpd 0 v q) (around (lam / ρ) q) = I1
  generalize ∫ q in rect a b, dot (vpd 0 (vpd 0 v) q) (outward (lam / ρ) q) = I2
  have h' : t * E' * lam / 2 * (lam ^ 2 - 1) * I1 = -(t ^ 3 / 12 * E' * (lam ^ 2 / ρ) * (lam / ρ)) * I1 := by
    have : lam ^ 2 - 1 = -(lam ^ 2 * (t ^ 2 / (6 * ρ ^ 2))) := by linear_combination h
    rw [this]
    field_simp
    ring
  linear_combination -h'

/-- **C137** For every radius there is exactly one such stretch; it is less than one. -/
theorem C137_shortening (ht : 0 < t) (hρ : 0 < ρ) :
    ∃! lam, 0 < lam ∧ lam ^ 2 * (1 + t ^ 2 / (6 * ρ ^ 2)) = 1 ∧ lam < 1 := by
  have k : 0 < t ^ 2 / (6 * ρ ^ 2) := by positivity
  have k1 : 0 < 1 + t ^ 2 / (6 * ρ ^ 2) := by linarith
  have l2 : ∀ l : ℝ, l ^ 2 * (1 + t ^ 2 / (6 * ρ ^ 2)) = 1 ↔ l ^ 2 = 1 / (1 + t ^ 2 / (6 * ρ ^ 2)) := fun l => by
    rw [eq_div_iff k1.ne']
  refine ⟨Real.sqrt (1 / (1 + t ^ 2 / (6 * ρ ^ 2))), ⟨Real.sqrt_pos.2 (by positivity), ?_, ?_⟩, ?_⟩
  · rw [l2, Real.sq_sqrt (by positivity)]
  · rw [Real.sqrt_lt' one_pos, div_lt_iff₀ k1]; linarith
  · rintro l ⟨h0, h1, _⟩
    rw [l2] at h1
    rw [← h1, Real.sqrt_sq h0.le]

/-- A strip of thickness 1, rolled to the radius of which the square is 1/18, shortens to half its length. -/
example {ρ : ℝ} (hρ : 0 < ρ) (h : ρ ^ 2 = 1 / 18) :
    ∀ v, Turned (1 / 2 / ρ) 1 1 v → residualForm plate (rolled ρ (1 / 2)) (linearSection SectionForces.twoPoint 1 1 0) 0
      (rect 1 1) v = 0 :=
  (C137_rolled _ one_pos (by norm_num) (by norm_num) one_pos hρ (by norm_num) one_pos one_pos).2 (by rw [h]; norm_num)

end

end Verif.Cylinder
