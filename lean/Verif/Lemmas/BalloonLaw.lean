import Verif.Lemmas.Balloon
import Verif.Lemmas.BenchmarkState

/-! # Lemmas: equibiaxial stretching of the incompressible materials -/

namespace Verif.Balloon

open V3 Geometry Integrate Fields Verif.Variation ShellTangent Hyper Spec.Balloon

/-- The stress of a law of `(G, g)` for multiples of one metric. -/
def Iso (S : T2 → T2 → Fin 3 → Fin 3 → ℝ) (σ : ℝ → ℝ) : Prop :=
  ∀ (A : T2), det2 A ≠ 0 → A 0 1 = A 1 0 → ∀ α β, 0 < α → 0 < β → ∀ a b,
    S (fun i j => α ^ 2 * A i j) (fun i j => β ^ 2 * A i j) (up a) (up b)
      = σ (β / α) / α ^ 2 * inv2 A a b

theorem inv2_smul (A : T2) {α : ℝ} (h : α ≠ 0) (a b : Fin 2) :
    inv2 (fun i j => α ^ 2 * A i j) a b = 1 / α ^ 2 * inv2 A a b := by
  have d : det2 (fun i j => α ^ 2 * A i j) = α ^ 4 * det2 A := by simp only [det2]; ring
  rcases fin2_cases a with rfl | rfl <;> rcases fin2_cases b with rfl | rfl
  · show α ^ 2 * A 1 1 / det2 (fun i j => α ^ 2 * A i j) = 1 / α ^ 2 * (A 1 1 / det2 A)
    rw [d]; field_simp
  · show -(α ^ 2 * A 0 1) / det2 (fun i j => α ^ 2 * A i j) = 1 / α ^ 2 * (-A 0 1 / det2 A)
    rw [d]; field_simp
  · show -(α ^ 2 * A 1 0) / det2 (fun i j => α ^ 2 * A i j) = 1 / α ^ 2 * (-A 1 0 / det2 A)
    rw [d]; field_simp
  · show α ^ 2 * A 0 0 / det2 (fun i j => α ^ 2 * A i j) = 1 / α ^ 2 * (A 0 0 / det2 A)
    rw [d]; field_simp

theorem embed_up (M : T2) (a b : Fin 2) : embed M (up a) (up b) = M a b := by
  rcases fin2_cases a with rfl | rfl <;> rcases fin2_cases b with rfl | rfl <;> rfl

theorem J0_smul (A : T2) (hA : det2 A ≠ 0) {α β : ℝ} (ha : α ≠ 0) :
    (data (fun i j => α ^ 2 * A i j) (fun i j => β ^ 2 * A i j)).J0 = (β / α) ^ 4 := by
  have d : ∀ α : ℝ, det2 (fun i j => α ^ 2 * A i j) = α ^ 4 * det2 A := by
    intro α; simp only [det2]; ring
  simp only [data, d]
  field_simp

/-- Stress coefficient of the neo-Hookean material. -/
noncomputable def sigNH (mu ρ : ℝ) : ℝ := mu * (1 - 1 / ρ ^ 6)

/-- Stress coefficient of the Mooney–Rivlin material. -/
noncomputable def sigMR (c1 c2 ρ : ℝ) : ℝ := c1 * (1 - 1 / ρ ^ 6) + c2 * (ρ ^ 2 - 1 / ρ ^ 4)

theorem iso_NH (p : Par) : Iso (fun G g => sNH p (data G g)) (sigNH p.mu) := by
  intro A hA _ α β ha hb a b
  have J := J0_smul A hA (β := β) ha.ne'
  simp only [sNH, J]
  have e1 : (data (fun i j => α ^ 2 * A i j) (fun i j => β ^ 2 * A i j)).Gori (up a) (up b)
      = 1 / α ^ 2 * inv2 A a b := (embed_up _ a b).trans (inv2_smul A ha.ne' a b)
  have e2 : (data (fun i j => α ^ 2 * A i j) (fun i j => β ^ 2 * A i j)).gcon (up a) (up b)
      = 1 / β ^ 2 * inv2 A a b := (embed_up _ a b).trans (inv2_smul A hb.ne' a b)
  rw [e1, e2, sigNH]
  field_simp

theorem trace_smul (A : T2) (hA : det2 A ≠ 0) (hs : A 0 1 = A 1 0) {α β : ℝ} (ha : α ≠ 0) :
    traceCt (data (fun i j => α ^ 2 * A i j) (fun i j => β ^ 2 * A i j)) = 2 * (β / α) ^ 2 := by
  have g : ∀ a b, (data (fun i j => α ^ 2 * A i j) (fun i j => β ^ 2 * A i j)).gcov (up a) (up b)
      = β ^ 2 * A a b := fun a b => embed_up (fun i j => β ^ 2 * A i j) a b
  have e : ∀ a b, (data (fun i j => α ^ 2 * A i j) (fun i j => β ^ 2 * A i j)).Gori (up a) (up b)
      = 1 / α ^ 2 * inv2 A a b := fun a b => (embed_up _ a b).trans (inv2_smul A ha a b)
  have g00 := g 0 0
  have g01 := g 0 1
  have g10 := g 1 0
  have g11 := g 1 1
  have e00 := e 0 0
  have e01 := e 0 1
  have e10 := e 1 0
  have e11 := e 1 1
  simp only [up_zero, up_one] at g00 g01 g10 g11 e00 e01 e10 e11
  have i00 : inv2 A 0 0 = A 1 1 / det2 A := rfl
  have i01 : inv2 A 0 1 = -(A 0 1) / det2 A := rfl
  have i10 : inv2 A 1 0 = -(A 1 0) / det2 A := rfl
  have i11 : inv2 A 1 1 = A 0 0 / det2 A := rfl
  rw [traceCt, g00, g01, g10, g11, e00, e01, e10, e11, i00, i01, i10, i11]
  have d : det2 A = A 0 0 * A 1 1 - A 0 1 * A 1 0 := rfl
  field_simp
  rw [d, hs]
  ring

theorem iso_MR (p : Par) : Iso (fun G g => sMR p (data G g)) (sigMR p.c1 p.c2) := by
  intro A hA hs α β ha hb a b
  have J := J0_smul A hA (β := β) ha.ne'
  have T := trace_smul A hA hs (β := β) ha.ne'
  simp only [sMR, J, T]
  have e1 : (data (fun i j => α ^ 2 * A i j) (fun i j => β ^ 2 * A i j)).Gori (up a) (up b)
      = 1 / α ^ 2 * inv2 A a b := (embed_up _ a b).trans (inv2_smul A ha.ne' a b)
  have e2 : (data (fun i j => α ^ 2 * A i j) (fun i j => β ^ 2 * A i j)).gcon (up a) (up b)
      = 1 / β ^ 2 * inv2 A a b := (embed_up _ a b).trans (inv2_smul A hb.ne' a b)
  rw [e1, e2, sigMR]
  field_simp
  ring

/-- The stresses of a law on a stretched sphere. -/
theorem isoAt_of {S : T2 → T2 → Fin 3 → Fin 3 → ℝ} {σ : ℝ → ℝ} (hS : Iso S σ) {L : Surf → Law}
    (hL : ∀ s z G, (L s).stress z G = S (Gblock s z) G) {R : ℝ} {x : V3} {s : Surf} (h : Sph R x s)
    {r : Rule} {t lam : ℝ} (hl : 0 < lam)
    (hz : ∀ j, 0 < 1 + r.ξ j * t / R ∧ 0 < lam + r.ξ j * t / R) :
    IsoAt L r t lam (fun j => σ ((lam + r.ξ j * t / R) / (1 + r.ξ j * t / R))
      / (1 + r.ξ j * t / R) ^ 2) s := by
  intro j a b
  have d : det2 (Acov s) ≠ 0 := by
    rw [det_sph h]
    have := vol_pos h
    have := h.R0
    positivity
  have e1 : Gblock s (r.ξ j * t) = fun i k => (1 + r.ξ j * t / R) ^ 2 * Acov s i k := by
    funext i k; exact Gblock_sph h _ i k
  have e2 : Gblock (scaleS lam s) (r.ξ j * t) = fun i k => (lam + r.ξ j * t / R) ^ 2 * Acov s i k := by
    funext i k; exact Gblock_scale h hl _ i k
  rw [hL, e1, e2]
  exact hS (Acov s) d (Acov_symm s 0 1) _ _ (hz j).1 (hz j).2 a b

open Verif.Spectral Verif.Benchmark

/-- Stress coefficient of the Ogden material. -/
noncomputable def sigOG (terms : List (ℝ × ℝ)) (ρ : ℝ) : ℝ :=
  1 / ρ ^ 2 * (terms.map fun t => t.1 * (ρ ^ t.2 - (1 / ρ ^ 2) ^ t.2)).sum

/-- In a principal frame of a multiple of the metric both eigenvalues are the factor. -/
theorem frame_multiple {A C P : T2} {e : Fin 2 → ℝ} {k : ℝ} (f : Frame A C P e) (hA : det2 A ≠ 0)
    (hC : ∀ i j, C i j = k * A i j) (he : ∀ a, 0 < e a) (a : Fin 2) : e a = k := by
  have d00 := f.d00
  have d11 := f.d11
  have d01 := f.d01
  have d10 := f.d10
  simp only [hC] at d00 d11 d01 d10
  -- `P = A⁻¹ A P`, with `A⁻¹ = P Pᵀ`
  have I00 := inv2_mul A hA 0 0
  have I01 := inv2_mul A hA 0 1
  have I10 := inv2_mul A hA 1 0
  have I11 := inv2_mul A hA 1 1
  simp only [f.G] at I00 I01 I10 I11
  norm_num at I00 I01 I10 I11
  have v0 : k * P 0 0 = P 0 0 * e 0 := by
    linear_combination (-k * P 0 0) * I00 - k * P 1 0 * I01 + P 0 0 * d00 + P 0 1 * d10
  have v1 : k * P 1 0 = P 1 0 * e 0 := by
    linear_combination (-k * P 0 0) * I10 - k * P 1 0 * I11 + P 1 0 * d00 + P 1 1 * d10
  have u0 : k * P 0 1 = P 0 1 * e 1 := by
    linear_combination (-k * P 0 1) * I00 - k * P 1 1 * I01 + P 0 0 * d01 + P 0 1 * d11
  have u1 : k * P 1 1 = P 1 1 * e 1 := by
    linear_combination (-k * P 0 1) * I10 - k * P 1 1 * I11 + P 1 0 * d01 + P 1 1 * d11
  rcases fin2_cases a with rfl | rfl
  · by_contra h
    have h' : k - e 0 ≠ 0 := fun h2 => h (by linarith)
    have p0 : P 0 0 = 0 := (mul_eq_zero.1 (by linarith : (k - e 0) * P 0 0 = 0)).resolve_left h'
    have p1 : P 1 0 = 0 := (mul_eq_zero.1 (by linarith : (k - e 0) * P 1 0 = 0)).resolve_left h'
    have := he 0
    rw [p0, p1] at d00
    linarith
  · by_contra h
    have h' : k - e 1 ≠ 0 := fun h2 => h (by linarith)
    have p0 : P 0 1 = 0 := (mul_eq_zero.1 (by linarith : (k - e 1) * P 0 1 = 0)).resolve_left h'
    have p1 : P 1 1 = 0 := (mul_eq_zero.1 (by linarith : (k - e 1) * P 1 1 = 0)).resolve_left h'
    have := he 1
    rw [p0, p1] at d11
    linarith

/-- Stress of the Ogden material for multiples of one metric. -/
theorem iso_OG (terms : List (ℝ × ℝ)) {A : T2} {α β : ℝ} (ha : 0 < α) (hb : 0 < β)
    {g : Cols} {solver : T3 → Eig}
    (r : Regular (fun i j => α ^ 2 * A i j) (fun i j => β ^ 2 * A i j) g
      (eigOf solver (Bmat (fun i j => β ^ 2 * A i j) g))) (a b : Fin 2) :
    sSpecI solver (potOG terms) (fun i j => β ^ 2 * A i j)
        (data (fun i j => α ^ 2 * A i j) (fun i j => β ^ 2 * A i j)).J0 g a b
      = sigOG terms (β / α) / α ^ 2 * inv2 A a b := by
  obtain ⟨hJ, hinc⟩ := regular_inc r
  obtain ⟨f, hp, h2⟩ := regular_frame r hJ
  set l := stretches solver (fun i j => β ^ 2 * A i j)
    (1 / (data (fun i j => α ^ 2 * A i j) (fun i j => β ^ 2 * A i j)).J0) g with hl
  have hρ : 0 < β / α := div_pos hb ha
  have hq : ∀ a : Fin 2, sqs l a = (β / α) ^ 2 := by
    refine frame_multiple f r.det.ne' (fun i j => ?_) (fun a => ?_)
    · field_simp
    · rcases fin2_cases a with rfl | rfl
      · exact pow_pos (hp 0) 2
      · exact pow_pos (hp 1) 2
  have l0 : l 0 = β / α := by
    have : l 0 ^ 2 = (β / α) ^ 2 := hq 0
    exact (sq_eq_sq₀ (hp 0).le hρ.le).1 this
  have l1 : l 1 = β / α := by
    have : l 1 ^ 2 = (β / α) ^ 2 := hq 1
    exact (sq_eq_sq₀ (hp 1).le hρ.le).1 this
  have l2 : l 2 = 1 / (β / α) ^ 2 := by
    rw [hinc, l0, l1]; ring
  have s : ∀ c : Fin 3, l c = β / α → SaI (potOG terms) l c = sigOG terms (β / α) := by
    intro c hc
    have e := SaI_OG terms hp c
    rw [hc, l2] at e
    rw [sigOG, eq_comm, one_div, inv_mul_eq_iff_eq_mul₀ (by positivity)]
    rw [e]
    congr 1
    apply List.map_congr_left
    intro t _
    ring_nf
  have G := f.G a b
  rw [inv2_smul A ha.ne'] at G
  show SaI (potOG terms) l 0 * _ + SaI (potOG terms) l 1 * _ = _
  rw [s 0 l0, s 1 l1, ← mul_add, ← G]
  ring

/-- Pressure of the unit test from the stress coefficient. -/
theorem pressure_OG (terms : List (ℝ × ℝ)) {R t lam : ℝ} (hl : 0 < lam) :
    2 / R * (t * lam * sigOG terms lam) = lam ^ 2 * balloonOG terms R t lam := by
  have e : (terms.map fun a : ℝ × ℝ => a.1 * (lam ^ (a.2 - 3) - lam ^ (-2 * a.2 - 3))).sum
      = 1 / lam ^ 3 * (terms.map fun t => t.1 * (lam ^ t.2 - (1 / lam ^ 2) ^ t.2)).sum := by
    rw [sum_mul_terms]
    congr 1
    apply List.map_congr_left
    intro t _
    have e1 : lam ^ (t.2 - 3) = lam ^ t.2 / lam ^ 3 := by
      rw [Real.rpow_sub hl]; norm_cast
    have e2 : lam ^ (-2 * t.2 - 3) = (1 / lam ^ 2) ^ t.2 / lam ^ 3 := by
      rw [Real.rpow_sub hl, Real.rpow_mul hl.le]
      have : lam ^ (-2 : ℝ) = 1 / lam ^ 2 := rpow_neg_two hl
      rw [this]; norm_cast
    rw [e1, e2]; ring
  rw [balloonOG, e, sigOG]
  field_simp

theorem sig_NH_OG (mu : ℝ) {ρ : ℝ} (h : 0 < ρ) : sigNH mu ρ = sigOG [(mu, 2)] ρ := by
  simp only [sigNH, sigOG, List.map_cons, List.map_nil, List.sum_cons, List.sum_nil, Real.rpow_two]
  field_simp
  ring

theorem sig_MR_OG (c1 c2 : ℝ) {ρ : ℝ} (h : 0 < ρ) :
    sigMR c1 c2 ρ = sigOG [(c1, 2), (-c2, -2)] ρ := by
  have e : (1 / ρ ^ 2) ^ (-2 : ℝ) = ρ ^ 4 := by
    rw [rpow_neg_two (by positivity)]; field_simp
  simp only [sigMR, sigOG, List.map_cons, List.map_nil, List.sum_cons, List.sum_nil, Real.rpow_two, e,
    rpow_neg_two h]
  field_simp
  ring

end Verif.Balloon
