import Verif.Lemmas.PlateMode

/-! # Property C134: vibration and bending of rectangular plates -/

namespace Verif.Plate

open V3 Geometry Fields MeasureTheory Verif.Variation Verif.Balance Spec.Balloon Spec.Plate Verif.Balloon
open Verif.Integrate (Rule)

section
variable {a b : ℝ} {S : Surf → Section} {mass : ℝ}

/-- **C134** Modes of a plate: for uncoupled orthotropic moduli every Navier mode satisfies the weak form of
the vibration problem, for every displacement field that vanishes at the edges out of plane. -/
theorem C134_modes (hB : (S flatS).B = fun _ _ => 0) (hD : Uncoupled (S flatS).D) (ha : 0 < a) (hb : 0 < b)
    (hm : mass ≠ 0) (m n : ℕ) {v : ℝ × ℝ → V3} (hv : Supported a b v) :
    stiffForm plate S (rect a b) (mode a b m n) v
      = navier (S flatS).D a b m n / mass * massForm plate mass (rect a b) (mode a b m n) v := by
  rw [form_left _ hB (fun _ => rfl) (fun _ => rfl), mode_mass, ← mul_assoc, div_mul_cancel₀ _ hm]
  exact navier_left hD ha.le hb.le (sin_wave ha m) (sin_wave hb n) (contDiffOn_univ.1 hv.1.2.2) hv.2

/-- **C134** These are all modes with a deflection: a number is the eigenvalue of a displacement field with
a deflection exactly if it is one of Navier's. -/
theorem C134_spectrum (hB : (S flatS).B = fun _ _ => 0) (hC : (S flatS).C = fun _ _ => 0)
    (hD : Uncoupled (S flatS).D) (ha : 0 < a) (hb : 0 < b) (hm : mass ≠ 0) (lam : ℝ) :
    (∃ u, Supported a b u ∧ (∃ q ∈ rect a b, (u q).z ≠ 0) ∧ ∀ v, Pinned a b v →
      stiffForm plate S (rect a b) u v = lam * massForm plate mass (rect a b) u v) ↔
    ∃ m n : ℕ, 1 ≤ m ∧ 1 ≤ n ∧ lam = navier (S flatS).D a b m n / mass := by
  constructor
  · rintro ⟨u, hu, ⟨q, hq, hz⟩, h⟩
    by_contra hno
    push Not at hno
    refine hz (modes_complete ha hb (contDiffOn_univ.1 hu.1.2.2).continuous hu.2 (fun m n => ?_) q hq)
    rcases Nat.eq_zero_or_pos m with rfl | hm1
    · simp [ss]
    rcases Nat.eq_zero_or_pos n with rfl | hn1
    · simp [ss]
    have k := h _ (mode_pinned ha hb m n)
    rw [stiff_mode hC hD ha hb hu, mass_mode] at k
    have ne := hno m n hm1 hn1
    have : (navier (S flatS).D a b m n - lam * mass)
        * ∫ q in rect a b, ss (m * Real.pi / a) (n * Real.pi / b) q * (u q).z = 0 := by
      linear_combination k
    refine (mul_eq_zero.1 this).resolve_left fun e => ne ?_
    rw [eq_div_iff hm]
    linarith
  · rintro ⟨m, n, hm1, hn1, rfl⟩
    refine ⟨mode a b m n, (mode_pinned ha hb m n).supported, ⟨(a / (2 * m), b / (2 * n)), ⟨⟨?_, ?_⟩, ?_, ?_⟩, ?_⟩,
      fun v hv => C134_modes hB hD ha hb hm m n hv.supported⟩
    · positivity
    · have : (1 : ℝ) ≤ m := by exact_mod_cast hm1
      show a / (2 * m) ≤ a
      rw [div_le_iff₀ (by positivity)]
      nlinarith
    · positivity
    · have : (1 : ℝ) ≤ n := by exact_mod_cast hn1
      show b / (2 * n) ≤ b
      rw [div_le_iff₀ (by positivity)]
      nlinarith
    · have m0 : (m : ℝ) ≠ 0 := by positivity
      have n0 : (n : ℝ) ≠ 0 := by positivity
      have e1 : m * Real.pi / a * (a / (2 * m)) = Real.pi / 2 := by field_simp
      have e2 : n * Real.pi / b * (b / (2 * n)) = Real.pi / 2 := by field_simp
      simp only [mode]
      rw [e1, e2]; simp

/-- **C134** Bending under a sinusoidal load: Navier's deflection satisfies the weak form, and it is the
deflection of every solution. -/
theorem C134_static (hB : (S flatS).B = fun _ _ => 0) (hC : (S flatS).C = fun _ _ => 0)
    (hD : Uncoupled (S flatS).D) (ha : 0 < a) (hb : 0 < b)
    (h0 : ∀ m n : ℕ, 1 ≤ m → 1 ≤ n → navier (S flatS).D a b m n ≠ 0) (p : ℝ) {m n : ℕ} (hm : 1 ≤ m) (hn : 1 ≤ n) :
    (∀ v, Supported a b v → stiffForm plate S (rect a b)
        (fun q => (p / navier (S flatS).D a b m n) • mode a b m n q) v
      = loadForm plate (fun q => p • mode a b m n q) (rect a b) v) ∧
    ∀ u, Supported a b u → (∀ v, Pinned a b v → stiffForm plate S (rect a b) u v
        = loadForm plate (fun q => p • mode a b m n q) (rect a b) v) →
      ∀ q ∈ rect a b, (u q).z = p / navier (S flatS).D a b m n * (mode a b m n q).z := by
  set N := navier (S flatS).D a b m n with hN
  have sc : ∀ (c : ℝ) f, (fun q => ((c • mode a b m n q : V3)).z) = f →
      f = fun q => c * ss (m * Real.pi / a) (n * Real.pi / b) q := by
    intro c f h; rw [← h]; rfl
  have kapc : ∀ (c : ℝ) (g : ℝ × ℝ → ℝ) q, ContDiff ℝ 2 g →
      bend (S flatS).D (fun q => c * ss (m * Real.pi / a) (n * Real.pi / b) q) g q
        = c * bend (S flatS).D (ss (m * Real.pi / a) (n * Real.pi / b)) g q := by
    intro c g q _
    have pc : ∀ i (f : ℝ × ℝ → ℝ), Differentiable ℝ f → pd i (fun q => c * f q) = fun q => c * pd i f q := by
      intro i f hf
      funext q
      rw [pd_mul (differentiableAt_const c) (hf q), pd_const]; ring
    have hs := ss_smooth (m * Real.pi / a) (n * Real.pi / b)
    have d0 := (pd_cont (n := 1) hs 0).differentiable (by norm_num)
    have d1 := (pd_cont (n := 1) hs 1).differentiable (by norm_num)
    have d := hs.differentiable (by norm_num)
    simp only [bend, dotV, rowMul, kap, Fin.sum_univ_three, vec3_zero, vec3_one, vec3_two, pc _ _ d,
      pc _ _ d0, pc _ _ d1]
    ring
  have first : ∀ v, Supported a b v → stiffForm plate S (rect a b)
        (fun q => (p / N) • mode a b m n q) v = loadForm plate (fun q => p • mode a b m n q) (rect a b) v := by
    intro v hv
    rw [form_left _ hB (fun q => by simp [mode]) (fun q => by simp [mode]), load_eq,
      sc _ _ rfl]
    simp only [kapc _ _ _ (contDiffOn_univ.1 hv.1.2.2)]
    rw [integral_const_mul, navier_left hD ha.le hb.le (sin_wave ha m) (sin_wave hb n)
      (contDiffOn_univ.1 hv.1.2.2) hv.2]
    have e : ∫ q in rect a b, dot (v q) (p • mode a b m n q)
        = p * ∫ q in rect a b, ss (m * Real.pi / a) (n * Real.pi / b) q * (v q).z := by
      rw [← integral_const_mul]
      congr 1
      funext q
      simp only [mode, dot, ss, smul_x, smul_y, smul_z]
      ring
    rw [e, ← mul_assoc]
    congr 1
    exact div_mul_cancel₀ p (h0 m n hm hn)
  refine ⟨first, fun u hu h q hq => ?_⟩
  set s := ss (m * Real.pi / a) (n * Real.pi / b) with hs
  have hsS : Supported a b (fun q => (p / N) • mode a b m n q) := by
    refine ⟨⟨?_, ?_, ?_⟩, fun q hq => ?_⟩
    · show ContDiffOn ℝ (2 : ℕ) (fun q => (p / N) * 0) Set.univ
      exact contDiffOn_const
    · show ContDiffOn ℝ (2 : ℕ) (fun q => (p / N) * 0) Set.univ
      exact contDiffOn_const
    · show ContDiffOn ℝ (2 : ℕ) (fun q => (p / N) * s q) Set.univ
      exact (contDiffOn_const (c := p / N)).mul (ss_smooth _ _).contDiffOn
    · show p / N * s q = 0
      rw [hs, ss_edge ha hb m n q hq, mul_zero]
  have cu : Continuous fun q => (u q).z := (contDiffOn_univ.1 hu.1.2.2).continuous
  have cs : Continuous s := (ss_smooth _ _).continuous
  have key := modes_complete ha hb (f := fun q => (u q).z - p / N * s q) (by fun_prop) (fun q hq => by
    simp only [hu.2 q hq, hs, ss_edge ha hb m n q hq]; ring) (fun k l => ?_) q hq
  · have : (mode a b m n q).z = s q := rfl
    rw [this]; linarith
  · rcases Nat.eq_zero_or_pos k with rfl | hk
    · simp [ss]
    rcases Nat.eq_zero_or_pos l with rfl | hl
    · simp [ss]
    have k1 := h _ (mode_pinned ha hb k l)
    rw [← first _ (mode_pinned ha hb k l).supported, stiff_mode hC hD ha hb hu,
      stiff_mode hC hD ha hb hsS] at k1
    have k2 := mul_left_cancel₀ (h0 k l hk hl) k1
    have c' : Continuous (ss (k * Real.pi / a) (l * Real.pi / b)) := (ss_smooth _ _).continuous
    have i1 : IntegrableOn (fun q => ss (k * Real.pi / a) (l * Real.pi / b) q * (u q).z) (rect a b) :=
      rect_integrable (by fun_prop) a b
    have i2 : IntegrableOn (fun q => ss (k * Real.pi / a) (l * Real.pi / b) q * (p / N * s q)) (rect a b) :=
      rect_integrable (by fun_prop) a b
    simp only [mul_sub]
    rw [integral_sub i1 i2, k2]
    exact sub_self _

end

/-! ## The unit test -/

section
variable {E ν ρ t : ℝ}

/-- **C134** The linear isotropic material on the unit square: the eigenvalues of displacements with a
deflection are exactly the squares of the frequencies of the unit test, with Navier's modes. -/
theorem C134_isotropic (r : Rule) (hE : 0 < E) (h1 : -1 < ν) (h2 : ν < 1 / 2) (hρ : 0 < ρ) (ht : 0 < t) :
    (∀ (m n : ℕ) (v : ℝ × ℝ → V3), Supported 1 1 v →
      stiffForm plate (System.linearModuli r t E ν) (rect 1 1) (mode 1 1 m n) v
        = omega E ν ρ t m n ^ 2 * massForm plate (areaMass t ρ) (rect 1 1) (mode 1 1 m n) v) ∧
    ∀ lam : ℝ, (∃ u, Supported 1 1 u ∧ (∃ q ∈ rect 1 1, (u q).z ≠ 0) ∧ ∀ v, Pinned 1 1 v →
      stiffForm plate (System.linearModuli r t E ν) (rect 1 1) u v
        = lam * massForm plate (areaMass t ρ) (rect 1 1) u v) ↔
      ∃ m n : ℕ, 1 ≤ m ∧ 1 ≤ n ∧ lam = omega E ν ρ t m n ^ 2 := by
  have hl : ∀ i j, (System.linearModuli r t E ν flatS).D i j = t ^ 3 / 12 * iso E ν i j := by
    intro i j
    rw [System.linear_D, flat_linear hE.ne' (by linarith) (by linarith) (by linarith)]
  have hB : (System.linearModuli r t E ν flatS).B = fun _ _ => 0 := by
    funext i j; exact System.linear_B r t E ν flatS i j
  have hC : (System.linearModuli r t E ν flatS).C = fun _ _ => 0 := by
    funext i j; exact System.linear_C r t E ν flatS i j
  have hD : Uncoupled (System.linearModuli r t E ν flatS).D := by
    refine ⟨?_, ?_, ?_, ?_⟩ <;> rw [hl] <;> simp [iso]
  have hm : areaMass t ρ ≠ 0 := by unfold areaMass; positivity
  have nv : ∀ m n, navier (System.linearModuli r t E ν flatS).D 1 1 m n / areaMass t ρ
      = omega E ν ρ t m n ^ 2 := navier_iso hE h1 (by linarith) hρ ht hl
  refine ⟨fun m n v hv => ?_, fun lam => ?_⟩
  · rw [← nv]; exact C134_modes hB hD one_pos one_pos hm m n hv
  · rw [C134_spectrum hB hC hD one_pos one_pos hm lam]
    simp only [nv]

/-- **C134** (partial: layers of other materials at an angle are missing) The same for a laminate of isotropic layers of one material and density, whatever their number,
thicknesses and angles, with the total thickness. -/
theorem C134_laminate_partial (r : Rule) (t' : ℝ) (ls : List Composite.Layer) (hE : 0 < E) (h1 : -1 < ν) (h2 : ν < 1)
    (hρ : 0 < ρ) (hl : ∀ l ∈ ls, l.G = iso E ν ∧ l.ρ = ρ) (ht : 0 < (ls.map fun l => l.t).sum) :
    (∀ (m n : ℕ) (v : ℝ × ℝ → V3), Supported 1 1 v →
      stiffForm plate (System.laminateModuli r t' ls) (rect 1 1) (mode 1 1 m n) v
        = omega E ν ρ (ls.map fun l => l.t).sum m n ^ 2
          * massForm plate (Composite.mass ls) (rect 1 1) (mode 1 1 m n) v) ∧
    ∀ lam : ℝ, (∃ u, Supported 1 1 u ∧ (∃ q ∈ rect 1 1, (u q).z ≠ 0) ∧ ∀ v, Pinned 1 1 v →
      stiffForm plate (System.laminateModuli r t' ls) (rect 1 1) u v
        = lam * massForm plate (Composite.mass ls) (rect 1 1) u v) ↔
      ∃ m n : ℕ, 1 ≤ m ∧ 1 ≤ n ∧ lam = omega E ν ρ (ls.map fun l => l.t).sum m n ^ 2 := by
  obtain ⟨eB, eC, eD⟩ := flat_laminate r t' ls
  have hp : ∀ l ∈ ls, Composite.plyD l = iso E ν := by
    intro l hm
    obtain ⟨t, G, φ, d⟩ := l
    obtain ⟨h, -⟩ := hl _ hm
    simp only at h
    funext i j
    rw [h]
    exact Composite.C31_isotropic t d φ _ _ i j
  have hD' : ∀ i j, (System.laminateModuli r t' ls flatS).D i j
      = (ls.map fun l => l.t).sum ^ 3 / 12 * iso E ν i j := by
    intro i j
    rw [eD, abd_D hp]
    rfl
  have hB : (System.laminateModuli r t' ls flatS).B = fun _ _ => 0 := by
    funext i j; rw [eB, abd_B hp]
  have hC : (System.laminateModuli r t' ls flatS).C = fun _ _ => 0 := by
    funext i j; rw [eC, abd_C hp]
  have hD : Uncoupled (System.laminateModuli r t' ls flatS).D := by
    refine ⟨?_, ?_, ?_, ?_⟩ <;> rw [hD'] <;> simp [iso]
  have hmass : Composite.mass ls = (ls.map fun l => l.t).sum * ρ := by
    rw [Composite.mass_eq]
    have : ∀ xs : List Composite.Layer, (∀ l ∈ xs, l.ρ = ρ) →
        (xs.map fun l => l.t * l.ρ).sum = (xs.map fun l => l.t).sum * ρ := by
      intro xs
      induction xs with
      | nil => simp
      | cons x xs ih =>
        intro h
        rw [List.map_cons, List.sum_cons, List.map_cons, List.sum_cons, ih fun l hl => h l (List.mem_cons_of_mem _ hl),
          h x List.mem_cons_self]
        ring
    exact this ls fun l h => (hl l h).2
  have hm : Composite.mass ls ≠ 0 := by rw [hmass]; positivity
  have nv : ∀ m n, navier (System.laminateModuli r t' ls flatS).D 1 1 m n / Composite.mass ls
      = omega E ν ρ (ls.map fun l => l.t).sum m n ^ 2 := by
    intro m n
    rw [hmass]; exact navier_iso hE h1 h2 hρ ht hD' m n
  refine ⟨fun m n v hv => ?_, fun lam => ?_⟩
  · rw [← nv]; exact C134_modes hB hD one_pos one_pos hm m n hv
  · rw [C134_spectrum hB hC hD one_pos one_pos hm lam]
    simp only [nv]

end

/-- A steel plate, and a laminate of two layers at different angles. -/
example (r : Rule) : ∃ u, Supported 1 1 u ∧ (∃ q ∈ rect 1 1, (u q).z ≠ 0) ∧ ∀ v, Pinned 1 1 v →
    stiffForm plate (System.linearModuli r (1 / 100) 100000 (3 / 10)) (rect 1 1) u v
      = omega 100000 (3 / 10) 1 (1 / 100) 2 3 ^ 2 * massForm plate (areaMass (1 / 100) 1) (rect 1 1) u v :=
  ((C134_isotropic (ρ := 1) r (by norm_num) (by norm_num) (by norm_num) one_pos (by norm_num)).2 _).2
    ⟨2, 3, by norm_num, by norm_num, rfl⟩

example : (∀ l ∈ [(⟨1, iso 2 (1 / 4), 0, 3⟩ : Composite.Layer), ⟨2, iso 2 (1 / 4), 1, 3⟩],
      l.G = iso 2 (1 / 4) ∧ l.ρ = 3) ∧
    0 < ([(⟨1, iso 2 (1 / 4), 0, 3⟩ : Composite.Layer), ⟨2, iso 2 (1 / 4), 1, 3⟩].map fun l => l.t).sum := by
  refine ⟨fun l hl => ?_, by norm_num⟩
  simp only [List.mem_cons, List.not_mem_nil, or_false] at hl
  rcases hl with rfl | rfl <;> exact ⟨rfl, rfl⟩

/-- Moduli of an orthotropic plate, with a deflection under load. -/
example : Uncoupled (mk3 2 (1 / 2) 0 (1 / 2) 1 0 0 0 (1 / 4)) ∧
    ∀ m n : ℕ, 1 ≤ m → 1 ≤ n → navier (mk3 2 (1 / 2) 0 (1 / 2) 1 0 0 0 (1 / 4)) 1 2 m n ≠ 0 := by
  refine ⟨by simp [Uncoupled], fun m n hm hn => ?_⟩
  have := Real.pi_pos
  simp only [navier, mk3_zero, mk3_one, mk3_two, vec3_zero, vec3_one, vec3_two]
  positivity

/-! ## Layers at an angle -/

/-- **C134** Layers at an angle couple bending and twisting: the first Navier mode is then no mode of the
plate, for any frequency. -/
theorem C134_angle_violated (r : Rule) (t lam : ℝ) : ∃ v, Pinned 1 1 v ∧
    stiffForm plate (System.laminateModuli r t [diagonal]) (rect 1 1) (mode 1 1 1 1) v
      ≠ lam * massForm plate (Composite.mass [diagonal]) (rect 1 1) (mode 1 1 1 1) v := by
  obtain ⟨eB, -, eD⟩ := flat_laminate r t [diagonal]
  refine ⟨mode 1 1 2 2, mode_pinned one_pos one_pos 2 2, ?_⟩
  rw [form_left _ (by rw [eB]; funext i j; exact abd_B (G := Composite.plyD diagonal) (by simp) i j)
    (fun _ => rfl) (fun _ => rfl), eD, diagonal_D, mode_mass]
  have e1 : (fun q => (mode 1 1 1 1 q).z) = ss Real.pi Real.pi := by funext q; simp [mode, ss]
  have e2 : (fun q => (mode 1 1 2 2 q).z) = ss (2 * Real.pi) (2 * Real.pi) := by funext q; simp [mode, ss]
  have p1 := rect_prod (g := fun x => Real.sin (Real.pi * x) * Real.sin (2 * Real.pi * x))
    (h := fun x => Real.sin (Real.pi * x) * Real.sin (2 * Real.pi * x)) (by fun_prop) (by fun_prop)
  rw [int_ss] at p1
  have m0 : ∫ q in rect 1 1, ss ((1 : ℕ) * Real.pi / 1) ((1 : ℕ) * Real.pi / 1) q * (mode 1 1 2 2 q).z = 0 := by
    rw [mul_zero] at p1
    rw [← p1]
    congr 1
    funext q
    simp [ss, mode]
    ring
  rw [m0, e1, e2]
  rw [diagonal_mixed, mul_zero, mul_zero]
  have := Real.pi_pos
  exact ne_of_lt (by nlinarith [sq_pos_of_pos this])

end Verif.Plate
