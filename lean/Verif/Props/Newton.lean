import Verif.Lemmas.Newton
import Verif.Props.HyperCompressible
import Verif.Props.HyperReference

/-! # Properties C52, C54 – C56: thickness stretch and its users -/

namespace Verif.Newton

open Verif.Hyper Verif.Geometry Spec.Hyper

/-! ## C52 -/

/-- **C52** Whatever the material law: a returned stretch is the first Newton iterate (of at
most `itmax`) whose next increment is below the tolerance, and stress and stiffness of that
test are evaluated at the returned stretch. -/
theorem C52_return (S T : ℝ → ℝ) (J0 x : ℝ) (h : c33 S T J0 = .ok x) :
    x ≠ 0 ∧ T x ≠ 0 ∧ |(-2) * S x / T x| < 1 / 10 ^ 10 ∧
    ∃ k, 1 ≤ k ∧ k ≤ 100 ∧ x = (fun c => c + -2 * S c / T c)^[k] (1 / J0) ∧
      ∀ m, 1 ≤ m → m < k →
        1 / 10 ^ 10 ≤ |(-2) * S ((fun c => c + -2 * S c / T c)^[m] (1 / J0))
          / T ((fun c => c + -2 * S c / T c)^[m] (1 / J0))| := by
  unfold c33 at h
  split_ifs at h with h1
  obtain ⟨k, a, b, hx, hx0, hT, hs, hall⟩ := loop_ok h
  exact ⟨hx0, hT, hs, k, a, b, hx, hall⟩

/-- **C52** Otherwise: if the error is reported, none of the iterates passed the test; the
only other outcome is a division by zero in the start value or in an iterate. -/
theorem C52_otherwise (S T : ℝ → ℝ) (J0 : ℝ) :
    (c33 S T J0 = .throws → ∀ m, 1 ≤ m → m ≤ 100 →
      1 / 10 ^ 10 ≤ |(-2) * S ((fun c => c + -2 * S c / T c)^[m] (1 / J0))
        / T ((fun c => c + -2 * S c / T c)^[m] (1 / J0))|) ∧
    (c33 S T J0 = .ub → J0 = 0 ∨ ∃ m, m ≤ 100 ∧
      ((fun c => c + -2 * S c / T c)^[m] (1 / J0) = 0 ∨
        T ((fun c => c + -2 * S c / T c)^[m] (1 / J0)) = 0)) := by
  constructor
  · intro h
    unfold c33 at h
    split_ifs at h
    exact loop_throws h
  · intro h
    unfold c33 at h
    split_ifs at h with h1
    · rcases h1 with h1 | h1
      · exact Or.inl h1
      · exact Or.inr ⟨0, by omega, Or.inr h1⟩
    · obtain ⟨m, _, b, hm⟩ := loop_ub h
      exact Or.inr ⟨m, b, hm⟩

/-- **C52** The step is the exact Newton step for the three analytical models: `C3333` is
twice the derivative of `S33` with respect to the thickness stretch. -/
theorem C52_exact (p : Par) (A C : T2) (hA : 0 < det2 A) (hsA : A 0 1 = A 1 0)
    (hC : 0 < det2 C) (hsC : C 0 1 = C 1 0) (c : ℝ) (hc : 0 < c) :
    HasDerivAt (fun c => sNHc p (cdata (data A C) c) 2 2)
      (1 / 2 * cNHc p (cdata (data A C) c) 2 2 2 2) c ∧
    HasDerivAt (fun c => sMRc p (cdata (data A C) c) 2 2)
      (1 / 2 * cMRc p (cdata (data A C) c) 2 2 2 2) c ∧
    HasDerivAt (fun c => sNHe p (cdata (data A C) c) 2 2)
      (1 / 2 * cNHe p (cdata (data A C) c) 2 2 2 2) c := by
  have hcurve : Curve (fun _ => C) (fun _ _ => 0) c :=
    ⟨fun i j => hasDerivAt_const _ _, hsC, rfl⟩
  have key : ∀ S T, IsTangent A S T → HasDerivAt (fun c => S (cdata (data A C) c) 2 2)
      (1 / 2 * T (cdata (data A C) c) 2 2 2 2) c := by
    intro S T h
    have := (h (fun _ => C) id (fun _ _ => 0) 1 c hcurve (hasDerivAt_id c) hC hc).2
    simpa [rate] using this
  exact ⟨key _ _ (C50_NH p A hA hsA), key _ _ (C50_MR p A hA hsA), key _ _ (C50_NHext p A hA)⟩

/-- **C52** At the reference configuration the iteration returns exactly 1, for all three
models with non-zero transverse stiffness `λ + 2μ`. -/
theorem C52_reference (p : Par) (A : T2) (hA : det2 A ≠ 0) (hs : A 0 1 = A 1 0)
    (s : CData → Fin 3 → Fin 3 → ℝ) (t : CData → Fin 3 → Fin 3 → Fin 3 → Fin 3 → ℝ)
    (hst : (s = sNHc p ∧ t = cNHc p) ∨ (s = sMRc p ∧ t = cMRc p) ∨ (s = sNHe p ∧ t = cNHe p))
    (ht : t (cdata (data A A) 1) 2 2 2 2 ≠ 0) :
    c33Of s t (data A A) = .ok 1 := by
  have h0 : s (cdata (data A A) 1) 2 2 = 0 := by
    obtain ⟨h1, h2, h3⟩ := C46_compressible p A hA hs 2 2 (Or.inr ⟨rfl, rfl⟩)
    rcases hst with ⟨rfl, -⟩ | ⟨rfl, -⟩ | ⟨rfl, -⟩
    · exact h1
    · exact h2
    · exact h3
  have hJ := data_self_J0 A hA
  have hstep : step (fun c => s (cdata (data A A) c) 2 2)
      (fun c => t (cdata (data A A) c) 2 2 2 2) 1 = 0 := by
    simp [step, h0]
  unfold c33Of c33
  rw [hJ, one_div_one, if_neg (by push Not; exact ⟨one_ne_zero, ht⟩), hstep,
    show itmax = 99 + 1 from rfl, loop_succ, add_zero, hstep,
    if_neg (by push Not; exact ⟨one_ne_zero, ht⟩), if_pos (by rw [abs_zero]; exact tol_pos)]

/-- **C52** Extended neo-Hookean material: convergence.  `a` and `b` are the coefficients of
`S33 = a - b/c`; if the relative error of the start value is at most one half, the iteration
returns a positive stretch within twice the tolerance of the stress-free one, `b/a`. -/
theorem C52_NHext_converges (p : Par) (A C : T2) (hJ : (data A C).J0 ≠ 0)
    (ha : 0 < p.mu + p.lam * (data A C).J0 / 2) (hb : 0 < p.mu + p.lam / 2)
    (he : |1 - (p.mu + p.lam * (data A C).J0 / 2) / (p.mu + p.lam / 2) * (1 / (data A C).J0)|
      ≤ 1 / 2)
    (hab : (p.mu + p.lam / 2) / (p.mu + p.lam * (data A C).J0 / 2) ≤ 10 ^ 6) :
    ∃ x, c33Of (sNHe p) (cNHe p) (data A C) = .ok x ∧ 0 < x ∧
      |x - (p.mu + p.lam / 2) / (p.mu + p.lam * (data A C).J0 / 2)| ≤ 2 * (1 / 10 ^ 10) ∧
      sNHe p (cdata (data A C)
        ((p.mu + p.lam / 2) / (p.mu + p.lam * (data A C).J0 / 2))) 2 2 = 0 := by
  obtain ⟨x, h1, h2, h3⟩ := c33_converges ha hb hJ (fun c hc => NHe_S p A C hc)
    (fun c hc => NHe_T p A C hc) he hab
  refine ⟨x, h1, h2, h3, ?_⟩
  rw [NHe_S p A C (div_pos hb ha).ne', div_div_cancel₀ hb.ne', sub_self]

/-- Non-vacuity: shear modulus 1, first Lamé constant 2, area ratio squared 2; the start
value has relative error 1/4. -/
example : ∃ x, c33Of (sNHe ⟨8 / 3, 1 / 3, 1⟩) (cNHe ⟨8 / 3, 1 / 3, 1⟩)
    (data ![![1, 0], ![0, 1]] ![![2, 0], ![0, 1]]) = .ok x ∧ |x - 2 / 3| ≤ 2 * (1 / 10 ^ 10) := by
  have hmu : Par.mu ⟨8 / 3, 1 / 3, 1⟩ = 1 := by simp only [Par.mu]; norm_num
  have hlam : Par.lam ⟨8 / 3, 1 / 3, 1⟩ = 2 := by simp only [Par.lam]; norm_num
  have hJ : (data ![![1, 0], ![0, 1]] ![![2, 0], ![0, 1]]).J0 = 2 := by simp [data, det2]
  obtain ⟨x, h1, _, h3, _⟩ := C52_NHext_converges ⟨8 / 3, 1 / 3, 1⟩ ![![1, 0], ![0, 1]]
    ![![2, 0], ![0, 1]] (by rw [hJ]; norm_num) (by rw [hmu, hlam, hJ]; norm_num)
    (by rw [hmu, hlam]; norm_num)
    (by
      rw [hmu, hlam, hJ, show (1 : ℝ) - (1 + 2 * 2 / 2) / (1 + 2 / 2) * (1 / 2) = 1 / 4 by
        norm_num, abs_of_pos (by norm_num)]
      norm_num)
    (by rw [hmu, hlam, hJ]; norm_num)
  refine ⟨x, h1, ?_⟩
  rw [hmu, hlam, hJ] at h3
  rw [show (2 : ℝ) / 3 = (1 + 2 / 2) / (1 + 2 * 2 / 2) by norm_num]
  exact h3

/-- The law of the extended neo-Hookean material with `μ = 1`, `λ = 0`. -/
theorem nhe_iter (A C : T2) {c : ℝ} (hc : c ≠ 0) :
    step (fun c => sNHe ⟨2, 0, 1⟩ (cdata (data A C) c) 2 2)
      (fun c => cNHe ⟨2, 0, 1⟩ (cdata (data A C) c) 2 2 2 2) c = c - c ^ 2 := by
  have hmu : Par.mu ⟨2, 0, 1⟩ = 1 := by simp [Par.mu]
  have hlam : Par.lam ⟨2, 0, 1⟩ = 0 := by simp [Par.lam]
  rw [step_eq (a := 1) (b := 1) one_ne_zero
    (fun c hc => by rw [NHe_S _ A C hc, hmu, hlam]; ring)
    (fun c hc => by rw [NHe_T _ A C hc, hmu, hlam]; ring) hc]
  ring

/-- **C52** The returned stretch need not be positive and the normal stress at it need not be
small: for `μ = 1`, `λ = 0` and a compressed state the iteration returns `-5·10⁻¹¹`, where the
normal stress exceeds `10¹⁰`.  The test is on the scaled increment, which vanishes at a zero
stretch as well. -/
theorem C52_positive_violated :
    ∃ (J : ℝ), 0 < J ∧ ∃ x, c33Of (sNHe ⟨2, 0, 1⟩) (cNHe ⟨2, 0, 1⟩)
        (data ![![1, 0], ![0, 1]] ![![J, 0], ![0, 1]]) = .ok x ∧ x < 0 ∧
      10 ^ 10 < |sNHe ⟨2, 0, 1⟩ (cdata (data ![![1, 0], ![0, 1]] ![![J, 0], ![0, 1]]) x) 2 2| := by
  set r := Real.sqrt (1 + 5 / 10 ^ 11) with hr
  have hr2 : r ^ 2 = 1 + 5 / 10 ^ 11 := Real.sq_sqrt (by positivity)
  have hr0 : 0 ≤ r := Real.sqrt_nonneg _
  have hJ : (data ![![1, 0], ![0, 1]] ![![1 / (1 + r), 0], ![0, 1]]).J0 = 1 / (1 + r) := by
    simp [data, det2]
  have hc0 : (1 + r) ≠ 0 := by positivity
  have hmu : Par.mu ⟨2, 0, 1⟩ = 1 := by simp [Par.mu]
  have hlam : Par.lam ⟨2, 0, 1⟩ = 0 := by simp [Par.lam]
  refine ⟨1 / (1 + r), by positivity, -5 / 10 ^ 11, ?_, by norm_num, ?_⟩
  · unfold c33Of c33
    rw [hJ, one_div_one_div, if_neg]
    · rw [show itmax = 99 + 1 from rfl, loop_succ, nhe_iter _ _ hc0,
        show (1 + r) + ((1 + r) - (1 + r) ^ 2) = -5 / 10 ^ 11 by linear_combination (-1) * hr2,
        nhe_iter _ _ (by norm_num), NHe_T _ _ _ (by norm_num), hmu, hlam, if_neg, if_pos]
      · rw [abs_lt]; unfold tol; constructor <;> norm_num
      · norm_num
    · dsimp only
      rw [NHe_T _ _ _ hc0, hmu, hlam]
      push Not
      constructor
      · positivity
      · positivity
  · rw [NHe_S _ _ _ (by norm_num), hmu, hlam, lt_abs]
    left
    norm_num

/-- **C52** The iteration may miss an existing plane-stress state: for `μ = 1`, `λ = 0` and
area ratio squared one half, the stretch 1 is stress free, but the first iterate is zero and
the iteration divides by it (floating-point arithmetic continues with NaN and ends in the
error "did not converge"). -/
theorem C52_misses_state :
    sNHe ⟨2, 0, 1⟩ (cdata (data ![![1, 0], ![0, 1]] ![![1 / 2, 0], ![0, 1]]) 1) 2 2 = 0 ∧
    c33Of (sNHe ⟨2, 0, 1⟩) (cNHe ⟨2, 0, 1⟩)
      (data ![![1, 0], ![0, 1]] ![![1 / 2, 0], ![0, 1]]) = .ub := by
  have hJ : (data ![![1, 0], ![0, 1]] ![![1 / 2, 0], ![0, 1]]).J0 = 1 / 2 := by
    simp [data, det2]
  have hmu : Par.mu ⟨2, 0, 1⟩ = 1 := by simp [Par.mu]
  have hlam : Par.lam ⟨2, 0, 1⟩ = 0 := by simp [Par.lam]
  constructor
  · rw [NHe_S _ _ _ one_ne_zero, hmu, hlam]; norm_num
  · unfold c33Of c33
    rw [hJ, one_div_one_div, if_neg]
    · rw [show itmax = 99 + 1 from rfl, loop_succ, nhe_iter _ _ two_ne_zero, if_pos]
      left; norm_num
    · dsimp only
      rw [NHe_T _ _ _ two_ne_zero, hmu, hlam]; norm_num

/-! ## C54 -/

/-- **C54** The Cauchy stress of every compressible material is reported as zero, whatever
the stress. -/
theorem C54_violated (S : Voigt) (J0 c : ℝ) : cauchy S J0 c = fun _ => 0 := rfl

/-- **C54** A concrete case: unit stress, unit Jacobian, the Cauchy stress is the stress
itself but zero is returned. -/
theorem C54_witness_violated :
    cauchy (vec3 1 0 0) 1 1 ≠ fun i => (vec3 1 0 0 : Voigt) i / Real.sqrt (1 * 1) := by
  intro h
  have := congrFun h 0
  simp [cauchy, cauchyLocals] at this

/-- **C54** Partial: the discarded local variable holds the right values; incompressible
materials (unit Jacobian) report the right stress.  Missing: that compressible materials
return the computed values. -/
theorem C54_partial (S : Voigt) (J0 c : ℝ) (i : Fin 3) :
    (cauchyLocals S J0 c).1 i = S i / Real.sqrt (J0 * c) ∧ cauchyInc S i = S i / 1 := by
  exact ⟨rfl, by simp [cauchyInc]⟩

example : (cauchyLocals (vec3 2 0 0) 4 1).1 0 = 1 := by
  rw [(C54_partial _ _ _ _).1, vec3_zero, show (4 : ℝ) * 1 = 2 ^ 2 by norm_num,
    Real.sqrt_sq (by norm_num)]
  norm_num

/-! ## C55 -/

/-- **C55** Partial: with a single height the principal stretch uses the thickness stretch of
its own point; the stress evaluation does so for every number of heights.  Missing: the
principal stretches at further heights. -/
theorem C55_partial {α : Type} (n : ℕ) (value : ℕ → ℕ → α) (k j : ℕ) (hk : k < n) :
    readPstretch (c33Row n value) k 0 = value k 0 ∧
    readStress n (c33Row n value) k j = value k j := by
  have h0 : 0 < n := by omega
  constructor
  · simp [readPstretch, c33Row, Nat.mod_eq_of_lt hk, Nat.div_eq_of_lt hk]
  · have h1 : (j * n + k) % n = k := by
      rw [Nat.add_comm, Nat.add_mul_mod_self_right, Nat.mod_eq_of_lt hk]
    have h2 : (j * n + k) / n = j := by
      rw [Nat.add_comm, Nat.add_mul_div_right _ _ h0, Nat.div_eq_of_lt hk, Nat.zero_add]
    simp [readStress, c33Row, h1, h2]

/-- **C55** At every height the principal stretch of the first height is used. -/
theorem C55_first_height_violated (n : ℕ) (value : ℕ → ℕ → Outcome ℝ) (k j : ℕ) (hk : k < n) :
    pstretch3 n value k j = (value k 0).map Real.sqrt := by
  unfold pstretch3
  rw [show readPstretch (c33Row n value) k j = readPstretch (c33Row n value) k 0 from rfl,
    (C55_partial n value k 0 hk).1]

/-- **C55** Concrete material and states: one point, the first height undeformed, the second
stretched in one direction.  The thickness stretch of the second height is near `√(2/3)`, but
1 is reported. -/
theorem C55_violated :
    let value : ℕ → ℕ → Outcome ℝ := fun _ j =>
      c33Of (sNHe ⟨8 / 3, 1 / 3, 1⟩) (cNHe ⟨8 / 3, 1 / 3, 1⟩)
        (data ![![1, 0], ![0, 1]] (if j = 0 then ![![1, 0], ![0, 1]] else ![![2, 0], ![0, 1]]))
    pstretch3 1 value 0 1 = .ok 1 ∧ ∃ x, value 0 1 = .ok x ∧ x < 7 / 10 := by
  intro value
  have hmu : Par.mu ⟨8 / 3, 1 / 3, 1⟩ = 1 := by simp only [Par.mu]; norm_num
  have hlam : Par.lam ⟨8 / 3, 1 / 3, 1⟩ = 2 := by simp only [Par.lam]; norm_num
  constructor
  · rw [C55_first_height_violated 1 value 0 1 (by omega)]
    have : value 0 0 = .ok 1 := by
      simp only [value, if_true]
      apply C52_reference ⟨8 / 3, 1 / 3, 1⟩ _ (by simp [det2]) (by simp) _ _
        (Or.inr (Or.inr ⟨rfl, rfl⟩))
      rw [NHe_T _ _ _ one_ne_zero, hmu, hlam]; norm_num
    rw [this]
    simp [Outcome.map]
  · have hJ : (data ![![1, 0], ![0, 1]] ![![2, 0], ![0, 1]]).J0 = 2 := by simp [data, det2]
    obtain ⟨x, h1, _, h3, _⟩ := C52_NHext_converges ⟨8 / 3, 1 / 3, 1⟩ ![![1, 0], ![0, 1]]
      ![![2, 0], ![0, 1]] (by rw [hJ]; norm_num) (by rw [hmu, hlam, hJ]; norm_num)
      (by rw [hmu, hlam]; norm_num)
      (by
        rw [hmu, hlam, hJ, show (1 : ℝ) - (1 + 2 * 2 / 2) / (1 + 2 / 2) * (1 / 2) = 1 / 4 by
          norm_num, abs_of_pos (by norm_num)]
        norm_num)
      (by rw [hmu, hlam, hJ]; norm_num)
    refine ⟨x, ?_, ?_⟩
    · simpa [value] using h1
    · rw [hmu, hlam, hJ, abs_le] at h3
      norm_num at h3 ⊢
      linarith

/-! ## C56 -/

/-- **C56** Partial: for deformations without shear the derivative of the tangent is taken at
the current deformation.  Missing: deformations with shear. -/
theorem C56_partial {α : Type} (tangent : T2 → α) (C : T2) (h01 : C 0 1 = 0) (h10 : C 1 0 = 0) :
    cfun tangent (cVoigt C) = tangent C := by
  unfold cfun
  congr 1
  funext i j
  rcases fin2_cases i with rfl | rfl <;> rcases fin2_cases j with rfl | rfl <;>
    simp [metricOfVoigt, cfunArg, cVoigt, h01, h10]

/-- **C56** In general the shear component is halved. -/
theorem C56_halved_violated {α : Type} (tangent : T2 → α) (C : T2) :
    cfun tangent (cVoigt C) = tangent ![![C 0 0, C 0 1 / 2], ![C 0 1 / 2, C 1 1]] := by
  unfold cfun
  congr 1
  funext i j
  rcases fin2_cases i with rfl | rfl <;> rcases fin2_cases j with rfl | rfl <;>
    simp [metricOfVoigt, cfunArg, cVoigt] <;> ring

/-- **C56** Concrete witness: at a sheared deformation the Mooney–Rivlin tangent at the point
of differentiation differs from the tangent at the deformation. -/
theorem C56_violated :
    cfun (fun C => cMR ⟨3, 1 / 2, 1⟩ (data ![![1, 0], ![0, 1]] C) 0 0 0 0)
        (cVoigt ![![2, 1], ![1, 2]])
      ≠ cMR ⟨3, 1 / 2, 1⟩ (data ![![1, 0], ![0, 1]] ![![2, 1], ![1, 2]]) 0 0 0 0 := by
  rw [C56_halved_violated]
  simp [cMR, data, traceCt, inv2, det2, Par.c1, Par.c2, Par.mu, embed]
  norm_num

example : (![![2, 0], ![0, 3]] : T2) 0 1 = 0 := by simp

end Verif.Newton
