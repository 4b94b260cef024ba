import Verif.Lemmas.BucklingProgram
import Verif.Props.ShellSystem

/-! # Property C167: the linear buckling analysis -/

namespace Verif.BucklingProgram

open RealInnerProductSpace Spec.BucklingProgram Filter Topology

section Pencil

variable {V : Type} [NormedAddCommGroup V] [InnerProductSpace ℝ V] [FiniteDimensional ℝ V] {n : ℕ}
  {K0 Kd : V →L[ℝ] V} {vec vec' : Fin n → V} {val val' : Fin n → ℝ}

/-- **C167** With Spectra: the loads that make the structure lose its stiffness are exactly minus the
returned values times the load, and it resists every displacement up to the first of them. -/
theorem C167_spectra (h : Shifted K0 Kd vec val) (hK : Stiff K0) :
    (∀ i, 0 < val i) ∧ (∀ s, Critical K0 Kd s ↔ ∃ i, s = -val i) ∧
    ∀ hn : 0 < n, ∀ s, Stable K0 Kd s ↔ -val ⟨0, hn⟩ < s := by
  have hp := shifted_pos h hK
  have hd := shifted_dense h hK
  refine ⟨hp, fun s => ?_, fun hn s => ?_⟩
  · rw [dense_critical hd]
    constructor
    · rintro ⟨i, hi⟩
      refine ⟨Fin.rev i, ?_⟩
      have := (hp (Fin.rev i)).ne'
      field_simp at hi
      linarith
    · rintro ⟨i, rfl⟩
      refine ⟨Fin.rev i, ?_⟩
      have := (hp i).ne'
      rw [Fin.rev_rev]
      field_simp
      ring
  · rw [dense_stable hd]
    have key : ∀ i, 0 < 1 + s * (1 / val (Fin.rev i)) ↔ -val (Fin.rev i) < s := fun i => by
      have h0 := hp (Fin.rev i)
      rw [show 1 + s * (1 / val (Fin.rev i)) = (val (Fin.rev i) + s) / val (Fin.rev i) by field_simp,
        div_pos_iff_of_pos_right h0]
      constructor <;> intro g <;> linarith
    constructor
    · intro g
      have := (key _).1 (g (Fin.rev ⟨0, hn⟩))
      rwa [Fin.rev_rev] at this
    · intro g i
      refine (key i).2 ?_
      have := h.sorted ⟨0, hn⟩ (Fin.rev i) (Nat.zero_le _)
      rw [abs_of_pos (hp _), abs_of_pos (hp _)] at this
      linarith

/-- **C167** (partial: without Spectra the reciprocals are missing.)  Without Spectra: the load factors at which the
structure loses its stiffness are minus the reciprocals of the returned values. -/
theorem C167_dense_partial (h : Dense Kd K0 vec val) :
    (∀ s, Critical K0 Kd s ↔ ∃ i, 1 + s * val i = 0) ∧ ∀ s, Stable K0 Kd s ↔ ∀ i, 0 < 1 + s * val i :=
  ⟨dense_critical h, dense_stable h⟩

/-- **C167** The two builds of the program: the values of the one are the reciprocals of the values of the other, in
reverse order. -/
theorem C167_reciprocal (h : Shifted K0 Kd vec val) (h' : Dense Kd K0 vec' val') (m : Fin n) :
    val m * val' (Fin.rev m) = 1 := by
  have hK : Stiff K0 := stiff_of h'.dim h'.orth
  have e := congrFun (dense_unique (shifted_dense h hK) h') (Fin.rev m)
  rw [e, Fin.rev_rev]
  exact mul_one_div_cancel (shifted_pos h hK m).ne'

/-- **C167** The values do not depend on which eigenvectors the solver finds. -/
theorem C167_unique {spectra : Bool} {m : Fin n} {lam lam' : ℝ} (hK : Stiff K0)
    (h : Returns spectra K0 Kd m lam) (h' : Returns spectra K0 Kd m lam') : lam = lam' := by
  obtain ⟨vec, val, h, rfl⟩ := h
  obtain ⟨vec', val', h', rfl⟩ := h'
  cases spectra with
  | false =>
    simp only [Bool.false_eq_true, if_false] at h h'
    rw [dense_unique h' h]
  | true =>
    simp only [if_true] at h h'
    have e := congrFun (dense_unique (shifted_dense h' hK) (shifted_dense h hK)) (Fin.rev m)
    simpa using e

/-- **C167** The values grow with the geometric stiffness: if the second load stiffens every displacement at most as
much as the first one does plus `ε` times the linear stiffness, no value grows by more than `ε`. -/
theorem C167_weyl {Kd' : V →L[ℝ] V} {ε : ℝ} (h : Dense Kd K0 vec val) (h' : Dense Kd' K0 vec' val')
    (hA : ∀ v, ⟪Kd' v, v⟫ ≤ ⟪Kd v, v⟫ + ε * ⟪K0 v, v⟫) (i : Fin n) : val' i ≤ val i + ε :=
  weyl h h' hA i

end Pencil

/-! ## Shells under loads that tend to zero -/

section Shell

open ShellSystem Spec.ShellSystem Verif.Integrate

variable {J κ : Type} [Fintype J] (P : Problem J κ) (r : Rule) (E ν t : κ → ℝ) {n : ℕ}

/-- **C167** The load that the program takes: let `c l` be the displacements at `l` times the load, up to the square of
`l` those of the linear problem.  As the load tends to zero, the loads predicted to be critical tend to those that
belong to the rate at which the stiffness changes with the load.  So the linear solution (the program) and the true
equilibrium (C149) predict the same. -/
theorem C167_load (h0 : (0 : EuclideanSpace ℝ J) ∈ Admissible P) (xl : EuclideanSpace ℝ J) :
    ∃ G, ∀ c : ℝ → EuclideanSpace ℝ J, (∃ C, ∀ᶠ l in 𝓝 0, ‖c l - l • xl‖ ≤ C * l ^ 2) →
      HasDerivAt (fun l => tangent P (linear P r E ν t) (c l)) G 0 ∧
      ∀ (vec : ℝ → Fin n → EuclideanSpace ℝ J) (val : ℝ → Fin n → ℝ) (vec0 : Fin n → EuclideanSpace ℝ J)
        (val0 : Fin n → ℝ) (m : Fin n),
      ((∀ᶠ l in 𝓝[>] 0, Dense (tangent P (linear P r E ν t) (c l) - tangent P (linear P r E ν t) 0)
          (tangent P (linear P r E ν t) 0) (vec l) (val l)) →
        Dense G (tangent P (linear P r E ν t) 0) vec0 val0 →
        Tendsto (fun l => val l m / l) (𝓝[>] 0) (𝓝 (val0 m))) ∧
      (Stiff (tangent P (linear P r E ν t) 0) →
        (∀ᶠ l in 𝓝[>] 0, Shifted (tangent P (linear P r E ν t) 0)
          (tangent P (linear P r E ν t) (c l) - tangent P (linear P r E ν t) 0) (vec l) (val l)) →
        Shifted (tangent P (linear P r E ν t) 0) G vec0 val0 →
        Tendsto (fun l => val l m * l) (𝓝[>] 0) (𝓝 (val0 m))) := by
  obtain ⟨h1, h2⟩ := near P r E ν t h0
  obtain ⟨G, hG⟩ := path_deriv h2 h1 xl
  refine ⟨G, fun c ⟨C, hc⟩ => ?_⟩
  have c0 : c 0 = 0 := by
    have := hc.self_of_nhds
    simpa using this
  have cd : HasDerivAt c xl 0 := by
    rw [hasDerivAt_iff_isLittleO]
    have hO : (fun l : ℝ => c l - c 0 - (l - 0) • xl) =O[𝓝 0] fun l : ℝ => l ^ 2 := by
      refine Asymptotics.IsBigO.of_bound C ?_
      filter_upwards [hc] with l hl
      rw [c0, sub_zero, sub_zero, Real.norm_of_nonneg (sq_nonneg l)]
      exact hl
    refine hO.trans_isLittleO ?_
    simpa using Asymptotics.isLittleO_pow_id (𝕜 := ℝ) (n := 2) (by norm_num)
  have hd := hG c c0 cd
  refine ⟨hd, fun vec val vec0 val0 m => ⟨fun h h' => ?_, fun hK h h' => ?_⟩⟩
  · refine rates hd (vec := vec) ?_ (by rw [c0]; exact h') m
    rw [c0]; exact h
  · have hr := rates hd (vec := fun l i => (1 / √(val l (Fin.rev i))) • vec l (Fin.rev i))
      (val := fun l i => 1 / val l (Fin.rev i))
      (by rw [c0]; filter_upwards [h] with l hl using shifted_dense hl hK)
      (by rw [c0]; exact shifted_dense h' hK) (Fin.rev m)
    simp only [Fin.rev_rev] at hr
    have hi := hr.inv₀ (one_div_pos.2 (shifted_pos h' hK m)).ne'
    rw [one_div, inv_inv] at hi
    refine hi.congr fun l => ?_
    rw [div_div, one_div, inv_inv]

end Shell

/-! ## A sheet under tension -/

open ShellSystem Spec.ShellSystem

/-- The material of the sheet. -/
noncomputable abbrev sheetLaw : Law Unit :=
  linear sheet ⟨1, fun _ => 0, fun _ => 2⟩ (fun _ => 1) (fun _ => 0) fun _ => 1

theorem sheet_stretched {x : EuclideanSpace ℝ Unit} (hx : x ∈ Admissible sheet) (v : EuclideanSpace ℝ Unit) :
    tangent sheet sheetLaw x v = ((3 * (1 + x ()) ^ 2 - 1) / 2) • v := by
  have h := residual_line (P := sheet) (x := x) (fun q _ => linear_plain' sheet ⟨1, fun _ => 0, fun _ => 2⟩
    (fun _ => 1) (fun _ => 0) (fun _ => 1) q) hx () ()
  have h2 : HasDerivAt (fun τ : ℝ => -(((1 + (x () + τ)) ^ 2 - 1) / 2 * (1 + (x () + τ))))
      (-((3 * (1 + x ()) ^ 2 - 1) / 2)) 0 := by
    have e1 : HasDerivAt (fun τ : ℝ => 1 + (x () + τ)) 1 0 := ((hasDerivAt_id' (0 : ℝ)).const_add _).const_add 1
    refine ((((e1.pow 2).sub_const 1).div_const 2).mul e1).neg.congr_deriv ?_
    simp
    ring
  have h3 : HasDerivAt (fun τ : ℝ => -(((1 + (x () + τ)) ^ 2 - 1) / 2 * (1 + (x () + τ))))
      (-entry sheet sheetLaw x () ()) 0 := by
    refine h.congr_of_eventuallyEq (Filter.Eventually.of_forall fun τ => ?_)
    show _ = residual sheet _ _ ()
    rw [sheet_residual]
    simp
  have e := neg_injective (h3.unique h2)
  ext j
  rw [tangent_apply]
  show ∑ j' : Unit, entry sheet sheetLaw x () j' * v j' = _
  rw [Finset.univ_unique, Finset.sum_singleton]
  show entry sheet sheetLaw x () () * v () = _
  rw [e]; rfl

theorem sheet_pulled : (WithLp.toLp 2 fun _ => 1 : EuclideanSpace ℝ Unit) ∈ Admissible sheet := by
  intro q _
  refine indep_iff.2 ?_
  simp [deformed, sheet, Balance.vsum, Plate.flatS, V3.cross, V3.ext_iff]

/-- The displacement by one. -/
def pull : EuclideanSpace ℝ Unit := WithLp.toLp 2 fun _ => 1

theorem pull_inner : ⟪pull, pull⟫ = (1 : ℝ) := by
  rw [PiLp.inner_apply]
  simp [pull]

theorem line_dense {K0 Kd : EuclideanSpace ℝ Unit →L[ℝ] EuclideanSpace ℝ Unit} {a : ℝ} (h0 : ∀ v, K0 v = v)
    (hd : ∀ v, Kd v = a • v) : Dense Kd K0 (fun _ : Fin 1 => pull) fun _ => a :=
  ⟨by simp, fun i => by rw [hd, h0], fun i j => by rw [h0, pull_inner, if_pos (Subsingleton.elim _ _)],
    fun _ _ _ => le_refl _⟩

theorem line_shifted {K0 Kd : EuclideanSpace ℝ Unit →L[ℝ] EuclideanSpace ℝ Unit} {a : ℝ} (ha : 0 < a)
    (h0 : ∀ v, K0 v = v) (hd : ∀ v, Kd v = a • v) :
    Shifted K0 Kd (fun _ : Fin 1 => (1 / √a) • pull) fun _ => 1 / a := by
  refine ⟨by simp, fun i => ?_, fun i j => ?_, fun _ _ _ => le_refl _⟩
  · rw [h0, hd, smul_smul, one_div_mul_cancel ha.ne', one_smul]
  · rw [hd, real_inner_smul_left, real_inner_smul_left, real_inner_smul_right, pull_inner,
      if_pos (Subsingleton.elim _ _)]
    have h2 := Real.sq_sqrt ha.le
    have h3 := (Real.sqrt_pos.2 ha).ne'
    field_simp
    exact h2.symm

theorem sheet_start (v : EuclideanSpace ℝ Unit) : tangent sheet sheetLaw 0 v = v := by
  rw [sheet_stretched sheet_admissible]
  norm_num

theorem sheet_stiff : Stiff (tangent sheet sheetLaw 0) := fun v hv => by
  rw [sheet_start]
  exact real_inner_self_pos.2 hv

theorem sheet_kdiff {solve : (EuclideanSpace ℝ Unit →L[ℝ] EuclideanSpace ℝ Unit) → EuclideanSpace ℝ Unit → EuclideanSpace ℝ Unit}
    (hs : Solver solve) (v : EuclideanSpace ℝ Unit) :
    kdiff solve (tangent sheet sheetLaw 0) pull (tangent sheet sheetLaw) v = (9 / 2 : ℝ) • v := by
  have h1 : solve (tangent sheet sheetLaw 0) pull = pull := by
    have := hs (tangent sheet sheetLaw 0) (fun u w h => by simpa only [sheet_start] using h) pull
    rwa [sheet_start] at this
  rw [kdiff, h1, sub_apply, sheet_start, sheet_stretched (x := pull) sheet_pulled]
  have : pull () = 1 := rfl
  rw [this]
  module

/-- **C167** Without Spectra the program returns a number that is not critical.  The sheet that is pulled with the load
1: the value is 9/2, with Spectra it is 2/9, and the stiffness is lost at -2/9 times the load only. -/
theorem C167_dense_violated
    {solve : (EuclideanSpace ℝ Unit →L[ℝ] EuclideanSpace ℝ Unit) → EuclideanSpace ℝ Unit → EuclideanSpace ℝ Unit}
    (hs : Solver solve) {K0 Kd : EuclideanSpace ℝ Unit →L[ℝ] EuclideanSpace ℝ Unit} (h0 : K0 = tangent sheet sheetLaw 0)
    (hd : Kd = kdiff solve K0 pull (tangent sheet sheetLaw)) :
    (∀ lam, Returns false K0 Kd (0 : Fin 1) lam ↔ lam = 9 / 2) ∧
    (∀ lam, Returns true K0 Kd (0 : Fin 1) lam ↔ lam = 2 / 9) ∧
    (∀ s, Critical K0 Kd s ↔ s = -(2 / 9)) := by
  have hK : Stiff K0 := h0 ▸ sheet_stiff
  have a0 : ∀ v, K0 v = v := fun v => by rw [h0, sheet_start]
  have ad : ∀ v, Kd v = (9 / 2 : ℝ) • v := fun v => by rw [hd, h0, sheet_kdiff hs]
  have r1 : Returns false K0 Kd (0 : Fin 1) (9 / 2) := ⟨_, _, by simpa using line_dense a0 ad, rfl⟩
  have r2 : Returns true K0 Kd (0 : Fin 1) (2 / 9) :=
    ⟨_, _, by simpa using line_shifted (by norm_num) a0 ad, by norm_num⟩
  refine ⟨fun lam => ⟨fun h => C167_unique hK h r1, fun h => h ▸ r1⟩,
    fun lam => ⟨fun h => C167_unique hK h r2, fun h => h ▸ r2⟩, fun s => ?_⟩
  rw [(C167_spectra (line_shifted (by norm_num) a0 ad) hK).2.1]
  constructor
  · rintro ⟨_, h⟩; rw [h]; norm_num
  · rintro h; exact ⟨0, by rw [h]; norm_num⟩

/-- Non-vacuity of the hypotheses on the pairs: the two solvers on the pulled sheet, and a solver. -/
example (solve : (EuclideanSpace ℝ Unit →L[ℝ] EuclideanSpace ℝ Unit) → EuclideanSpace ℝ Unit → EuclideanSpace ℝ Unit)
    (hs : Solver solve) :
    Stiff (tangent sheet sheetLaw 0) ∧
    Shifted (tangent sheet sheetLaw 0) (kdiff solve (tangent sheet sheetLaw 0) pull (tangent sheet sheetLaw))
      (fun _ : Fin 1 => (1 / √(9 / 2)) • pull) (fun _ => 1 / (9 / 2)) ∧
    Dense (kdiff solve (tangent sheet sheetLaw 0) pull (tangent sheet sheetLaw)) (tangent sheet sheetLaw 0)
      (fun _ : Fin 1 => pull) (fun _ => 9 / 2) :=
  ⟨sheet_stiff, line_shifted (by norm_num) sheet_start (sheet_kdiff hs), line_dense sheet_start (sheet_kdiff hs)⟩

/-- Non-vacuity of the hypothesis on the displacements: those of the linear problem. -/
example (xl : EuclideanSpace ℝ Unit) : ∃ C : ℝ, ∀ᶠ l in 𝓝 (0 : ℝ), ‖l • xl - l • xl‖ ≤ C * l ^ 2 :=
  ⟨0, Eventually.of_forall fun l => by simp⟩

/-- Non-vacuity of the hypotheses on the small loads: the sheet under tension has eigenpairs for all small loads. -/
example : ∀ᶠ l in 𝓝[>] (0 : ℝ), Shifted (tangent sheet sheetLaw 0)
    (tangent sheet sheetLaw (l • pull) - tangent sheet sheetLaw 0)
    (fun _ : Fin 1 => (1 / √((3 * (1 + l) ^ 2 - 1) / 2 - 1)) • pull) (fun _ => 1 / ((3 * (1 + l) ^ 2 - 1) / 2 - 1)) := by
  filter_upwards [self_mem_nhdsWithin] with l hl
  have hl : 0 < l := hl
  have ha : l • pull ∈ Admissible sheet := by
    intro q _
    refine indep_iff.2 ?_
    have : 1 + l ≠ 0 := by positivity
    simp [deformed, sheet, Balance.vsum, Plate.flatS, V3.cross, V3.ext_iff, pull, this]
  refine line_shifted (by nlinarith) sheet_start fun v => ?_
  rw [sub_apply, sheet_start, sheet_stretched ha]
  have : (l • pull) () = l := by simp [pull]
  rw [this]
  module

end Verif.BucklingProgram
