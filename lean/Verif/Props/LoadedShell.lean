import Verif.Lemmas.LoadedShell

/-! # Property C152: a shell with pressure on an elastic foundation -/

namespace Verif.LoadedShell

open V3 Verif.Geometry Verif.Variation Verif.Balance Verif.Integrate Verif.ShellSystem Spec.LoadedShell
open Spec.ShellSystem Spec.Solve Filter Topology

variable {J κ : Type} [Fintype J] (P : Problem J κ) (B : Loads J κ) (r : Rule) (E ν t : κ → ℝ)

/-! ## Without a foundation -/

/-- **C152** (partial: no foundation, see `C152_sign_violated`) The residual is the balance of forces with
the pressure on the deformed normal, and the tangent is minus its derivative, at all states with independent
tangents. -/
theorem C152_tangent_partial (h0 : NoFoundation P B) {x : EuclideanSpace ℝ J} (hx : x ∈ Admissible P) :
    residual P B (linear P r E ν t) x = balance P B (linear P r E ν t) x ∧
    HasFDerivAt (residual P B (linear P r E ν t)) (-tangent P B (linear P r E ν t) x) x := by
  classical
  constructor
  · ext j
    rw [residual_eq]
    show _ + _ = _ + _
    congr 1
    refine Finset.sum_congr rfl fun q hq => ?_
    have hz : (-(0 : V3)) = 0 := by ext <;> simp
    simp only [opposite, h0 q hq, hz]
  · have h := residual_deriv (B := B) (fun q _ => linear_plain' P r E ν t q) hx
    rwa [slope_none h0] at h

/-- **C152** (partial: no foundation, see `C152_diverges_violated`) Around an equilibrium with a regular
tangent there is a ball such that the programs, started with a linear solution in this ball, stop by
themselves with a solution that is right up to a constant times the square of the tolerance. -/
theorem C152_newton_partial (h0 : NoFoundation P B) {xs : EuclideanSpace ℝ J} (hx : xs ∈ Admissible P)
    (hb : balance P B (linear P r E ν t) xs = 0)
    (hi : Function.Injective (tangent P B (linear P r E ν t) xs)) :
    ∃ ρ C : ℝ, 0 < ρ ∧ ∀ (s : Solve.Sys (EuclideanSpace ℝ J)) (solve : _ → EuclideanSpace ℝ J → EuclideanSpace ℝ J),
      Assembles s (residual P B (linear P r E ν t)) (tangent P B (linear P r E ν t)) (Admissible P) →
      Solver solve → ‖solve s.K0 s.F - xs‖ ≤ ρ →
      ∃ res, Solve.program s solve = .ok res ∧ res.broke = true ∧ ‖res.x - xs‖ ≤ C * (1 / 10 ^ 6) ^ 2 :=
  Solve.local_newton (residual_smooth (fun q _ => linear_plain' P r E ν t q) hx)
    (Filter.mem_of_superset (admissible_nhds P hx) fun _ hy => (C152_tangent_partial P B r E ν t h0 hy).2) hi
    ((C152_tangent_partial P B r E ν t h0 hx).1.trans hb) (admissible_nhds P hx)

/-! ## An example -/

/-- The sheet of `Props/ShellSystem` with a force. -/
def pulled (c : ℝ) : Problem Unit Unit := { sheet with F := fun _ => c }

/-- A pressure and a foundation for it; the unknown moves its point by one in the first direction. -/
def support (p k : ℝ) : Loads Unit Unit := ⟨fun _ _ => ⟨1, 0, 0⟩, fun _ => 0, fun _ => p, fun _ => ⟨k, 0, 0⟩⟩

/-- Its material. -/
noncomputable abbrev mat : Law Unit := linear sheet ⟨1, fun _ => 0, fun _ => 2⟩ (fun _ => 1) (fun _ => 0) fun _ => 1

theorem pulled_normal (c : ℝ) (x : EuclideanSpace ℝ Unit) (h : 0 < 1 + x ()) :
    normal (deformed (pulled c) x ()) = ⟨0, 0, 1⟩ ∧ x ∈ Admissible (pulled c) := by
  have hc : cross ((deformed (pulled c) x ()).a 0) ((deformed (pulled c) x ()).a 1) = ⟨0, 0, 1 + x ()⟩ := by
    ext <;> simp [deformed, pulled, sheet, Plate.flatS, vsum, cross]
  refine ⟨?_, fun q _ => indep_iff.2 ?_⟩
  · show V3.normalized (cross _ _) = _
    rw [hc]
    have : V3.norm ⟨0, 0, 1 + x ()⟩ = 1 + x () := by
      simp [V3.norm, dot, Real.sqrt_mul_self h.le]
    rw [V3.normalized, this]
    ext <;> simp [h.ne']
  · show cross ((deformed (pulled c) x ()).a 0) ((deformed (pulled c) x ()).a 1) ≠ 0
    rw [hc]
    simp [V3.ext_iff, h.ne']

theorem pulled_residual (c p k : ℝ) (x : EuclideanSpace ℝ Unit) (h : 0 < 1 + x ()) :
    residual (pulled c) (support p k) mat x () = k * x () - ((1 + x ()) ^ 2 - 1) / 2 * (1 + x ()) + c := by
  have h1 := sheet_residual x
  have h2 : ShellSystem.residual (pulled c) mat x () = ShellSystem.residual sheet mat x () + c := by
    show (∑ q ∈ sheet.Q, _) + c = ((∑ q ∈ sheet.Q, _) + 0) + c
    rw [add_zero]; rfl
  show (∑ q ∈ {()}, _) + (∑ q ∈ {()}, _) + _ = _
  rw [h2, h1, Finset.sum_singleton, Finset.sum_singleton, WeakForms.pressVec, (pulled_normal c x h).1]
  simp [WeakForms.foundVec, WeakForms.diagDot, support, pulled, sheet, disp, vsum, dot]
  ring

theorem pulled_entry (c p k : ℝ) (x : EuclideanSpace ℝ Unit) (h : 0 < 1 + x ()) (j j' : Unit) :
    entry (pulled c) (support p k) mat x j j' = k + (3 * (1 + x ()) ^ 2 - 1) / 2 := by
  have h1 := residual_line (P := pulled c) (B := support p k) (x := x) (law := mat)
    (fun q _ => linear_plain' sheet ⟨1, fun _ => 0, fun _ => 2⟩ (fun _ => 1) (fun _ => 0) (fun _ => 1) q)
    (pulled_normal c x h).2 j j'
  have h2 : HasDerivAt (fun τ : ℝ => k * (x () + τ) - ((1 + (x () + τ)) ^ 2 - 1) / 2 * (1 + (x () + τ)) + c)
      (k - (3 * (1 + x ()) ^ 2 - 1) / 2) 0 := by
    have e0 : HasDerivAt (fun τ : ℝ => x () + τ) 1 0 := (hasDerivAt_id' (0 : ℝ)).const_add _
    have e1 := e0.const_add 1
    refine (((e0.const_mul k).sub ((((e1.pow 2).sub_const 1).div_const 2).mul e1)).add_const c).congr_deriv ?_
    simp; ring
  have h3 : HasDerivAt (fun τ : ℝ => k * (x () + τ) - ((1 + (x () + τ)) ^ 2 - 1) / 2 * (1 + (x () + τ)) + c)
      (-slope (pulled c) (support p k) mat x j j') 0 := by
    refine h1.congr_of_eventuallyEq ?_
    have hpos : ∀ᶠ τ : ℝ in 𝓝 0, 0 < 1 + (x () + τ) := by
      have : ContinuousAt (fun τ : ℝ => 1 + (x () + τ)) 0 := by fun_prop
      exact this.eventually_const_lt (by simpa using h)
    filter_upwards [hpos] with τ hτ
    have hv : (x + τ • EuclideanSpace.single j' (1 : ℝ)) () = x () + τ := by simp
    show _ = residual (pulled c) (support p k) mat _ ()
    rw [pulled_residual _ _ _ _ (by rw [hv]; exact hτ), hv]
  have h4 := h2.unique h3
  have h5 : springs (pulled c) (support p k) j j' = k := by
    simp [springs, pulled, sheet, support, pull, dot]
  rw [slope, h5] at h4
  linarith

/-- Non-vacuity of the hypotheses: pressure on the sheet stretched to twice its length. -/
example : NoFoundation (pulled 3) (support 7 0) ∧ EuclideanSpace.single () (1 : ℝ) ∈ Admissible (pulled 3) ∧
    balance (pulled 3) (support 7 0) mat (EuclideanSpace.single () 1) = 0 ∧
    Function.Injective (tangent (pulled 3) (support 7 0) mat (EuclideanSpace.single () 1)) := by
  have hn : NoFoundation (pulled 3) (support 7 0) := fun _ _ => rfl
  have hp : (0 : ℝ) < 1 + (EuclideanSpace.single () (1 : ℝ) : EuclideanSpace ℝ Unit) () := by simp
  refine ⟨hn, (pulled_normal 3 _ hp).2, ?_, ?_⟩
  · refine ((C152_tangent_partial (pulled 3) (support 7 0) ⟨1, fun _ => 0, fun _ => 2⟩ (fun _ => 1) (fun _ => 0)
      (fun _ => 1) hn (pulled_normal 3 _ hp).2).1).symm.trans ?_
    ext j
    show residual (pulled 3) (support 7 0) mat _ () = 0
    rw [pulled_residual _ _ _ _ hp]
    simp; norm_num
  · refine (injective_iff_map_eq_zero _).2 fun v hv => ?_
    have h := congrArg (fun w : EuclideanSpace ℝ Unit => w ()) hv
    simp only [tangent, ofEntries_apply, pulled_entry _ _ _ _ hp] at h
    ext j
    simp at h
    rcases h with h | h
    · norm_num at h
    · exact h

/-- **C152** Without prescribed displacements the residual of the undeformed state is the right-hand side of
the linear problem, and its tangent is the matrix of the linear problem plus the stiffness of the pressure,
which the linear problem lacks. -/
theorem C152_linear (hp : P.pre = P.ori) (hu : ∀ q ∈ P.Q, B.pre q = 0) (j j' : J) :
    residual P B (linear P r E ν t) 0 j = linearRhs P B j ∧
    entry P B (linear P r E ν t) 0 j j' = linearEntry P B (linear P r E ν t) j j'
      - ∑ q ∈ P.Q, B.p q * dot (B.val q j) (var1 (P.ori q) (P.field q j')) * P.μ q := by
  obtain ⟨h1, h2⟩ := C149_linear P r E ν t hp j j'
  have hd : ∀ q, deformed P 0 q = P.ori q := fun q => by rw [deformed_zero, hp]
  constructor
  · show _ + _ + _ = _
    rw [h1, linearRhs]
    congr 1
    congr 1
    · refine Finset.sum_congr rfl fun q hq => ?_
      simp [WeakForms.foundVec, WeakForms.foundVecLin, WeakForms.diagDot, disp, hu q hq, vsum]
    · simp only [hd]
  · rw [entry, linearEntry, h2]
    simp only [hd, WeakForms.pressMat, WeakForms.pressMatLin, Finset.sum_const_zero, neg_mul,
      Finset.sum_neg_distrib]
    ring

/-! ## Pressure and energy -/

theorem flat_var (w : Surf) : var1 Plate.flatS w = ⟨-(w.a 0).z, -(w.a 1).z, 0⟩ := by
  rw [var1, mvec, Plate.flat_measure, Plate.flat_normal]
  ext <;> simp [Plate.flatS, cross, dot]

omit [Fintype J] in
theorem springs_symm (j j' : J) : springs P B j j' = springs P B j' j := by
  rw [springs_eq, springs_eq]
  refine Finset.sum_congr rfl fun q _ => ?_
  simp only [WeakForms.foundMat, WeakForms.diagDot]; ring

/-- **C152** (partial: flat shells) The tangent of a flat shell is symmetric exactly if the pressure does no
net work `p (v·∇w - w·∇v)` between any two fields, where `v` and `w` denote in-plane values and deflections. -/
theorem C152_symmetric_partial (hp : P.pre = P.ori) (hf : ∀ q ∈ P.Q, P.ori q = Plate.flatS) (j j' : J) :
    entry P B (linear P r E ν t) 0 j j' - entry P B (linear P r E ν t) 0 j' j
      = ∑ q ∈ P.Q, B.p q * (((B.val q j).x * ((P.field q j').a 0).z + (B.val q j).y * ((P.field q j').a 1).z)
        - ((B.val q j').x * ((P.field q j).a 0).z + (B.val q j').y * ((P.field q j).a 1).z)) * P.μ q := by
  classical
  have hx : (0 : EuclideanSpace ℝ J) ∈ Admissible P := by
    intro q hq
    rw [deformed_zero, hp, hf q hq]
    exact indep_iff.2 (by rw [Plate.flat_cross]; simp [V3.ext_iff])
  have hs := (C149_tangent P r E ν t hx).2.1 j j'
  have h2 := springs_symm P B j j'
  rw [springs_eq, springs_eq] at h2
  rw [entry, entry, hs, h2, add_sub_add_right_eq_sub, add_sub_add_left_eq_sub, ← Finset.sum_sub_distrib]
  refine Finset.sum_congr rfl fun q hq => ?_
  rw [deformed_zero, hp, hf q hq, WeakForms.pressMat, WeakForms.pressMat, flat_var, flat_var]
  simp [dot]; ring

/-- Non-vacuity: the sheet. -/
example : sheet.pre = sheet.ori ∧ ∀ q ∈ sheet.Q, sheet.ori q = Plate.flatS := ⟨rfl, fun _ _ => rfl⟩

/-- A flat sheet with two unknowns: a translation in the plane and a tilt. -/
def tilt : Problem (Fin 2) Unit :=
  ⟨{()}, fun _ => 1, fun _ => Plate.flatS, fun _ => Plate.flatS,
    fun _ j => if j = 0 then ⟨fun _ => 0, 0, 0, 0⟩ else ⟨fun i => if i = 0 then ⟨0, 0, 1⟩ else 0, 0, 0, 0⟩, fun _ => 0⟩

/-- Its pressure. -/
def blow (p : ℝ) : Loads (Fin 2) Unit :=
  ⟨fun _ j => if j = 0 then ⟨1, 0, 0⟩ else 0, fun _ => 0, fun _ => p, fun _ => 0⟩

/-- **C152** is violated: the pressure acts on the deformed normal but on the undeformed area; such loads have
no potential.  For every pressure different from zero the tangent of this sheet is not symmetric and its
residual is not a gradient, so equilibria are not stationary points of any energy. -/
theorem C152_conservative_violated (p : ℝ) (hp : p ≠ 0) :
    entry tilt (blow p) (linear tilt r (fun _ => 1) (fun _ => 0) fun _ => 1) 0 0 1
      ≠ entry tilt (blow p) (linear tilt r (fun _ => 1) (fun _ => 0) fun _ => 1) 0 1 0 ∧
    ¬ Conservative (residual tilt (blow p) (linear tilt r (fun _ => 1) (fun _ => 0) fun _ => 1)) 0 := by
  have h := C152_symmetric_partial tilt (blow p) r (fun _ => 1) (fun _ => 0) (fun _ => 1) rfl (fun _ _ => rfl) 0 1
  have hne : entry tilt (blow p) (linear tilt r (fun _ => 1) (fun _ => 0) fun _ => 1) 0 0 1
      ≠ entry tilt (blow p) (linear tilt r (fun _ => 1) (fun _ => 0) fun _ => 1) 0 1 0 := by
    intro he
    rw [he, sub_self] at h
    simp [tilt, blow] at h
    exact hp h.symm
  have hx : (0 : EuclideanSpace ℝ (Fin 2)) ∈ Admissible tilt := by
    intro q hq
    rw [deformed_zero]
    exact indep_iff.2 (by show cross (Plate.flatS.a 0) (Plate.flatS.a 1) ≠ 0; rw [Plate.flat_cross]; simp [V3.ext_iff])
  refine ⟨hne, fun hc => hne ?_⟩
  exact symmetric_of_conservative (C152_tangent_partial tilt (blow p) r (fun _ => 1) (fun _ => 0) (fun _ => 1)
    (fun _ _ => rfl) hx).2 hc 0 1

/-! ## With a foundation -/

/-- **C152** is violated: with a foundation the assembled residual is the balance of forces of a shell whose
foundation has the opposite stiffness, at all states; where it vanishes, the forces are out of balance by twice
the force of the foundation.  The tangent is the one of the right foundation, so it is not minus the derivative
of the residual unless the foundation does not act on the unknowns at all. -/
theorem C152_sign_violated {x : EuclideanSpace ℝ J} (hx : x ∈ Admissible P) :
    residual P B (linear P r E ν t) x = balance P (opposite B) (linear P r E ν t) x ∧
    (residual P B (linear P r E ν t) x = 0 → ∀ j, balance P B (linear P r E ν t) x j
      = 2 * ∑ q ∈ P.Q, dot (B.val q j) (pull (B.k q) (disp B x q)) * P.μ q) ∧
    (HasFDerivAt (residual P B (linear P r E ν t)) (-tangent P B (linear P r E ν t) x) x ↔ springs P B = 0) := by
  classical
  have hd := residual_deriv (B := B) (fun q _ => linear_plain' P r E ν t q) hx
  refine ⟨by ext j; exact residual_eq j, fun h0 j => ?_, fun h => ?_, fun h => ?_⟩
  · have h1 : balance P (opposite B) (linear P r E ν t) x j = 0 := by
      rw [← residual_eq, h0]; rfl
    have h2 : balance P B (linear P r E ν t) x j - balance P (opposite B) (linear P r E ν t) x j
        = 2 * ∑ q ∈ P.Q, dot (B.val q j) (pull (B.k q) (disp B x q)) * P.μ q := by
      show (_ + _) - (_ + _) = _
      rw [add_sub_add_left_eq_sub, ← Finset.sum_sub_distrib, Finset.mul_sum]
      refine Finset.sum_congr rfl fun q _ => ?_
      simp [opposite, pull, disp, dot, vsum]; ring
    rw [← h2, h1, sub_zero]
  · have h1 := h.unique hd
    have h2 := ofEntries_inj (neg_injective h1)
    funext j j'
    have h3 := congrFun (congrFun h2 j) j'
    rw [slope] at h3
    show _ = (0 : ℝ)
    linarith
  · have : slope P B (linear P r E ν t) x = entry P B (linear P r E ν t) x := by
      funext j j'
      rw [slope, congrFun (congrFun h j) j']
      show _ - 2 * (0 : ℝ) = _
      ring
    rw [this] at hd
    exact hd

/-- **C152** is violated: a foundation that is weak against the shell is not noticed; the programs stop by
themselves near a zero of the assembled residual, with the balance of forces violated by twice the force of
the foundation there. -/
theorem C152_weak_violated {xs : EuclideanSpace ℝ J} (hx : xs ∈ Admissible P)
    (h0 : residual P B (linear P r E ν t) xs = 0) {β : ℝ} (hβ0 : 0 < β)
    (hi : ∀ v, ‖v‖ ≤ β * ‖tangent P B (linear P r E ν t) xs v‖)
    (hw : β * ‖ofEntries fun j j' => 2 * springs P B j j'‖ ≤ 1 / 8) :
    (∀ j, balance P B (linear P r E ν t) xs j
      = 2 * ∑ q ∈ P.Q, dot (B.val q j) (pull (B.k q) (disp B xs q)) * P.μ q) ∧
    ∃ ρ C : ℝ, 0 < ρ ∧ ∀ (s : Solve.Sys (EuclideanSpace ℝ J)) (solve : _ → EuclideanSpace ℝ J → EuclideanSpace ℝ J),
      Assembles s (residual P B (linear P r E ν t)) (tangent P B (linear P r E ν t)) (Admissible P) →
      Solver solve → ‖solve s.K0 s.F - xs‖ ≤ ρ →
      ∃ res, Solve.program s solve = .ok res ∧ res.broke = true ∧ ‖res.x - xs‖ ≤ C * (1 / 10 ^ 6) := by
  classical
  refine ⟨(C152_sign_violated P B r E ν t hx).2.1 h0, ?_⟩
  refine local_inexact (residual_smooth (fun q _ => linear_plain' P r E ν t q) hx)
    (Filter.mem_of_superset (admissible_nhds P hx) fun y hy => ?_) h0 hi hβ0 hw (admissible_nhds P hx)
  have hd := residual_deriv (B := B) (fun q _ => linear_plain' P r E ν t q) hy
  have e : tangent P B (linear P r E ν t) y - ofEntries (fun j j' => 2 * springs P B j j')
      = ofEntries (slope P B (linear P r E ν t) y) := by
    ext v j
    simp only [_root_.sub_apply, PiLp.sub_apply]
    rw [tangent, ofEntries_apply, ofEntries_apply, ofEntries_apply, ← Finset.sum_sub_distrib]
    exact Finset.sum_congr rfl fun j' _ => by rw [slope]; ring
  show HasFDerivAt _ (-(_ - _)) y
  rw [e]; exact hd

/-- Non-vacuity of the hypotheses: the sheet stretched to twice its length with a weak foundation; the force of
the foundation there is not zero. -/
example : residual (pulled (3 - 1 / 100)) (support 0 (1 / 100)) mat (EuclideanSpace.single () 1) = 0 ∧
    (∀ v, ‖v‖ ≤ 1 * ‖tangent (pulled (3 - 1 / 100)) (support 0 (1 / 100)) mat (EuclideanSpace.single () 1) v‖) ∧
    1 * ‖ofEntries fun j j' => 2 * springs (pulled (3 - 1 / 100)) (support 0 (1 / 100)) j j'‖ ≤ 1 / 8 ∧
    pull ((support 0 (1 / 100)).k ()) (disp (support 0 (1 / 100)) (EuclideanSpace.single () 1) ()) ≠ 0 := by
  have hp : (0 : ℝ) < 1 + (EuclideanSpace.single () (1 : ℝ) : EuclideanSpace ℝ Unit) () := by simp
  refine ⟨?_, fun v => ?_, ?_, ?_⟩
  · ext j
    show residual (pulled _) (support _ _) mat _ () = 0
    rw [pulled_residual _ _ _ _ hp]
    simp; norm_num
  · have e : tangent (pulled (3 - 1 / 100)) (support 0 (1 / 100)) mat (EuclideanSpace.single () 1) v
        = (1 / 100 + 11 / 2 : ℝ) • v := by
      ext j
      rw [tangent, ofEntries_apply]
      simp [pulled_entry _ _ _ _ hp]
      norm_num
    rw [e, norm_smul, one_mul]
    refine le_mul_of_one_le_left (norm_nonneg v) ?_
    rw [Real.norm_eq_abs]
    norm_num
  · have e : (ofEntries fun j j' => 2 * springs (pulled (3 - 1 / 100)) (support 0 (1 / 100)) j j')
        = (1 / 50 : ℝ) • ContinuousLinearMap.id ℝ (EuclideanSpace ℝ Unit) := by
      ext v j
      rw [ofEntries_apply]
      simp [springs, pulled, sheet, support, pull, dot]
      left; norm_num
    rw [e, one_mul, norm_smul]
    have h1 := ContinuousLinearMap.norm_id_le (𝕜 := ℝ) (E := EuclideanSpace ℝ Unit)
    have h2 : ‖(1 / 50 : ℝ)‖ = 1 / 50 := by norm_num
    rw [h2]; linarith
  · intro h
    have := congrArg V3.x h
    simp [pull, support, disp, vsum] at this

/-! ## A rigid shell on springs -/

/-- The shell can only move as a whole, in the third direction, under a force `f`. -/
def rigid (Q : Finset κ) (μ : κ → ℝ) (ori : κ → Surf) (f : ℝ) : Problem Unit κ :=
  ⟨Q, μ, ori, ori, fun _ _ => ⟨fun _ => 0, 0, 0, 0⟩, fun _ => f⟩

/-- It rests on a foundation. -/
def bed (k : κ → V3) : Loads Unit κ := ⟨fun _ _ => ⟨0, 0, 1⟩, fun _ => 0, fun _ => 0, k⟩

theorem still (s : Surf) : mvec s ⟨fun _ => 0, 0, 0, 0⟩ = 0 ∧ var1 s ⟨fun _ => 0, 0, 0, 0⟩ = 0 := by
  have h : mvec s ⟨fun _ => 0, 0, 0, 0⟩ = 0 := by
    unfold mvec; ext <;> simp [cross]
  refine ⟨h, ?_⟩
  rw [var1, h]; ext <;> simp [dot]

theorem still_em (s : Surf) : EmDer s ⟨fun _ => 0, 0, 0, 0⟩ = fun _ => 0 := by
  funext k
  rcases fin3_cases k with rfl | rfl | rfl <;> simp [EmDer, dot]

theorem still_ef (s : Surf) : EfDer s ⟨fun _ => 0, 0, 0, 0⟩ = fun _ => 0 := by
  funext k
  unfold EfDer
  rw [(still s).2]
  rcases fin3_cases k with rfl | rfl | rfl <;> simp [dbl3, deriv2dot, dot]

variable (Q : Finset κ) (μ : κ → ℝ) (ori : κ → Surf) (k : κ → V3) (f : ℝ)

theorem rigid_force (law : Law κ) (x : EuclideanSpace ℝ Unit) : ShellSystem.residual (rigid Q μ ori f) law x () = f := by
  show (∑ q ∈ Q, _) + f = f
  rw [Finset.sum_eq_zero fun q _ => ?_, zero_add]
  show internalForce _ ⟨fun _ => 0, 0, 0, 0⟩ _ _ * _ = 0
  simp [internalForce, still_em, still_ef, dotV]

theorem rigid_residual (law : Law κ) (x : EuclideanSpace ℝ Unit) :
    residual (rigid Q μ ori f) (bed k) law x () = f + (∑ q ∈ Q, (k q).z * μ q) * x () := by
  show _ + _ + _ = _
  rw [rigid_force, Finset.sum_mul]
  have h1 : ∀ q ∈ (rigid Q μ ori f).Q, WeakForms.foundVec ((rigid Q μ ori f).μ q) ((bed k).k q) (disp (bed k) x q)
      ((bed k).val q ()) = (k q).z * μ q * x () := fun q _ => by
    simp [WeakForms.foundVec, WeakForms.diagDot, bed, rigid, disp, vsum]; ring
  have h2 : ∀ q ∈ (rigid Q μ ori f).Q, WeakForms.pressVec ((bed k).p q) ((rigid Q μ ori f).μ q)
      (deformed (rigid Q μ ori f) x q) ((bed k).val q ()) = 0 := fun q _ => by
    simp [WeakForms.pressVec, bed]
  rw [Finset.sum_congr rfl h1, Finset.sum_congr rfl h2, Finset.sum_const_zero, add_zero, add_comm]
  rfl

theorem rigid_balance (law : Law κ) (x : EuclideanSpace ℝ Unit) :
    balance (rigid Q μ ori f) (bed k) law x () = f - (∑ q ∈ Q, (k q).z * μ q) * x () := by
  show _ + _ = _
  rw [rigid_force, sub_eq_add_neg, Finset.sum_mul, ← Finset.sum_neg_distrib]
  congr 1
  refine Finset.sum_congr rfl fun q _ => ?_
  simp [pull, bed, rigid, dot, vsum]; ring

variable {Q μ ori} in
theorem rigid_admissible (hs : ∀ q ∈ Q, Indep ((ori q).a 0) ((ori q).a 1)) (x : EuclideanSpace ℝ Unit) :
    x ∈ Admissible (rigid Q μ ori f) := by
  intro q hq
  have h : ∀ i, (deformed (rigid Q μ ori f) x q).a i = (ori q).a i := fun i => by
    ext <;> simp [deformed, rigid, vsum]
  rw [h, h]
  exact hs q hq

variable {Q ori} in
theorem rigid_entry (hs : ∀ q ∈ Q, Indep ((ori q).a 0) ((ori q).a 1)) (x : EuclideanSpace ℝ Unit) (j j' : Unit) :
    entry (rigid Q μ ori f) (bed k) (linear (rigid Q μ ori f) r E ν t) x j j' = ∑ q ∈ Q, (k q).z * μ q := by
  have h0 : ShellSystem.entry (rigid Q μ ori f) (linear (rigid Q μ ori f) r E ν t) x j j' = 0 := by
    have h := ShellSystem.residual_line (P := rigid Q μ ori f) (fun q _ => linear_plain' (rigid Q μ ori f) r E ν t q)
      (rigid_admissible f hs x) j j'
    have h2 : HasDerivAt (fun τ : ℝ => ShellSystem.residual (rigid Q μ ori f) (linear (rigid Q μ ori f) r E ν t)
        (x + τ • EuclideanSpace.single j' (1 : ℝ)) j) 0 0 := by
      refine (hasDerivAt_const (0 : ℝ) f).congr_of_eventuallyEq (Filter.Eventually.of_forall fun τ => ?_)
      exact rigid_force Q μ ori f _ _
    have := h.unique h2
    linarith
  rw [entry, h0, add_zero]
  have h1 : ∀ q ∈ (rigid Q μ ori f).Q, WeakForms.foundMat ((rigid Q μ ori f).μ q) ((bed k).k q) ((bed k).val q j)
      ((bed k).val q j') = (k q).z * μ q := fun q _ => by
    simp [WeakForms.foundMat, WeakForms.diagDot, bed, rigid]
  have h2 : ∀ q ∈ (rigid Q μ ori f).Q, WeakForms.pressMat ((bed k).p q) ((rigid Q μ ori f).μ q)
      (deformed (rigid Q μ ori f) x q) ((bed k).val q j) ((rigid Q μ ori f).field q j') = 0 := fun q _ => by
    simp [WeakForms.pressMat, bed]
  rw [Finset.sum_congr rfl h1, Finset.sum_congr rfl h2, Finset.sum_const_zero, add_zero]
  rfl

/-- The linear problem of this shell. -/
theorem rigid_linear (hs : ∀ q ∈ Q, Indep ((ori q).a 0) ((ori q).a 1)) (j j' : Unit) :
    linearEntry (rigid Q μ ori f) (bed k) (linear (rigid Q μ ori f) r E ν t) j j' = ∑ q ∈ Q, (k q).z * μ q ∧
    linearRhs (rigid Q μ ori f) (bed k) j = f := by
  obtain ⟨h1, h2⟩ := C152_linear (rigid Q μ ori f) (bed k) r E ν t rfl (fun _ _ => rfl) j j'
  rw [rigid_entry r E ν t μ k f hs] at h2
  refine ⟨?_, ?_⟩
  · rw [h2]; simp [bed]
  · rw [← h1]
    exact (rigid_residual Q μ ori k f _ _).trans (by simp)

/-- **C152** is violated: a shell that moves as a whole on a foundation of any positive total stiffness `c`
under any force `f` that displaces it by at least the tolerance.  The linear problem gives the equilibrium
`f / c`.  The programs start there and leave it, doubling the distance with every iteration: after 100
iterations they return a displacement `2 ^ 101 - 1` times the right one, without a warning. -/
theorem C152_diverges_violated (hs : ∀ q ∈ Q, Indep ((ori q).a 0) ((ori q).a 1)) {c : ℝ}
    (hc : c = ∑ q ∈ Q, (k q).z * μ q) (hc0 : 0 < c) (hf : 1 / 10 ^ 6 ≤ |f / c|)
    {P : Problem Unit κ} (hP : P = rigid Q μ ori f)
    (s : Solve.Sys (EuclideanSpace ℝ Unit)) (solve : _ → _ → EuclideanSpace ℝ Unit)
    (ha : Assembles s (residual P (bed k) (linear P r E ν t)) (tangent P (bed k) (linear P r E ν t)) (Admissible P))
    (hK : ∀ v j, s.K0 v j = ∑ j', linearEntry P (bed k) (linear P r E ν t) j j' * v j')
    (hF : ∀ j, s.F j = linearRhs P (bed k) j) (hsol : Solver solve) :
    solve s.K0 s.F () = f / c ∧ balance P (bed k) (linear P r E ν t) (solve s.K0 s.F) = 0 ∧
    ∃ res, Solve.program s solve = .ok res ∧ res.broke = false ∧ res.its = 100 ∧ res.warned = false ∧
      res.x () = (2 ^ 101 - 1) * (f / c) := by
  subst hP
  have hm0 : ∀ v, s.K0 v = c • v := by
    intro v
    ext j
    rw [hK]
    simp [(rigid_linear r E ν t Q μ ori k f hs j _).1, hc]
  have hmx : ∀ x v, tangent (rigid Q μ ori f) (bed k) (linear (rigid Q μ ori f) r E ν t) x v = c • v := by
    intro x v
    ext j
    rw [tangent, ofEntries_apply]
    simp [rigid_entry r E ν t μ k f hs, hc]
  have hinj : ∀ m : EuclideanSpace ℝ Unit →L[ℝ] EuclideanSpace ℝ Unit, (∀ v, m v = c • v) → Function.Injective m := by
    intro m hm u v huv
    rw [hm, hm] at huv
    exact smul_right_injective _ hc0.ne' huv
  have hK0 : ∀ x, tangent (rigid Q μ ori f) (bed k) (linear (rigid Q μ ori f) r E ν t) x = s.K0 := by
    intro x
    ext1 v
    rw [hmx, hm0]
  have hFf : ∀ j, s.F j = f := fun j => by rw [hF, (rigid_linear r E ν t Q μ ori k f hs j j).2]
  have he : Exact solve s.K0 := hsol _ (hinj _ hm0)
  have hx0 : c • solve s.K0 s.F = s.F := by rw [← hm0]; exact he _
  have hval : solve s.K0 s.F () = f / c := by
    have := congrArg (fun v : EuclideanSpace ℝ Unit => v ()) hx0
    simp only [PiLp.smul_apply, smul_eq_mul, hFf] at this
    rw [← this]; field_simp
  have hr : ∀ x, s.residual x = some (s.F + c • x) := by
    intro x
    rw [ha.residual x (rigid_admissible f hs x)]
    congr 1
    ext j
    show residual _ _ _ x () = s.F () + c * x ()
    rw [rigid_residual, hFf, hc]
  have hj : ∀ x, s.jacobian x = some s.K0 := fun x => by
    rw [ha.jacobian x (rigid_admissible f hs x), hK0]
  have hnorm : ‖solve s.K0 s.F‖ = |f / c| := by
    rw [EuclideanSpace.norm_eq]
    simp [hval, Real.sqrt_sq_eq_abs]
    rw [abs_div, abs_abs, abs_abs, abs_div]
  have hbig : 1 / 10 ^ 6 ≤ 2 * ‖solve s.K0 s.F‖ := by
    rw [hnorm]; linarith [abs_nonneg (f / c)]
  have hl := loop_doubles hc0.ne' hm0 he hx0 hr hj hbig 100 0
  refine ⟨hval, ?_, ⟨((2 : ℝ) ^ (0 + 100 + 1) - 1) • solve s.K0 s.F, (2 : ℝ) ^ (0 + 100 + 1) • s.F, false, 0 + 100, false⟩,
    ?_, rfl, rfl, rfl, ?_⟩
  · ext j
    show balance _ _ _ _ () = 0
    rw [rigid_balance, hval, ← hc]
    field_simp
    ring
  · unfold Solve.program
    rw [hr]
    simp only [Solve.ensure, Outcome.bind]
    rw [show s.F + c • solve s.K0 s.F = (2 : ℝ) ^ (0 + 1) • s.F by rw [hx0, zero_add, pow_one, two_smul]]
    have : solve s.K0 s.F = ((2 : ℝ) ^ (0 + 1) - 1) • solve s.K0 s.F := by norm_num
    rw [show Solve.loop s solve Solve.maxIt 0 (solve s.K0 s.F) ((2 : ℝ) ^ (0 + 1) • s.F) false
      = Solve.loop s solve 100 0 (((2 : ℝ) ^ (0 + 1) - 1) • solve s.K0 s.F) ((2 : ℝ) ^ (0 + 1) • s.F) false by
        rw [← this]; rfl]
    exact hl
  · show ((2 : ℝ) ^ (0 + 100 + 1) - 1) * solve s.K0 s.F () = _
    rw [hval]

/-- Non-vacuity: a system and a solver as in `C152_diverges_violated`, with stiffness 2 and force 6. -/
example : ∃ (s : Solve.Sys (EuclideanSpace ℝ Unit)) (solve : (EuclideanSpace ℝ Unit →L[ℝ] EuclideanSpace ℝ Unit) →
      EuclideanSpace ℝ Unit → EuclideanSpace ℝ Unit),
    Assembles s (residual (rigid {()} (fun _ => 1) (fun _ => Plate.flatS) 6) (bed fun _ => ⟨0, 0, 2⟩)
        (linear (rigid {()} (fun _ => 1) (fun _ => Plate.flatS) 6) ⟨1, fun _ => 0, fun _ => 2⟩ (fun _ => 1) (fun _ => 0) fun _ => 1))
      (tangent (rigid {()} (fun _ => 1) (fun _ => Plate.flatS) 6) (bed fun _ => ⟨0, 0, 2⟩)
        (linear (rigid {()} (fun _ => 1) (fun _ => Plate.flatS) 6) ⟨1, fun _ => 0, fun _ => 2⟩ (fun _ => 1) (fun _ => 0) fun _ => 1))
      (Admissible (rigid {()} (fun _ => 1) (fun _ => Plate.flatS) 6)) ∧
    (∀ v j, s.K0 v j = ∑ j', linearEntry (rigid {()} (fun _ => 1) (fun _ => Plate.flatS) 6) (bed fun _ => ⟨0, 0, 2⟩)
        (linear (rigid {()} (fun _ => 1) (fun _ => Plate.flatS) 6) ⟨1, fun _ => 0, fun _ => 2⟩ (fun _ => 1) (fun _ => 0) fun _ => 1)
        j j' * v j') ∧
    (∀ j, s.F j = linearRhs (rigid {()} (fun _ => 1) (fun _ => Plate.flatS) 6) (bed fun _ => ⟨0, 0, 2⟩) j) ∧
    Solver solve ∧ (2 : ℝ) = ∑ _q ∈ ({()} : Finset Unit), (2 : ℝ) * 1 ∧ (1 : ℝ) / 10 ^ 6 ≤ |6 / 2| := by
  classical
  refine ⟨⟨ofEntries _, WithLp.toLp 2 _, fun x => some _, fun x => some _⟩,
    fun m v => if h : ∃ u, m u = v then h.choose else 0, ⟨fun x _ => rfl, fun x _ => rfl⟩, fun v j => rfl, fun j => rfl,
    fun m hm v => ?_, by simp, by norm_num⟩
  have h : ∃ u, m u = v := (LinearMap.injective_iff_surjective (f := (m : EuclideanSpace ℝ Unit →ₗ[ℝ] EuclideanSpace ℝ Unit))).1 hm v
  show m (dite _ _ _) = v
  rw [dif_pos h]
  exact h.choose_spec

end Verif.LoadedShell
