import Verif.Lemmas.WrinkledSeen
import Verif.Lemmas.LocalNewton
import Verif.Spec.ShellSystem
import Verif.Props.Wrinkled

/-! # Claim C166: the tangent of a membrane with wrinkles, and Newton's method on it -/

namespace Verif.Wrinkled

open V3 Verif.TFT Verif.Spec.Relaxed Verif.Geometry Verif.Variation Verif.ShellSystem Verif.Balance Spec.Wrinkled
open Verif.Integrate RealInnerProductSpace Verif.Spec.Solve Verif.Spec.ShellSystem
open scoped Topology

variable {J κ : Type} [Fintype J] (P : Problem J κ)

/-- **C166** The matrices that the program returns for the wrapped linear material with the mixed criterion, in the
general variant of the wrapper, are the thickness times the derivatives of the stresses that wrinkling leaves.  What
is missing: the variant for linear materials, see `C166_linear_violated`. -/
theorem C166_moduli_partial (r : Rule) (E ν t : κ → ℝ) (f : κ → Found) (B B' : κ → T2) (x : EuclideanSpace ℝ J)
    (hE : ∀ q ∈ P.Q, 0 < E q ∧ -1 < ν q ∧ ν q < 1 / 2) (hi : ∀ q ∈ P.Q, Indep ((P.ori q).a 0) ((P.ori q).a 1))
    (hu : ∀ q ∈ P.Q, Seen (B q) (Linear.matrix (E q) (ν q) (Acon (P.ori q))) (strain (P.ori q) (deformed P x q)) (f q)
      (1 / 2 * t q))
    (hl : ∀ q ∈ P.Q, Seen (B' q) (Linear.matrix (E q) (ν q) (Acon (P.ori q))) (strain (P.ori q) (deformed P x q)) (f q)
      (-(1 / 2) * t q))
    (hx : Away P (fun q => Linear.matrix (E q) (ν q) (Acon (P.ori q))) x) :
    ∃ A, (∀ q ∈ P.Q, ∀ i k, moduli false r 2 0 (E q) (ν q) (t q) (P.ori q) (deformed P x q) (f q) i k = .ok (A q i k)) ∧
      Slopes P (fun q => Linear.matrix (E q) (ν q) (Acon (P.ori q))) t x A := by
  have : ∀ q, ∃ a : T3, q ∈ P.Q →
      (∀ i k, moduli false r 2 0 (E q) (ν q) (t q) (P.ori q) (deformed P x q) (f q) i k = .ok (a i k)) ∧
      ∃ D, Slope (Linear.matrix (E q) (ν q) (Acon (P.ori q))) (strain (P.ori q) (deformed P x q)) D ∧
        ∀ i k, a i k = t q * D i k := by
    intro q
    by_cases hq : q ∈ P.Q
    · obtain ⟨D, hs, hf⟩ := moduli_seen (hE q hq).1 (hE q hq).2.1 (hE q hq).2.2 (hi q hq) r (hu q hq) (hl q hq) (hx q hq)
      exact ⟨fun i k => t q * D i k, fun _ => ⟨hf, D, hs, fun _ _ => rfl⟩⟩
    · exact ⟨fun _ _ => 0, fun h => absurd h hq⟩
  choose A hA using this
  exact ⟨A, fun q hq => (hA q hq).1, fun q hq => (hA q hq).2⟩

/-- Non-vacuity: a ribbon pressed to half its width and pulled to twice its length. -/
example : (∀ q ∈ (ribbon 3).Q, Indep (((ribbon 3).ori q).a 0) (((ribbon 3).ori q).a 1)) ∧
    Away (ribbon 3) (fun q => Linear.matrix 1 0 (Acon ((ribbon 3).ori q))) (len 2) ∧ ∀ q ∈ (ribbon 3).Q, ∀ z,
    Seen Relaxed.unit (Linear.matrix 1 0 (Acon ((ribbon 3).ori q)))
      (strain ((ribbon 3).ori q) (deformed (ribbon 3) (len 2) q))
      ⟨fun _ => -(3 / 8), fun _ => 3 / 2, fun _ => -(3 / 8), fun _ => 3 / 2, fun _ => 0⟩ z := by
  refine ⟨fun _ _ => square1_indep, ?_, fun q _ z => ?_⟩
  · show Away _ (fun _ => Linear.matrix 1 0 (Acon square1)) _
    rw [square1_linear]
    exact ribbon_away 3
  · show Seen _ (Linear.matrix 1 0 (Acon square1)) _ _ _
    rw [square1_linear]
    exact ribbon_seen 3 z

variable {P} {C : κ → T3} {t : κ → ℝ} {x : EuclideanSpace ℝ J} {N : EuclideanSpace ℝ J → κ → Voigt}

/-- Where no point is at a kink the derivatives exist. -/
theorem exists_slopes (hB : Body P C t) (hx : Away P C x) : ∃ A, Slopes P C t x A := by
  have : ∀ q, ∃ a : T3, q ∈ P.Q →
      ∃ D, Slope (C q) (strain (P.ori q) (deformed P x q)) D ∧ ∀ i k, a i k = t q * D i k := by
    intro q
    by_cases hq : q ∈ P.Q
    · obtain ⟨D, hD⟩ := exists_slope (hB.stiff q hq) (hB.symm q hq) (hx q hq)
      exact ⟨fun i k => t q * D i k, fun _ => ⟨D, hD, fun _ _ => rfl⟩⟩
    · exact ⟨fun _ _ => 0, fun h => absurd h hq⟩
  choose A hA using this
  exact ⟨A, hA⟩

/-- **C166** With these matrices and the membrane forces of `C165_forces` the assembled matrix is minus the derivative
of the residual wherever no point is at a kink. -/
theorem C166_tangent (hB : Body P C t) (hN : ∀ y, Wrinkles P C t y (N y)) {A : κ → T3} (hA : Slopes P C t x A) :
    HasFDerivAt (fun y => residual P (N y) y) (-tangent P A (N x) x) x := residual_deriv hB hN hA

/-- Non-vacuity: there are such forces and matrices for the ribbon. -/
example : Body (ribbon 3) (fun _ => silk) (fun _ => 1) ∧
    (∃ N : EuclideanSpace ℝ Unit → Unit → Voigt, ∀ y, Wrinkles (ribbon 3) (fun _ => silk) (fun _ => 1) y (N y)) ∧
    ∃ A, Slopes (ribbon 3) (fun _ => silk) (fun _ => 1) (len 2) A := by
  refine ⟨ribbon_body 3, ?_, exists_slopes (ribbon_body 3) (ribbon_away 3)⟩
  choose N hN using fun y => forces (ribbon_body 3) y
  exact ⟨N, hN⟩

/-- **C166** The states in which no point is at a kink form an open set. -/
theorem C166_open (hB : Body P C t) : IsOpen {y | Away P C y} := by
  rw [isOpen_iff_mem_nhds]
  intro y hy
  have : ∀ q ∈ P.Q, ∀ᶠ z in 𝓝 y, Regular (C q) (strain (P.ori q) (deformed P z q)) := by
    intro q hq
    obtain ⟨T, hT⟩ := exists_leaves (hB.stiff q hq) (hB.symm q hq)
    have hc : ContDiffAt ℝ 2 (fun y => strain (P.ori q) (deformed P y q)) y := contDiffAt_pi.2 (strain_smooth P y q)
    exact hc.continuousAt.eventually (regular_law (hB.stiff q hq) (hB.symm q hq) (hy q hq) hT).2
  exact (Filter.eventually_all_finset P.Q).2 this

/-- **C166** The assembled matrix is symmetric and no displacement has a negative second variation. -/
theorem C166_semidefinite (hB : Body P C t) {n : κ → Voigt} (h : Wrinkles P C t x n) (hx : Away P C x) {A : κ → T3}
    (hA : Slopes P C t x A) : (∀ u v, ⟪tangent P A n x u, v⟫ = ⟪tangent P A n x v, u⟫) ∧
      ∀ v, 0 ≤ ⟪tangent P A n x v, v⟫ := by
  refine ⟨fun u v => ?_, fun v => ?_⟩
  · rw [inner_tangent, inner_tangent]
    refine Finset.sum_congr rfl fun q hq => ?_
    have hs := (point_form hB h hx hA hq).1
    have e1 : ∀ a b : Voigt, TFT.quad a (A q) b = TFT.quad b (A q) a := by
      intro a b
      have h1 := hs 0 1; have h2 := hs 0 2; have h3 := hs 1 2
      simp only [TFT.quad, dotV, mulVec3, Fin.sum_univ_three, h1, h2, h3]; ring
    have e2 : ∀ a b : Surf, EmDer2 a b (n q) = EmDer2 b a (n q) := by
      intro a b; simp only [EmDer2, dot]; ring
    rw [e1, e2]
  · rw [inner_tangent]
    exact Finset.sum_nonneg fun q hq => mul_nonneg ((point_form hB h hx hA hq).2 _).1 (hB.weight q hq).le

/-- **C166** The second variation of a displacement is zero exactly if the displacement is idle: at every point it
moves nothing along the lines of tension, and its strain is taken up by the wrinkles. -/
theorem C166_idle (hB : Body P C t) {n : κ → Voigt} (h : Wrinkles P C t x n) (hx : Away P C x) {A : κ → T3}
    (hA : Slopes P C t x A) (v : EuclideanSpace ℝ J) :
    ⟪tangent P A n x v, v⟫ = 0 ↔ Idle P C x v := by
  rw [inner_tangent, Finset.sum_eq_zero_iff_of_nonneg
    fun q hq => mul_nonneg ((point_form hB h hx hA hq).2 _).1 (hB.weight q hq).le]
  constructor
  · intro h0 q hq
    exact (((point_form hB h hx hA hq).2 _).2).1 ((mul_eq_zero.1 (h0 q hq)).resolve_right (hB.weight q hq).ne')
  · intro h0 q hq
    rw [(((point_form hB h hx hA hq).2 _).2).2 (h0 q hq), zero_mul]

/-- **C166** The matrix is regular exactly if only the displacement zero is idle; then it is positive definite. -/
theorem C166_regular (hB : Body P C t) {n : κ → Voigt} (h : Wrinkles P C t x n) (hx : Away P C x) {A : κ → T3}
    (hA : Slopes P C t x A) : (Function.Injective (tangent P A n x) ↔ ∀ v, Idle P C x v → v = 0) ∧
      ((∀ v, Idle P C x v → v = 0) → ∀ v, v ≠ 0 → 0 < ⟪tangent P A n x v, v⟫) := by
  obtain ⟨hs, hp⟩ := C166_semidefinite hB h hx hA
  have hpos : (∀ v, Idle P C x v → v = 0) → ∀ v, v ≠ 0 → 0 < ⟪tangent P A n x v, v⟫ := by
    intro hi v hv
    refine (hp v).lt_of_ne' fun h0 => hv ?_
    have := hi v ((C166_idle hB h hx hA v).1 h0)
    ext j
    exact congrFun this j
  refine ⟨⟨fun hi v hv => ?_, fun hi => ?_⟩, hpos⟩
  · have h0 := (C166_idle hB h hx hA (WithLp.toLp 2 v)).2 hv
    have h1 : tangent P A n x (WithLp.toLp 2 v) = 0 := semi_null hs hp h0
    have h2 : (WithLp.toLp 2 v : EuclideanSpace ℝ J) = 0 := hi (by rw [h1, map_zero])
    funext j
    exact congrArg (fun w : EuclideanSpace ℝ J => w j) h2
  · rw [injective_iff_map_eq_zero]
    intro v hv
    by_contra hne
    have := hpos hi v hne
    rw [hv, inner_zero_left] at this
    exact lt_irrefl _ this

/-- Non-vacuity: in the ribbon with wrinkles only zero is idle. -/
example : Wrinkles (ribbon 3) (fun _ => silk) (fun _ => 1) (len 2) (fun _ => vec3 0 (3 / 2) 0) ∧
    Away (ribbon 3) (fun _ => silk) (len 2) ∧ ∀ v, Idle (ribbon 3) (fun _ => silk) (len 2) v → v = 0 :=
  ⟨ribbon_wrinkles 3, ribbon_away 3, ribbon_idle 3⟩

/-- **C166** Newton's method on a membrane with wrinkles: around an equilibrium without kinks and with no idle
displacement there is a ball such that the programs, started with a linear solution in this ball, stop by themselves
with a solution that is right up to a constant times the square of the tolerance. -/
theorem C166_newton (hB : Body P C t) (hN : ∀ y, Wrinkles P C t y (N y)) {A : EuclideanSpace ℝ J → κ → T3}
    (hA : ∀ y, Away P C y → Slopes P C t y (A y)) {xs : EuclideanSpace ℝ J} (hx : Away P C xs)
    (h0 : residual P (N xs) xs = 0) (hi : ∀ v, Idle P C xs v → v = 0) :
    ∃ ρ K : ℝ, 0 < ρ ∧ ∀ (s : Solve.Sys (EuclideanSpace ℝ J)) (solve : _ → EuclideanSpace ℝ J → EuclideanSpace ℝ J),
      Assembles s (fun y => residual P (N y) y) (fun y => tangent P (A y) (N y) y) {y | Away P C y} →
      Solver solve → ‖solve s.K0 s.F - xs‖ ≤ ρ →
      ∃ res, Solve.program s solve = .ok res ∧ res.broke = true ∧ ‖res.x - xs‖ ≤ K * (1 / 10 ^ 6) ^ 2 := by
  have hS : {y | Away P C y} ∈ 𝓝 xs := (C166_open hB).mem_nhds hx
  exact Solve.local_newton (R := fun y => residual P (N y) y) (residual_smooth hB hN hx)
    (Filter.mem_of_superset hS fun y hy => residual_deriv hB hN (hA y hy))
    ((C166_regular hB (hN xs) hx (hA xs hx)).1.2 hi) h0 hS

/-- **C166** Such an equilibrium is the only one, among all states, also those with kinks. -/
theorem C166_unique (hB : Body P C t) (hN : ∀ y, Wrinkles P C t y (N y)) {xs y : EuclideanSpace ℝ J}
    (hx : Away P C xs) (h0 : residual P (N xs) xs = 0) (hi : ∀ v, Idle P C xs v → v = 0)
    (hy : residual P (N y) y = 0) : y = xs := by
  classical
  have hS : {y | Away P C y} ∈ 𝓝 xs := (C166_open hB).mem_nhds hx
  have hA : ∀ z, ∃ A, Away P C z → Slopes P C t z A := by
    intro z
    by_cases h : Away P C z
    · obtain ⟨A, hA⟩ := exists_slopes hB h
      exact ⟨A, fun _ => hA⟩
    · exact ⟨fun _ _ _ => 0, fun h' => absurd h' h⟩
  choose A hA using hA
  obtain ⟨ρ, hρ, hm⟩ := Solve.local_min (Φ := potential P C t) (R := fun y => residual P (N y) y)
    (K := fun y => tangent P (A y) (N y) y)
    (Filter.Eventually.of_forall fun z => gradient_potential hB (hN z)) (residual_smooth hB hN hx)
    (Filter.mem_of_superset hS fun z hz => residual_deriv hB hN (hA z hz)) h0
    ((C166_regular hB (hN xs) hx (hA xs hx)).2 hi)
  by_contra hne
  exact strict_unique (convex_potential hB) hρ hm ((C165_equilibrium hB (hN y)).1 hy xs) hne

/-- Non-vacuity: the ribbon under the load 3 is in equilibrium at twice its length. -/
example : residual (ribbon 3) (fun _ => vec3 0 (3 / 2) 0) (len 2) = 0 ∧ Away (ribbon 3) (fun _ => silk) (len 2) ∧
    ∀ v, Idle (ribbon 3) (fun _ => silk) (len 2) v → v = 0 :=
  ⟨ribbon_rest, ribbon_away 3, ribbon_idle 3⟩

/-- **C166** For the variant of the wrapper for linear materials this fails: a parallelogram with wrinkles, away
from kinks and with the wrinkles found, whose assembled matrix is not symmetric and is not minus the derivative of
the residual. -/
theorem C166_linear_violated : Body skew (fun _ => Linear.matrix 1 0 (Acon leaning)) (fun _ => 1) ∧
    Away skew (fun _ => Linear.matrix 1 0 (Acon leaning)) 0 ∧
    (∀ z, Seen (Acov (deformed skew 0 ())) (Linear.matrix 1 0 (Acon leaning))
      (strain (skew.ori ()) (deformed skew 0 ())) skewFound z) ∧
    (∀ r i k, moduli true r 2 0 1 0 1 (skew.ori ()) (deformed skew 0 ()) skewFound i k = .ok (wrong i k)) ∧
    ∀ N : EuclideanSpace ℝ (Fin 2) → Unit → Voigt,
      (∀ y, Wrinkles skew (fun _ => Linear.matrix 1 0 (Acon leaning)) (fun _ => 1) y (N y)) →
      entry skew (fun _ => wrong) (N 0) 0 0 1 ≠ entry skew (fun _ => wrong) (N 0) 0 1 0 ∧
      ¬ HasFDerivAt (fun y => residual skew (N y) y) (-tangent skew (fun _ => wrong) (N 0) 0) 0 := by
  rw [leaning_linear]
  refine ⟨skew_body, skew_away, skew_seen, skew_moduli, fun N hN => ?_⟩
  have hn : N 0 = fun _ => vec3 0 (3 / 20) 0 := by
    funext q
    obtain ⟨T, W, hs, hk⟩ := hN 0 () (by simp [skew])
    obtain ⟨T', W', hs', hk'⟩ := skew_wrinkles () (by simp [skew])
    have := (Relaxed.unique oblique_pos hs hs').1
    funext k
    rw [show q = () from rfl, hk, this, ← hk']
  obtain ⟨e1, e2⟩ := skew_entries _ rfl
  have hne : entry skew (fun _ => wrong) (N 0) 0 0 1 ≠ entry skew (fun _ => wrong) (N 0) 0 1 0 := by
    rw [hn, e1, e2]; norm_num
  refine ⟨hne, fun hd => hne ?_⟩
  obtain ⟨A, hA⟩ := exists_slopes skew_body skew_away
  have hu := neg_injective (hd.unique (residual_deriv skew_body hN hA))
  have hs := (C166_semidefinite skew_body (hN 0) skew_away hA).1
  rw [← hu] at hs
  have := hs (EuclideanSpace.single 1 1) (EuclideanSpace.single 0 1)
  rw [inner_single, inner_single] at this
  exact this

end Verif.Wrinkled
