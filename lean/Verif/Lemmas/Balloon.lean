import Verif.Lemmas.BalloonCalc
import Verif.Lemmas.BalloonPoint
import Verif.Model.Balloon
import Mathlib.Analysis.Calculus.BumpFunction.FiniteDimension

/-! # Lemmas: equilibrium of an inflated sphere -/

namespace Verif.Balloon

open V3 Geometry Integrate Fields Verif.Variation ShellTangent WeakForms Hyper Spec.Balloon MeasureTheory

/-! ## Derivatives of the fields -/

theorem pd_smul (i : Fin 2) (c : ℝ) (f : ℝ × ℝ → ℝ) (q : ℝ × ℝ) :
    pd i (fun q => c * f q) q = c * pd i f q := by
  have : (fun q => c * f q) = c • f := rfl
  rw [this, pd_eq, fderiv_const_smul_field]
  rfl

theorem vpd_smul (i : Fin 2) (c : ℝ) (X : ℝ × ℝ → V3) :
    vpd i (fun q => c • X q) = fun q => c • vpd i X q := by
  funext q
  ext
  · exact pd_smul i c _ q
  · exact pd_smul i c _ q
  · exact pd_smul i c _ q

theorem jet_smul (c : ℝ) (X : ℝ × ℝ → V3) (q : ℝ × ℝ) :
    jet (fun q => c • X q) q = scaleS c (jet X q) := by
  simp only [jet, scaleS, vpd_smul]

theorem vpd_zero_of {w : ℝ × ℝ → V3} {q : ℝ × ℝ} (h : w =ᶠ[nhds q] fun _ => 0) (i : Fin 2) :
    vpd i w =ᶠ[nhds q] fun _ => 0 := by
  have key : ∀ (c : V3 → ℝ), c 0 = 0 → ∀ᶠ x in nhds q, pd i (fun q => c (w q)) x = 0 := by
    intro c hc
    filter_upwards [h.eventuallyEq_nhds] with x hx
    rw [pd_congr (g := fun _ => 0) (by filter_upwards [hx] with y hy; rw [hy, hc]), pd_const]
  filter_upwards [key V3.x rfl, key V3.y rfl, key V3.z rfl] with x h1 h2 h3
  ext
  · exact h1
  · exact h2
  · exact h3

/-- The zero field. -/
def zeroS : Surf := ⟨fun _ => 0, 0, 0, 0⟩

theorem jet_zero_of {w : ℝ × ℝ → V3} {q : ℝ × ℝ} (h : w =ᶠ[nhds q] fun _ => 0) : jet w q = zeroS := by
  unfold jet zeroS
  congr 1
  · funext i; exact (vpd_zero_of h i).eq_of_nhds
  · exact (vpd_zero_of (vpd_zero_of h 0) 0).eq_of_nhds
  · exact (vpd_zero_of (vpd_zero_of h 1) 1).eq_of_nhds
  · exact (vpd_zero_of (vpd_zero_of h 0) 1).eq_of_nhds

section
variable {R : ℝ} {X : ℝ × ℝ → V3} {U : Set (ℝ × ℝ)} (hX : SpherePatch R X U)
include hX

theorem diff0 {q : ℝ × ℝ} (hq : q ∈ U) : VDiffAt X q := SmoothOn.diffAt hX.smooth (by norm_num) hX.open' hq

theorem diff1 {q : ℝ × ℝ} (hq : q ∈ U) (i : Fin 2) : VDiffAt (vpd i X) q :=
  SmoothOn.diffAt (SmoothOn.vpd (n := 1) hX.smooth hX.open' i) (by norm_num) hX.open' hq

theorem x_tangent {q : ℝ × ℝ} (hq : q ∈ U) (i : Fin 2) : dot (X q) (vpd i X q) = 0 := by
  have e : (fun q => dot (X q) (X q)) =ᶠ[nhds q] fun _ => R ^ 2 := by
    filter_upwards [hX.open'.mem_nhds hq] with y hy using hX.sphere y hy
  have := pd_congr (i := i) e
  rw [pd_const, pd_dot (diff0 hX hq) (diff0 hX hq), dot_comm (vpd i X q)] at this
  linarith

theorem x_second {q : ℝ × ℝ} (hq : q ∈ U) (i j : Fin 2) :
    dot (X q) (vpd j (vpd i X) q) = -dot (vpd j X q) (vpd i X q) := by
  have e : (fun q => dot (X q) (vpd i X q)) =ᶠ[nhds q] fun _ => 0 := by
    filter_upwards [hX.open'.mem_nhds hq] with y hy using x_tangent hX hy i
  have := pd_congr (i := j) e
  rw [pd_const, pd_dot (diff0 hX hq) (diff1 hX hq i)] at this
  linarith

theorem sph {q : ℝ × ℝ} (hq : q ∈ U) : Sph R (X q) (jet X q) where
  R0 := hX.radius
  xx := hX.sphere q hq
  x1 := x_tangent hX hq 0
  x2 := x_tangent hX hq 1
  x11 := x_second hX hq 0 0
  x12 := by
    have := x_second hX hq 0 1
    rw [dot_comm (vpd 1 X q)] at this
    exact this
  x22 := x_second hX hq 1 1
  pos := hX.outward q hq

end

/-! ## Functions with compact support -/

theorem contDiff_of {n : ℕ} {U K : Set (ℝ × ℝ)} (hU : IsOpen U) (hK : IsCompact K) (hKU : K ⊆ U)
    {F : ℝ × ℝ → ℝ} (hF : ContDiffOn ℝ n F U) (h0 : ∀ q, q ∉ K → F q = 0) : ContDiff ℝ n F := by
  rw [contDiff_iff_contDiffAt]
  intro q
  by_cases hq : q ∈ K
  · exact hF.contDiffAt (hU.mem_nhds (hKU hq))
  · have : F =ᶠ[nhds q] fun _ => 0 := by
      filter_upwards [hK.isClosed.isOpen_compl.mem_nhds hq] with x hx using h0 x hx
    exact contDiffAt_const.congr_of_eventuallyEq this

section
variable {R : ℝ} {X w : ℝ × ℝ → V3} {U : Set (ℝ × ℝ)}

/-- Components of the first divergence. -/
noncomputable def G1 (X w : ℝ × ℝ → V3) (q : ℝ × ℝ) : ℝ := dot (cross (vpd 1 X q) (X q)) (w q)
/-- See `G1`. -/
noncomputable def G2 (X w : ℝ × ℝ → V3) (q : ℝ × ℝ) : ℝ := dot (cross (X q) (vpd 0 X q)) (w q)

/-- Components of the second divergence. -/
noncomputable def F1 (X w : ℝ × ℝ → V3) (q : ℝ × ℝ) : ℝ :=
  (dot (vpd 1 X q) (vpd 1 X q) * dot (X q) (vpd 0 w q)
    - dot (vpd 0 X q) (vpd 1 X q) * dot (X q) (vpd 1 w q)) / dot (cross (vpd 0 X q) (vpd 1 X q)) (X q)
/-- See `F1`. -/
noncomputable def F2 (X w : ℝ × ℝ → V3) (q : ℝ × ℝ) : ℝ :=
  (dot (vpd 0 X q) (vpd 0 X q) * dot (X q) (vpd 1 w q)
    - dot (vpd 0 X q) (vpd 1 X q) * dot (X q) (vpd 0 w q)) / dot (cross (vpd 0 X q) (vpd 1 X q)) (X q)

/-- Radial virtual displacement times the area element. -/
noncomputable def rad (X w : ℝ × ℝ → V3) (q : ℝ × ℝ) : ℝ :=
  dot (cross (vpd 0 X q) (vpd 1 X q)) (w q)

variable (hX : SpherePatch R X U) (hw : SmoothOn 2 w Set.univ)
include hX hw

omit hX in
theorem wdiff0 (q : ℝ × ℝ) : VDiffAt w q :=
  SmoothOn.diffAt hw (by norm_num) isOpen_univ (Set.mem_univ q)

omit hX in
theorem wdiff1 (i : Fin 2) (q : ℝ × ℝ) : VDiffAt (vpd i w) q :=
  SmoothOn.diffAt (SmoothOn.vpd (n := 1) hw isOpen_univ i) (by norm_num) isOpen_univ (Set.mem_univ q)

theorem memb_div {q : ℝ × ℝ} (hq : q ∈ U) :
    memb R (X q) (jet X q) (jet w q)
      = 1 / R * (pd 0 (G1 X w) q + pd 1 (G2 X w) q) + 2 / R * rad X w q := by
  have h0 := diff0 hX hq
  have h1 := diff1 hX hq
  have k := vpd_comm hX.smooth hX.open' hq
  have e1 : pd 0 (G1 X w) q = _ := pd_dot ((h1 1).cross h0) (wdiff0 hw q)
  have e2 : pd 1 (G2 X w) q = _ := pd_dot (h0.cross (h1 0)) (wdiff0 hw q)
  rw [e1, e2, vpd_cross (h1 1) h0, vpd_cross h0 (h1 0), k]
  simp only [memb, jet, rad, dot, cross, add_x, add_y, add_z]
  ring

theorem lap_div {q : ℝ × ℝ} (hq : q ∈ U) :
    lap (X q) (jet X q) (jet w q)
      = pd 0 (F1 X w) q + pd 1 (F2 X w) q - 1 / R * memb R (X q) (jet X q) (jet w q) := by
  have h0 := diff0 hX hq
  have h1 := diff1 hX hq
  have w1 := fun i => wdiff1 hw i q
  have kX := vpd_comm hX.smooth hX.open' hq
  have kw := vpd_comm hw isOpen_univ (Set.mem_univ q)
  have hv : dot (cross (vpd 0 X q) (vpd 1 X q)) (X q) ≠ 0 := (hX.outward q hq).ne'
  have hd := divergence (sph hX hq) (jet w q)
  have e1 : pd 0 (F1 X w) q = _ := pd_div
    ((((h1 1).dot (h1 1)).fun_mul (h0.dot (w1 0))).fun_sub (((h1 0).dot (h1 1)).fun_mul (h0.dot (w1 1))))
    (((h1 0).cross (h1 1)).dot h0) hv
  have e2 : pd 1 (F2 X w) q = _ := pd_div
    ((((h1 0).dot (h1 0)).fun_mul (h0.dot (w1 1))).fun_sub (((h1 0).dot (h1 1)).fun_mul (h0.dot (w1 0))))
    (((h1 0).cross (h1 1)).dot h0) hv
  rw [pd_sub (((h1 1).dot (h1 1)).fun_mul (h0.dot (w1 0))) (((h1 0).dot (h1 1)).fun_mul (h0.dot (w1 1))),
    pd_mul ((h1 1).dot (h1 1)) (h0.dot (w1 0)), pd_mul ((h1 0).dot (h1 1)) (h0.dot (w1 1)),
    pd_dot (h1 1) (h1 1), pd_dot h0 (w1 0), pd_dot (h1 0) (h1 1), pd_dot h0 (w1 1),
    pd_dot ((h1 0).cross (h1 1)) h0, vpd_cross (h1 0) (h1 1), kX, kw] at e1
  rw [pd_sub (((h1 0).dot (h1 0)).fun_mul (h0.dot (w1 1))) (((h1 0).dot (h1 1)).fun_mul (h0.dot (w1 0))),
    pd_mul ((h1 0).dot (h1 0)) (h0.dot (w1 1)), pd_mul ((h1 0).dot (h1 1)) (h0.dot (w1 0)),
    pd_dot (h1 0) (h1 0), pd_dot h0 (w1 1), pd_dot (h1 0) (h1 1), pd_dot h0 (w1 0),
    pd_dot ((h1 0).cross (h1 1)) h0, vpd_cross (h1 0) (h1 1)] at e2
  have z0 : dot (cross (vpd 0 X q) (vpd 1 X q)) (vpd 0 X q) = 0 := by
    rw [dot_comm]; exact dot_cross_left _ _
  have z1 : dot (cross (vpd 0 X q) (vpd 1 X q)) (vpd 1 X q) = 0 := by
    rw [dot_comm]; exact dot_cross_right _ _
  rw [z0] at e1
  rw [z1] at e2
  rw [eq_sub_iff_add_eq, ← hd, e1, e2]
  have c1 : dot (vpd 1 (vpd 0 X) q) (vpd 1 X q) = dot (vpd 1 X q) (vpd 1 (vpd 0 X) q) := dot_comm _ _
  have c2 : dot (vpd 1 (vpd 0 X) q) (vpd 0 X q) = dot (vpd 0 X q) (vpd 1 (vpd 0 X) q) := dot_comm _ _
  rw [c1, c2]
  simp only [jet, vol]
  rw [c1]
  ring

end

/-! ## The residual -/

section
variable {R : ℝ} {X w : ℝ × ℝ → V3} {U : Set (ℝ × ℝ)}

/-- Membrane force of the deformed sphere for the stresses `s` at the nodes. -/
noncomputable def nTot (r : Rule) (t : ℝ) (s : Fin r.n → ℝ) : ℝ := ∑ j, r.w j * s j * t
/-- Bending moment of the deformed sphere for the stresses `s` at the nodes. -/
noncomputable def mTot (r : Rule) (t : ℝ) (s : Fin r.n → ℝ) : ℝ := ∑ j, r.w j * (r.ξ j * t) * s j * t

/-- The stresses at the nodes are multiples of the inverse metric. -/
def IsoAt (L : Surf → Law) (r : Rule) (t lam : ℝ) (s : Fin r.n → ℝ) (S : Surf) : Prop :=
  ∀ j a b, (L S).stress (r.ξ j * t) (Gblock (scaleS lam S) (r.ξ j * t)) (up a) (up b)
    = s j * Acon S a b

theorem resultant_iso {L : Surf → Law} {r : Rule} {t lam : ℝ} {s : Fin r.n → ℝ} {S : Surf}
    (h : IsoAt L r t lam s S) :
    resultant (L S) r t 0 (scaleS lam S) = isoV (nTot r t s) S ∧
    resultant (L S) r t 1 (scaleS lam S) = isoV (mTot r t s) S := by
  have key : ∀ k j, stressV ((L S).stress (r.ξ j * t) (Gblock (scaleS lam S) (r.ξ j * t))) k
      = s j * vec3 (Acon S 0 0) (Acon S 1 1) (Acon S 0 1) k := by
    intro k j
    rcases fin3_cases k with rfl | rfl | rfl
    · exact h j 0 0
    · exact h j 1 1
    · exact h j 0 1
  have iso : ∀ c k, isoV c S k = c * vec3 (Acon S 0 0) (Acon S 1 1) (Acon S 0 1) k := by
    intro c k
    rcases fin3_cases k with rfl | rfl | rfl <;> rfl
  constructor
  · funext k
    simp only [resultant, integrateZ, iso, nTot, Finset.sum_mul, key]
    apply Finset.sum_congr rfl
    intro j _
    ring
  · funext k
    simp only [resultant, integrateZ, iso, mTot, Finset.sum_mul, key]
    apply Finset.sum_congr rfl
    intro j _
    ring

theorem EmDer_zero (s : Surf) (N : Voigt) : dotV N (EmDer s zeroS) = 0 := by
  simp [dotV, Fin.sum_univ_three, EmDer, zeroS, dot]

theorem EfDer_zero (s : Surf) (N : Voigt) : dotV N (EfDer s zeroS) = 0 := by
  have : var1 s zeroS = 0 := by
    have m : mvec s zeroS = 0 := by ext <;> simp [mvec, zeroS, cross]
    unfold var1
    rw [m]
    ext <;> simp [dot]
  have e : ∀ k, EfDer s zeroS k = 0 := by
    intro k
    show -(dbl3 (fun j => deriv2dot zeroS (normal s) j + deriv2dot s (var1 s zeroS) j) k) = 0
    rw [this]
    rcases fin3_cases k with rfl | rfl | rfl <;> simp [dbl3, deriv2dot, zeroS, dot]
  simp [dotV, e]

theorem integrals (hX : SpherePatch R X U) (hw : TestField w U) :
    (Integrable (pd 0 (G1 X w)) ∧ ∫ q, pd 0 (G1 X w) q = 0) ∧
    (Integrable (pd 1 (G2 X w)) ∧ ∫ q, pd 1 (G2 X w) q = 0) ∧
    (Integrable (pd 0 (F1 X w)) ∧ ∫ q, pd 0 (F1 X w) q = 0) ∧
    (Integrable (pd 1 (F2 X w)) ∧ ∫ q, pd 1 (F2 X w) q = 0) ∧ Integrable (rad X w) := by
  obtain ⟨K, hK, hKU, h0⟩ := hw.support
  have X0 : SmoothOn 1 X U := SmoothOn.mono hX.smooth (by norm_num) subset_rfl
  have X1 := fun i => SmoothOn.vpd (n := 1) hX.smooth hX.open' i
  have w0 : SmoothOn 1 w U := SmoothOn.mono hw.smooth (by norm_num) (Set.subset_univ U)
  have w1 := fun i => SmoothOn.mono (SmoothOn.vpd (n := 1) hw.smooth isOpen_univ i) le_rfl
    (Set.subset_univ U)
  have wz : ∀ q, q ∉ K → ∀ i, vpd i w q = 0 := by
    intro q hq i
    have : w =ᶠ[nhds q] fun _ => 0 := by
      filter_upwards [hK.isClosed.isOpen_compl.mem_nhds hq] with x hx using h0 x hx
    exact (vpd_zero_of this i).eq_of_nhds
  have v0 : ∀ q ∈ U, dot (cross (vpd 0 X q) (vpd 1 X q)) (X q) ≠ 0 := fun q hq => (hX.outward q hq).ne'
  have dz : ∀ u : V3, dot u 0 = 0 := by intro u; simp [dot]
  refine ⟨integral_pd hX.open' hK hKU (((X1 1).cross X0).dot w0) (fun q hq => ?_) 0,
    integral_pd hX.open' hK hKU ((X0.cross (X1 0)).dot w0) (fun q hq => ?_) 1,
    integral_pd hX.open' hK hKU (F := F1 X w) (ContDiffOn.div
      ((((X1 1).dot (X1 1)).mul (X0.dot (w1 0))).sub (((X1 0).dot (X1 1)).mul (X0.dot (w1 1))))
      (((X1 0).cross (X1 1)).dot X0) v0) (fun q hq => ?_) 0,
    integral_pd hX.open' hK hKU (F := F2 X w) (ContDiffOn.div
      ((((X1 0).dot (X1 0)).mul (X0.dot (w1 1))).sub (((X1 0).dot (X1 1)).mul (X0.dot (w1 0))))
      (((X1 0).cross (X1 1)).dot X0) v0) (fun q hq => ?_) 1, ?_⟩
  · show dot _ (w q) = 0
    rw [h0 q hq, dz]
  · show dot _ (w q) = 0
    rw [h0 q hq, dz]
  · simp [F1, wz q hq, dz]
  · simp [F2, wz q hq, dz]
  · have hc : ContDiff ℝ 1 (rad X w) := contDiff_of hX.open' hK hKU (((X1 0).cross (X1 1)).dot w0)
      (fun q hq => by rw [rad, h0 q hq, dz])
    exact hc.continuous.integrable_of_hasCompactSupport
      (HasCompactSupport.intro hK fun q hq => by unfold rad; rw [h0 q hq, dz])

/-- Residual of the sphere stretched by `lam`. -/
theorem residual_eq (hX : SpherePatch R X U) (hw : TestField w U) {L : Surf → Law} {r : Rule}
    {t lam p : ℝ} (hl : 0 < lam) {s : Fin r.n → ℝ}
    (hs : ∀ q ∈ U, IsoAt L r t lam s (jet X q)) :
    residual L r t p X (fun q => lam • X q) w
      = (p - 2 / R * (lam * nTot r t s + mTot r t s / R)) * ∫ q, rad X w q := by
  obtain ⟨⟨i1, z1⟩, ⟨i2, z2⟩, ⟨i3, z3⟩, ⟨i4, z4⟩, i5⟩ := integrals hX hw
  obtain ⟨K, hK, hKU, h0⟩ := hw.support
  set n := nTot r t s
  set m := mTot r t s
  set c := lam * n + m / R
  have key : ∀ q, force (L (jet X q)) r t (jet (fun q => lam • X q) q) (jet w q)
        * Variation.measure (jet X q)
      + pressVec p (Variation.measure (jet X q)) (jet (fun q => lam • X q) q) (w q)
      = ((-(c / R) * pd 0 (G1 X w) q + -(c / R) * pd 1 (G2 X w) q)
        + (m * pd 0 (F1 X w) q + m * pd 1 (F2 X w) q)) + (p - 2 / R * c) * rad X w q := by
    intro q
    by_cases hq : q ∈ U
    · have hS := sph hX hq
      have hR := hS.R0
      obtain ⟨rn, rm⟩ := resultant_iso (hs q hq)
      have e1 := membrane_work hS lam n (jet w q)
      have e2 := bending_work hS hl m (jet w q)
      have e3 := memb_div hX hw.smooth hq
      have e4 := lap_div hX hw.smooth hq
      have e5 : pressVec p (Variation.measure (jet X q)) (scaleS lam (jet X q)) (w q)
          = p * rad X w q := by
        have e6 : rad X w q = vol (X q) (jet X q) / R ^ 2 * dot (X q) (w q) := by
          have : rad X w q = dot (cross ((jet X q).a 0) ((jet X q).a 1)) (w q) := rfl
          rw [this, cross_sph hS, dot_smul_left]
        unfold pressVec
        rw [normal_scale hS hl, measure_sph hS, dot_smul_right, e6, dot_comm (w q)]
        field_simp
      rw [jet_smul, e5, force, internalForce, rn, rm]
      have e7 : -(dotV (isoV n (jet X q)) (EmDer (scaleS lam (jet X q)) (jet w q))
          + dotV (isoV m (jet X q)) (EfDer (scaleS lam (jet X q)) (jet w q)))
          * Variation.measure (jet X q)
          = -(n * lam * memb R (X q) (jet X q) (jet w q) - m * lap (X q) (jet X q) (jet w q)) := by
        rw [← e1]; linarith
      rw [e7, e4, e3]
      show _ = _ + (p - 2 / R * (lam * n + m / R)) * _
      have : c = lam * n + m / R := rfl
      rw [this]
      ring
    · have hqK : q ∉ K := fun h => hq (hKU h)
      have hz : w =ᶠ[nhds q] fun _ => 0 := by
        filter_upwards [hK.isClosed.isOpen_compl.mem_nhds hqK] with x hx using h0 x hx
      have near : ∀ {F : ℝ × ℝ → ℝ} (i : Fin 2), (∀ y, y ∉ K → F y = 0) → pd i F q = 0 := by
        intro F i hF
        rw [pd_congr (g := fun _ => 0), pd_const]
        filter_upwards [hK.isClosed.isOpen_compl.mem_nhds hqK] with x hx using hF x hx
      have wz : ∀ y, y ∉ K → ∀ i, vpd i w y = 0 := by
        intro y hy i
        have : w =ᶠ[nhds y] fun _ => 0 := by
          filter_upwards [hK.isClosed.isOpen_compl.mem_nhds hy] with x hx using h0 x hx
        exact (vpd_zero_of this i).eq_of_nhds
      have dz : ∀ u : V3, dot u 0 = 0 := by intro u; simp [dot]
      rw [jet_zero_of hz, near 0 (F := G1 X w) (fun y hy => by simp [G1, h0 y hy, dz]),
        near 1 (F := G2 X w) (fun y hy => by simp [G2, h0 y hy, dz]),
        near 0 (F := F1 X w) (fun y hy => by simp [F1, wz y hy, dz]),
        near 1 (F := F2 X w) (fun y hy => by simp [F2, wz y hy, dz]),
        force, internalForce, EmDer_zero, EfDer_zero]
      have : w q = 0 := hz.eq_of_nhds
      simp [pressVec, rad, this, dot]
  unfold residual
  rw [integral_congr_ae (Filter.Eventually.of_forall key)]
  have a1 : Integrable fun q => -(c / R) * pd 0 (G1 X w) q := i1.const_mul _
  have a2 : Integrable fun q => -(c / R) * pd 1 (G2 X w) q := i2.const_mul _
  have a3 : Integrable fun q => m * pd 0 (F1 X w) q := i3.const_mul _
  have a4 : Integrable fun q => m * pd 1 (F2 X w) q := i4.const_mul _
  have a5 : Integrable fun q => (p - 2 / R * c) * rad X w q := i5.const_mul _
  have b1 : Integrable fun q => -(c / R) * pd 0 (G1 X w) q + -(c / R) * pd 1 (G2 X w) q := a1.add a2
  have b2 : Integrable fun q => m * pd 0 (F1 X w) q + m * pd 1 (F2 X w) q := a3.add a4
  have b3 : Integrable fun q => (-(c / R) * pd 0 (G1 X w) q + -(c / R) * pd 1 (G2 X w) q)
      + (m * pd 0 (F1 X w) q + m * pd 1 (F2 X w) q) := b1.add b2
  rw [integral_add b3 a5, integral_add b1 b2, integral_add a1 a2, integral_add a3 a4]
  simp only [integral_const_mul, z1, z2, z3, z4]
  ring

/-- There is a virtual displacement which changes the enclosed volume. -/
theorem exists_test (hX : SpherePatch R X U) : ∃ w, TestField w U ∧ 0 < ∫ q, rad X w q := by
  obtain ⟨q0, hq0⟩ := hX.nonempty
  obtain ⟨f, fs, fc, fd, fr, f1⟩ := exists_contDiff_tsupport_subset (n := 2) (hX.open'.mem_nhds hq0)
  have f0 : ∀ q, 0 ≤ f q := fun q => (fr ⟨q, rfl⟩).1
  have fz : ∀ q, q ∉ tsupport f → f q = 0 := fun q hq => image_eq_zero_of_notMem_tsupport hq
  have sm : ∀ c : V3 → ℝ, ContDiffOn ℝ 2 (fun q => c (X q)) U →
      ContDiff ℝ 2 (fun q => f q * c (X q)) := by
    intro c hc
    have : ContDiffOn ℝ (2 : ℕ) (fun q => f q * c (X q)) U := (fd.contDiffOn).mul hc
    exact contDiff_of hX.open' fc fs this (fun q hq => by rw [fz q hq, zero_mul])
  have hw : TestField (fun q => f q • X q) U :=
    { smooth := ⟨(sm V3.x hX.smooth.1).contDiffOn, (sm V3.y hX.smooth.2.1).contDiffOn,
        (sm V3.z hX.smooth.2.2).contDiffOn⟩
      support := ⟨tsupport f, fc, fs, fun q hq => by rw [fz q hq]; ext <;> simp⟩ }
  refine ⟨_, hw, ?_⟩
  have X0 : SmoothOn 1 X U := SmoothOn.mono hX.smooth (by norm_num) subset_rfl
  have X1 := fun i => SmoothOn.vpd (n := 1) hX.smooth hX.open' i
  have w0 : SmoothOn 1 (fun q => f q • X q) U :=
    SmoothOn.mono hw.smooth (by norm_num) (Set.subset_univ U)
  have e : ∀ q, rad X (fun q => f q • X q) q = f q * dot (cross (vpd 0 X q) (vpd 1 X q)) (X q) :=
    fun q => dot_smul_right _ _ _
  have z : ∀ q, q ∉ tsupport f → rad X (fun q => f q • X q) q = 0 := by
    intro q hq
    rw [e, fz q hq, zero_mul]
  have hc : ContDiff ℝ 1 (rad X fun q => f q • X q) :=
    contDiff_of hX.open' fc fs (((X1 0).cross (X1 1)).dot w0) z
  refine hc.continuous.integral_pos_of_hasCompactSupport_nonneg_nonzero
    (HasCompactSupport.intro fc z) (fun q => ?_) (x := q0) ?_
  · rw [e]
    by_cases hq : q ∈ U
    · exact mul_nonneg (f0 q) (hX.outward q hq).le
    · rw [fz q (fun h => hq (fs h)), zero_mul]; rfl
  · rw [e, f1, one_mul]
    exact (hX.outward q0 hq0).ne'

theorem balance_iff (hX : SpherePatch R X U) {L : Surf → Law} {r : Rule}
    {t lam p : ℝ} (hl : 0 < lam) {s : Fin r.n → ℝ}
    (hs : ∀ q ∈ U, IsoAt L r t lam s (jet X q)) :
    (∀ w, TestField w U → residual L r t p X (fun q => lam • X q) w = 0)
      ↔ p = 2 / R * ∑ j, r.w j * t * (lam + r.ξ j * t / R) * s j := by
  have e : lam * nTot r t s + mTot r t s / R
      = ∑ j, r.w j * t * (lam + r.ξ j * t / R) * s j := by
    simp only [nTot, mTot, Finset.mul_sum, Finset.sum_div, ← Finset.sum_add_distrib]
    apply Finset.sum_congr rfl
    intro j _
    ring
  rw [← e]
  constructor
  · intro h
    obtain ⟨w, hw, hp⟩ := exists_test hX
    have := h w hw
    rw [residual_eq hX hw hl hs] at this
    rcases mul_eq_zero.1 this with k | k
    · linarith
    · exact absurd k hp.ne'
  · intro h w hw
    rw [residual_eq hX hw hl hs, h]
    ring

/-- Residual of the sphere stretched by `lam`, without bending. -/
theorem residualMembrane_eq (hX : SpherePatch R X U) (hw : TestField w U) {L : Surf → Law} {r : Rule}
    {t lam p : ℝ} (hl : 0 < lam) {s : Fin r.n → ℝ}
    (hs : ∀ q ∈ U, IsoAt L r t lam s (jet X q)) :
    residualMembrane L r t p X (fun q => lam • X q) w
      = (p - 2 / R * (lam * nTot r t s)) * ∫ q, rad X w q := by
  obtain ⟨⟨i1, z1⟩, ⟨i2, z2⟩, _, _, i5⟩ := integrals hX hw
  obtain ⟨K, hK, hKU, h0⟩ := hw.support
  set n := nTot r t s
  have key : ∀ q, internalForceMembrane (jet (fun q => lam • X q) q) (jet w q)
        (resultant (L (jet X q)) r t 0 (jet (fun q => lam • X q) q)) * Variation.measure (jet X q)
      + pressVec p (Variation.measure (jet X q)) (jet (fun q => lam • X q) q) (w q)
      = (-(lam * n / R) * pd 0 (G1 X w) q + -(lam * n / R) * pd 1 (G2 X w) q)
        + (p - 2 / R * (lam * n)) * rad X w q := by
    intro q
    by_cases hq : q ∈ U
    · have hS := sph hX hq
      have hR := hS.R0
      obtain ⟨rn, _⟩ := resultant_iso (hs q hq)
      have e1 := membrane_work hS lam n (jet w q)
      have e3 := memb_div hX hw.smooth hq
      have e5 : pressVec p (Variation.measure (jet X q)) (scaleS lam (jet X q)) (w q)
          = p * rad X w q := by
        have e6 : rad X w q = vol (X q) (jet X q) / R ^ 2 * dot (X q) (w q) := by
          have : rad X w q = dot (cross ((jet X q).a 0) ((jet X q).a 1)) (w q) := rfl
          rw [this, cross_sph hS, dot_smul_left]
        unfold pressVec
        rw [normal_scale hS hl, measure_sph hS, dot_smul_right, e6, dot_comm (w q)]
        field_simp
      rw [jet_smul, e5, internalForceMembrane, rn, neg_mul, e1, e3]
      ring
    · have hqK : q ∉ K := fun h => hq (hKU h)
      have hz : w =ᶠ[nhds q] fun _ => 0 := by
        filter_upwards [hK.isClosed.isOpen_compl.mem_nhds hqK] with x hx using h0 x hx
      have near : ∀ {F : ℝ × ℝ → ℝ} (i : Fin 2), (∀ y, y ∉ K → F y = 0) → pd i F q = 0 := by
        intro F i hF
        rw [pd_congr (g := fun _ => 0), pd_const]
        filter_upwards [hK.isClosed.isOpen_compl.mem_nhds hqK] with x hx using hF x hx
      have dz : ∀ u : V3, dot u 0 = 0 := by intro u; simp [dot]
      rw [jet_zero_of hz, near 0 (F := G1 X w) (fun y hy => by simp [G1, h0 y hy, dz]),
        near 1 (F := G2 X w) (fun y hy => by simp [G2, h0 y hy, dz]),
        internalForceMembrane, EmDer_zero]
      have : w q = 0 := hz.eq_of_nhds
      simp [pressVec, rad, this, dot]
  unfold residualMembrane
  rw [integral_congr_ae (Filter.Eventually.of_forall key)]
  have a1 : Integrable fun q => -(lam * n / R) * pd 0 (G1 X w) q := i1.const_mul _
  have a2 : Integrable fun q => -(lam * n / R) * pd 1 (G2 X w) q := i2.const_mul _
  have a5 : Integrable fun q => (p - 2 / R * (lam * n)) * rad X w q := i5.const_mul _
  have b1 : Integrable fun q => -(lam * n / R) * pd 0 (G1 X w) q + -(lam * n / R) * pd 1 (G2 X w) q :=
    a1.add a2
  rw [integral_add b1 a5, integral_add a1 a2]
  simp only [integral_const_mul, z1, z2]
  ring

theorem membrane_iff (hX : SpherePatch R X U) {L : Surf → Law} {r : Rule}
    {t lam p : ℝ} (hl : 0 < lam) {s : Fin r.n → ℝ}
    (hs : ∀ q ∈ U, IsoAt L r t lam s (jet X q)) :
    (∀ w, TestField w U → residualMembrane L r t p X (fun q => lam • X q) w = 0)
      ↔ p = 2 / R * ∑ j, r.w j * t * lam * s j := by
  have e : lam * nTot r t s = ∑ j, r.w j * t * lam * s j := by
    simp only [nTot, Finset.mul_sum]
    apply Finset.sum_congr rfl
    intro j _
    ring
  rw [← e]
  constructor
  · intro h
    obtain ⟨w, hw, hp⟩ := exists_test hX
    have := h w hw
    rw [residualMembrane_eq hX hw hl hs] at this
    rcases mul_eq_zero.1 this with k | k
    · linarith
    · exact absurd k hp.ne'
  · intro h w hw
    rw [residualMembrane_eq hX hw hl hs, h]
    ring

end

end Verif.Balloon
