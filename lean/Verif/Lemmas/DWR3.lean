import Verif.Lemmas.DWR2

/-! # Example states for the goals and duals of the error estimator -/

set_option linter.unusedSimpArgs false

namespace Verif.DWR

open V3 Verif.Geometry Verif.Variation

/-- A point of a flat square, in its reference state. -/
def flatPt : Pt :=
  { ori := ⟨![⟨1, 0, 0⟩, ⟨0, 1, 0⟩], 0, 0, 0⟩, X := 0
    defo := ⟨![⟨1, 0, 0⟩, ⟨0, 1, 0⟩], 0, 0, 0⟩, x := 0, primal := 0
    T := mk3 1 0 0 0 1 0 0 0 1, Tp := mk3 1 0 0 0 1 0 0 0 1
    mmA := fun _ _ => 0, mmD := fun _ _ => 0, mmAi := fun _ _ => 0, mmBi := fun _ _ => 0
    mmCi := fun _ _ => 0, mmDi := fun _ _ => 0
    S0 := fun _ => 0, S1 := fun _ => 0, N := fun _ => 0, M := fun _ => 0, P0 := fun _ => 0 }

theorem flatPt_indep : Indep (flatPt.defo.a 0) (flatPt.defo.a 1) := by
  intro c d h
  have hx := congrArg V3.x h
  have hy := congrArg V3.y h
  simp [flatPt] at hx hy
  exact ⟨hx, hy⟩

theorem flatPt_measure : Variation.measure flatPt.ori = 1 := by
  simp [Variation.measure, V3.norm, flatPt, cross, dot]

/-- Discriminant of the shear example. -/
noncomputable def shH (t : ℝ) : ℝ := Real.sqrt ((3 + t ^ 2) ^ 2 + 4 * t ^ 2)
/-- Length of the unnormalised directions. -/
noncomputable def shD (t : ℝ) : ℝ := Real.sqrt ((3 + t ^ 2 + shH t) ^ 2 + 4 * t ^ 2)
/-- Principal directions of the shear example. -/
noncomputable def shN (t : ℝ) : Fin 2 → V3 :=
  ![⟨(3 + t ^ 2 + shH t) / shD t, 2 * t / shD t, 0⟩, ⟨-(2 * t) / shD t, (3 + t ^ 2 + shH t) / shD t, 0⟩]
/-- Principal values of the shear example. -/
noncomputable def shL (t : ℝ) : Fin 2 → ℝ := ![(5 + t ^ 2 + shH t) / 2, (5 + t ^ 2 - shH t) / 2]
/-- A square stretched by two in the first direction. -/
noncomputable def shP : Pt := { flatPt with defo := ⟨![⟨2, 0, 0⟩, ⟨0, 1, 0⟩], 0, 0, 0⟩ }
/-- Test function: shear. -/
noncomputable def shV : Fld := ⟨0, ⟨![⟨0, 1, 0⟩, 0], 0, 0, 0⟩, 0⟩
/-- The sheared state with its principal directions. -/
noncomputable def shPath (t : ℝ) : Pt := stretchState (shN t) (displaced shP shV t)

theorem shH_sq (t : ℝ) : shH t ^ 2 = (3 + t ^ 2) ^ 2 + 4 * t ^ 2 :=
  Real.sq_sqrt (by positivity)
theorem shD_sq (t : ℝ) : shD t ^ 2 = (3 + t ^ 2 + shH t) ^ 2 + 4 * t ^ 2 :=
  Real.sq_sqrt (by positivity)
theorem shD_pos (t : ℝ) : 0 < shD t := by
  have : 0 ≤ shH t := Real.sqrt_nonneg _
  exact Real.sqrt_pos.2 (by positivity)

theorem shP_indep : Indep (shP.defo.a 0) (shP.defo.a 1) := by
  intro c d h
  have hx := congrArg V3.x h
  have hy := congrArg V3.y h
  simp [shP] at hx hy
  exact ⟨hx, hy⟩

theorem shPath_principal : PrincipalMotion shPath shV := by
  have ho : Orthonormal (shPath 0).ori := by
    refine ⟨?_, ?_, ?_⟩ <;> simp [shPath, stretchState, displaced, shP, flatPt, dot]
  have hm := displaced_moves shP shV shP_indep
  refine ⟨⟨hm.ori, hm.X, hm.x, hm.defo, hm.indep⟩, ho, shN, shL, fun t => rfl, fun t => ?_,
    fun i => ?_⟩
  · have hD := shD_pos t
    have h1 := shH_sq t
    have h2 := shD_sq t
    have a0 : (shPath 0).ori.a 0 = ⟨1, 0, 0⟩ := by
      simp [shPath, stretchState, displaced, shP, flatPt]
    have a1 : (shPath 0).ori.a 1 = ⟨0, 1, 0⟩ := by
      simp [shPath, stretchState, displaced, shP, flatPt]
    have c00 : Acov (shPath t).defo 0 0 = 4 + t ^ 2 := by
      simp [shPath, stretchState, displaced, shP, shV, shift, Acov, dot]; ring
    have c01 : Acov (shPath t).defo 0 1 = t := by
      simp [shPath, stretchState, displaced, shP, shV, shift, Acov, dot]
    have c10 : Acov (shPath t).defo 1 0 = t := by
      simp [shPath, stretchState, displaced, shP, shV, shift, Acov, dot]
    have c11 : Acov (shPath t).defo 1 1 = 1 := by
      simp [shPath, stretchState, displaced, shP, shV, shift, Acov, dot]
    refine ⟨fun i j => ?_, fun i => ?_, fun i => ?_⟩
    · rcases fin2_cases i with rfl | rfl <;> rcases fin2_cases j with rfl | rfl <;>
        simp [shN, dot]
      · field_simp; linarith
      · field_simp; ring
      · field_simp; ring
      · field_simp; linarith
    · rw [a0, a1]
      rcases fin2_cases i with rfl | rfl <;> simp [shN, dot, cross]
    · rw [ho.acon, ho.acon, a0, a1, c00, c01, c10, c11]
      rcases fin2_cases i with rfl | rfl
      · ext <;> simp [shN, shL, dot]
        · field_simp; linear_combination -h1
        · field_simp; ring
      · ext <;> simp [shN, shL, dot]
        · field_simp; ring
        · field_simp; linear_combination h1
  · have hs : HasDerivAt (fun t : ℝ => 3 + t ^ 2) 0 0 := by
      refine (((hasDerivAt_id (0 : ℝ)).pow 2).const_add 3).congr_deriv ?_
      simp
    have ht : HasDerivAt (fun t : ℝ => 2 * t) 2 0 := by
      simpa using (hasDerivAt_id (0 : ℝ)).const_mul 2
    have h4 : HasDerivAt (fun t : ℝ => 4 * t ^ 2) 0 0 := by
      refine (((hasDerivAt_id (0 : ℝ)).pow 2).const_mul 4).congr_deriv ?_
      simp
    have hH : ∃ d, HasDerivAt shH d 0 :=
      ⟨_, ((hs.pow 2).add h4).sqrt (by norm_num)⟩
    obtain ⟨dH, hH⟩ := hH
    have hE := hs.add hH
    have hD : ∃ d, HasDerivAt shD d 0 :=
      ⟨_, ((hE.pow 2).add h4).sqrt (by
        have : 0 ≤ shH 0 := Real.sqrt_nonneg _
        have : (0 : ℝ) < 3 + 0 ^ 2 + shH 0 := by positivity
        simp only [Pi.add_apply, Pi.pow_apply]
        positivity)⟩
    obtain ⟨dD, hD⟩ := hD
    have hne := (shD_pos 0).ne'
    rcases fin2_cases i with rfl | rfl
    · exact ⟨⟨_, _, 0⟩, hE.div hD hne, ht.div hD hne, hasDerivAt_const _ _⟩
    · exact ⟨⟨_, _, 0⟩, ht.neg.div hD hne, hE.div hD hne, hasDerivAt_const _ _⟩

/-- A twisted square. -/
def twistPt : Pt := { flatPt with defo := ⟨![⟨1, 0, 0⟩, ⟨0, 1, 0⟩], 0, 0, ⟨0, 0, 1⟩⟩ }
/-- Test function: more twist. -/
def twistV : Fld := ⟨0, ⟨![0, 0], 0, 0, ⟨0, 0, 1⟩⟩, 0⟩

/-- A sheared square. -/
noncomputable def diagPt : Pt :=
  { flatPt with
    defo := ⟨![⟨2, 1, 0⟩, ⟨1, 2, 0⟩], 0, 0, 0⟩
    T := mk3 (1/2) (1/2) 1 (1/2) (1/2) (-1) (-1/2) (1/2) 0 }
/-- Test function: growth. -/
def diagV : Fld := ⟨0, ⟨![⟨2, 1, 0⟩, ⟨1, 2, 0⟩], 0, 0, 0⟩, 0⟩

theorem diag_principal : PrincipalMotion (displaced diagPt diagV) diagV := by
  have hind : Indep (diagPt.defo.a 0) (diagPt.defo.a 1) := by
    intro c d h
    have hx := congrArg V3.x h
    have hy := congrArg V3.y h
    simp [diagPt] at hx hy
    exact ⟨by linarith, by linarith⟩
  have ho : Orthonormal (displaced diagPt diagV 0).ori := by
    refine ⟨?_, ?_, ?_⟩ <;> simp [displaced, diagPt, flatPt, dot]
  have hs : Real.sqrt 2 * Real.sqrt 2 = 2 := Real.mul_self_sqrt (by norm_num)
  have hp : 0 < Real.sqrt 2 := Real.sqrt_pos.2 (by norm_num)
  let n : Fin 2 → V3 :=
    ![⟨1 / Real.sqrt 2, 1 / Real.sqrt 2, 0⟩, ⟨-1 / Real.sqrt 2, 1 / Real.sqrt 2, 0⟩]
  have a0 : (displaced diagPt diagV 0).ori.a 0 = ⟨1, 0, 0⟩ := by simp [displaced, diagPt, flatPt]
  have a1 : (displaced diagPt diagV 0).ori.a 1 = ⟨0, 1, 0⟩ := by simp [displaced, diagPt, flatPt]
  refine ⟨displaced_moves diagPt diagV hind, ho, fun _ => n,
    fun t => ![9 * (1 + t) ^ 2, (1 + t) ^ 2], fun t => ?_, fun t => ?_,
    fun i => ⟨0, HasVDeriv.const (n i) 0⟩⟩
  · have h2 : Real.sqrt 2 ^ 2 = 2 := by rw [pow_two]; exact hs
    simp only [Transform.spec2con, covBasis_zero, Transform.transformation, a0, a1]
    show mk3 _ _ _ _ _ _ _ _ _ = _
    have e : (1 / Real.sqrt 2) ^ 2 = 1 / 2 := by rw [div_pow, h2]; norm_num
    have e2 : (1 / Real.sqrt 2) * (1 / Real.sqrt 2) = 1 / 2 := by rw [← pow_two, e]
    have e3 : (-1 / Real.sqrt 2) = -(1 / Real.sqrt 2) := by ring
    congr 1
    all_goals simp only [n, dot, e3]
    all_goals simp
    all_goals (try field_simp)
    all_goals (try nlinarith [h2])
  · have c00 : Acov (displaced diagPt diagV t).defo 0 0 = 5 * (1 + t) ^ 2 := by
      simp [displaced, diagPt, diagV, shift, Acov, dot]; ring
    have c01 : Acov (displaced diagPt diagV t).defo 0 1 = 4 * (1 + t) ^ 2 := by
      simp [displaced, diagPt, diagV, shift, Acov, dot]; ring
    have c10 : Acov (displaced diagPt diagV t).defo 1 0 = 4 * (1 + t) ^ 2 := by
      simp [displaced, diagPt, diagV, shift, Acov, dot]; ring
    have c11 : Acov (displaced diagPt diagV t).defo 1 1 = 5 * (1 + t) ^ 2 := by
      simp [displaced, diagPt, diagV, shift, Acov, dot]; ring
    refine ⟨fun i j => ?_, fun i => ?_, fun i => ?_⟩
    · rcases fin2_cases i with rfl | rfl <;> rcases fin2_cases j with rfl | rfl <;>
        simp [n, dot] <;> field_simp <;> nlinarith [hs]
    · rw [a0, a1]
      rcases fin2_cases i with rfl | rfl <;> simp [n, dot, cross]
    · rw [ho.acon, ho.acon, a0, a1, c00, c01, c10, c11]
      rcases fin2_cases i with rfl | rfl <;> ext <;> simp [n, dot] <;> ring

theorem measure_reparam (P : T2) (g1 g2 g3 : Fin 2 → ℝ) (s : Surf) :
    Variation.measure (Linear.reparam P g1 g2 g3 s) = |det2 P| * Variation.measure s := by
  have hc : cross ((Linear.reparam P g1 g2 g3 s).a 0) ((Linear.reparam P g1 g2 g3 s).a 1) =
      det2 P • cross (s.a 0) (s.a 1) := by
    ext <;> simp [Linear.reparam, cross, det2] <;> ring
  unfold Variation.measure
  rw [hc]
  unfold V3.norm
  rw [dot_smul_left, dot_smul_right, ← mul_assoc, Real.sqrt_mul (mul_self_nonneg _),
    Real.sqrt_mul_self_eq_abs]

/-- A displaced point of the square. -/
def movedPt : Pt := { flatPt with x := ⟨1, 0, 0⟩ }

theorem movedPt_measure (P : T2) :
    Variation.measure (reparamPt P (fun _ => 0) (fun _ => 0) (fun _ => 0) movedPt).ori = |det2 P| := by
  have := measure_reparam P (fun _ => 0) (fun _ => 0) (fun _ => 0) movedPt.ori
  have h1 : Variation.measure movedPt.ori = 1 := flatPt_measure
  rw [h1, mul_one] at this
  exact this

end Verif.DWR
