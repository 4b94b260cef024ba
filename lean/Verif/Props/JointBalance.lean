import Verif.Lemmas.JointBalance

/-!
# Balance of interfaces

C156: the forces of weak interfaces are objective and in equilibrium.
-/

namespace Verif.JointBalance

open V3 Verif.Geometry Verif.Variation Verif.WeakForms Verif.Balance

variable {ι ι' κ : Type}

/-! ## Equilibrium -/

/-- **C156** (resultant) The coupling forces of all basis functions of both patches add up to zero, in every
state, with or without a gap. -/
theorem C156_resultant (D : Penalty κ) (A : Patch ι κ) (B : Patch ι' κ) (hA : Unity D A) (hB : Unity D B) :
    (vsum A.I fun i => rowsL D A B i) + (vsum B.I fun j => rowsR D A B j) = 0 := by
  refine eq_of_dot (fun w => ?_)
  rw [dot_add_right, dot_vsum, dot_vsum, total D A B (fun _ => w) (fun _ => w)]
  have z : dot w 0 = 0 := by simp [dot]
  rw [z]
  refine Finset.sum_eq_zero (fun q hq => ?_)
  rw [position_const _ _ (hA q hq), position_const _ _ (hB q hq), const_surface w _ _ (hA q hq) absent,
    const_surface w _ _ (hB q hq) absent]
  have h0 := work_smul D A B q 0 w w absent absent
  rw [absent_smul, work_eq]
  rw [absent_smul, work_eq] at h0
  simp only [dot_sub_left, dot_smul_left] at h0 ⊢
  linear_combination h0

/-- **C156** (moment) The moments of the coupling forces, acting at the deformed control points, add up to the
moment that the penalty exerts through the undeformed gap, in every regular state. -/
theorem C156_moment (D : Penalty κ) (A : Patch ι κ) (B : Patch ι' κ) (hA : Regular D A) (hB : Regular D B) :
    (vsum A.I fun i => cross (A.P i) (rowsL D A B i)) + (vsum B.I fun j => cross (B.P j) (rowsR D A B j))
      = vsum D.Q fun q => (D.μ q * D.a0 q) • cross (A.place q - B.place q) (A.place0 q - B.place0 q) := by
  refine eq_of_dot (fun w => ?_)
  have e : ∀ a b : V3, dot w (cross a b) = dot (cross w a) b := by
    intro a b; simp [dot, cross]; ring
  rw [dot_add_right, dot_vsum, dot_vsum, dot_vsum]
  rw [Finset.sum_congr rfl (fun i _ => e (A.P i) (rowsL D A B i)),
    Finset.sum_congr rfl (fun j _ => e (B.P j) (rowsR D A B j)),
    total D A B (fun i => cross w (A.P i)) (fun j => cross w (B.P j))]
  refine Finset.sum_congr rfl (fun q hq => ?_)
  rw [position_cross, position_cross, spin_surface, spin_surface, dot_smul_right]
  exact work_spin D A B q (hA q hq).1 (hB q hq).1 (hA q hq).2 (hB q hq).2 w

/-- **C156** (moment, partial) Where the undeformed patches meet, the moments balance.  Missing: patches with a
gap, see `C156_gap_violated`. -/
theorem C156_moment_partial (D : Penalty κ) (A : Patch ι κ) (B : Patch ι' κ) (hA : Regular D A)
    (hB : Regular D B) (h : Meet D A B) :
    (vsum A.I fun i => cross (A.P i) (rowsL D A B i)) + (vsum B.I fun j => cross (B.P j) (rowsR D A B j)) = 0 := by
  rw [C156_moment D A B hA hB]
  refine eq_of_dot (fun w => ?_)
  rw [dot_vsum]
  have z : dot w 0 = 0 := by simp [dot]
  rw [z]
  refine Finset.sum_eq_zero (fun q hq => ?_)
  rw [h q hq]
  simp [dot, cross]

/-! ## Objectivity -/

/-- **C156** (objectivity, partial) Where the undeformed patches meet, a rigid motion of the deformed patches
rotates the coupling force of every basis function.  Missing: patches with a gap, see `C156_gap_violated`. -/
theorem C156_objective_partial (D : Penalty κ) (A : Patch ι κ) (B : Patch ι' κ) (hA : Unity D A) (hB : Unity D B)
    (h : Meet D A B) (R : Rotation) (b : V3) :
    (∀ i, rowsL D (A.moved R b) (B.moved R b) i = R.act (rowsL D A B i)) ∧
    ∀ j, rowsR D (A.moved R b) (B.moved R b) j = R.act (rowsR D A B j) := by
  constructor
  · intro i
    refine eq_of_act (R := R) (fun w => ?_)
    rw [R.dot_act, dot_rowsL, dot_rowsL]
    refine Finset.sum_congr rfl (fun q hq => ?_)
    rw [← work_moved D A B R b q (hA q hq) (hB q hq) (h q hq), move_dirField, act_smul, act_zero, move_absent]
    rfl
  · intro j
    refine eq_of_act (R := R) (fun w => ?_)
    rw [R.dot_act, dot_rowsR, dot_rowsR]
    refine Finset.sum_congr rfl (fun q hq => ?_)
    rw [← work_moved D A B R b q (hA q hq) (hB q hq) (h q hq), move_dirField, act_smul, act_zero, move_absent]
    rfl

/-- **C156** (rigid motions) A rigid motion of the undeformed patches causes at every basis function of the
left patch exactly the force of the penalty against the rotation of the gap: none where the patches meet. -/
theorem C156_rigid (D : Penalty κ) (A : Patch ι κ) (B : Patch ι' κ) (hA : Unity D A) (hB : Unity D B)
    (R : Rotation) (b : V3) (i : ι) :
    rowsL D (A.atRest.moved R b) (B.atRest.moved R b) i
      = vsum D.Q fun q => (-(D.μ q * D.a0 q * (A.φ q i).val)) •
          (R.act (A.place0 q - B.place0 q) - (A.place0 q - B.place0 q)) := by
  refine eq_of_dot (fun w => ?_)
  rw [dot_rowsL, dot_vsum]
  refine Finset.sum_congr rfl (fun q hq => ?_)
  have pA : PartitionOfUnity A.atRest.I (A.atRest.φ q) := hA q hq
  have pB : PartitionOfUnity B.atRest.I (B.atRest.φ q) := hB q hq
  have tA := side_moved A.atRest R b q pA
  have tB := side_moved B.atRest R b q pB
  have rA : (A.atRest.moved R b).rest q = A.atRest.side q := rfl
  have rB : (B.atRest.moved R b).rest q = B.atRest.side q := rfl
  rw [work_eq, tA.n, tB.n, tA.o, tB.o, rA, rB, R.dot_act, R.dot_act, R.dot_act, disp_eq, disp_eq,
    place_moved _ R b q pA, place_moved _ R b q pB, act_sub]
  have e1 : A.atRest.place q = A.place0 q := rfl
  have e2 : B.atRest.place q = B.place0 q := rfl
  have e3 : (A.atRest.moved R b).place0 q = A.place0 q := rfl
  have e4 : (B.atRest.moved R b).place0 q = B.place0 q := rfl
  have e5 : (A.atRest.moved R b).φ q i = A.φ q i := rfl
  rw [e1, e2, e3, e4, e5]
  generalize R.act (A.place0 q) = x
  generalize R.act (B.place0 q) = y
  simp only [dot, sub_x, sub_y, sub_z, add_x, add_y, add_z, smul_x, smul_y, smul_z, zero_x, zero_y, zero_z]
  ring

/-- **C156** (rigid motions, partial) Where the undeformed patches meet, a rigid motion causes no force. -/
theorem C156_rigid_partial (D : Penalty κ) (A : Patch ι κ) (B : Patch ι' κ) (hA : Unity D A) (hB : Unity D B)
    (h : Meet D A B) (R : Rotation) (b : V3) (i : ι) :
    rowsL D (A.atRest.moved R b) (B.atRest.moved R b) i = 0 := by
  rw [C156_rigid D A B hA hB]
  refine eq_of_dot (fun w => ?_)
  rw [dot_vsum]
  have z : dot w 0 = 0 := by simp [dot]
  rw [z]
  refine Finset.sum_eq_zero (fun q hq => ?_)
  rw [h q hq]
  simp [dot, Rotation.act]

/-- **C156** (objectivity of the tangent) The nonlinear matrix of the moved patches, for rotated fields, is that
of the patches, with or without a gap. -/
theorem C156_tangent (D : Penalty κ) (A : Patch ι κ) (B : Patch ι' κ) (hA : Unity D A) (hB : Unity D B)
    (R : Rotation) (b : V3) {q : κ} (hq : q ∈ D.Q) (xL xR yL yR : V3) (vL vR wL wR : Surf) :
    slope D (A.moved R b) (B.moved R b) q (R.act xL) (R.act xR) (R.move vL) (R.move vR)
        (R.act yL) (R.act yR) (R.move wL) (R.move wR)
      = slope D A B q xL xR vL vR yL yR wL wR := by
  have tA := side_moved A R b q (hA q hq)
  have tB := side_moved B R b q (hB q hq)
  have rA : (A.moved R b).rest q = A.rest q := rfl
  have rB : (B.moved R b).rest q = B.rest q := rfl
  unfold slope c0Mat c1MatOut1 c1MatOut2 c1MatIn1 c1MatIn2 dN dnN
  simp only [dotd_arr, tA.n, tB.n, tA.o, tB.o, tA.n1, tB.n1, tA.o1, tB.o1, tA.n2, tB.n2, tA.o2, tB.o2, rA, rB,
    R.dot_act]

/-! ## Infinitesimal rigid motions -/

/-- **C156** (linear matrix) The matrix of the linear problem applied to an infinitesimal rigid motion is the
force of the penalty against the turn of the gap: none where the patches meet. -/
theorem C156_linear (D : Penalty κ) (A : Patch ι κ) (B : Patch ι' κ) (hA : Regular0 D A) (hB : Regular0 D B)
    {q : κ} (hq : q ∈ D.Q) (b ω : V3) (xL xR : V3) (vL vR : Surf) :
    slopeLin D A B q xL xR vL vR (velocity b ω (A.place0 q)) (velocity b ω (B.place0 q))
        (spin ω (A.ori q)) (spin ω (B.ori q))
      = D.μ q * D.a0 q * dot (xL - xR) (cross ω (A.place0 q - B.place0 q)) := by
  have oA : (A.rest q).o1 (spin ω (A.ori q)) = cross ω (A.rest q).o := ovar1_spin _ (hA q hq).1 _ (hA q hq).2 ω
  have oB : (B.rest q).o1 (spin ω (B.ori q)) = cross ω (B.rest q).o := ovar1_spin _ (hB q hq).1 _ (hB q hq).2 ω
  have nA : (A.rest q).n1 (spin ω (A.ori q)) = cross ω (A.rest q).n := var1_spin _ ω
  have nB : (B.rest q).n1 (spin ω (B.ori q)) = cross ω (B.rest q).n := var1_spin _ ω
  have k1 := turn_zero ω (A.rest q).n (B.rest q).n
  have k2 := turn_zero ω (A.rest q).o (B.rest q).n
  have k3 := turn_zero ω (B.rest q).o (A.rest q).n
  have e1 : c1MatOut2 (D.a1 q) (D.μ q) (A.rest q) (B.rest q) vL vR (spin ω (A.ori q)) (spin ω (B.ori q)) = 0 := by
    unfold c1MatOut2
    rw [nA, nB]
    linear_combination (2 * D.a1 q * D.μ q * (dot ((A.rest q).n1 vL) (B.rest q).n
      + dot ((B.rest q).n1 vR) (A.rest q).n)) * k1
  have e2 : c1MatIn2 (D.a1 q) (D.μ q) (A.rest q) (B.rest q) vL vR (spin ω (A.ori q)) (spin ω (B.ori q)) = 0 := by
    unfold c1MatIn2
    rw [nA, nB, oA, oB]
    linear_combination (D.a1 q * D.μ q * (dot ((A.rest q).o1 vL) (B.rest q).n
      + dot ((B.rest q).n1 vR) (A.rest q).o)) * k2 + (D.a1 q * D.μ q * (dot ((A.rest q).n1 vL) (B.rest q).o
      + dot ((B.rest q).o1 vR) (A.rest q).n)) * k3
  unfold slopeLin
  rw [e1, e2]
  unfold c0Mat
  simp only [dotd_arr]
  simp only [velocity, dot, cross, sub_x, sub_y, sub_z, add_x, add_y, add_z]
  ring

/-- **C156** (turning the force, partial) Where the undeformed patches meet and the in-plane coupling is
unstressed, the tangent applied to an infinitesimal rotation of the deformed patches turns the coupling force:
the stress stiffness of the C0 and of the out-of-plane coupling is the right one for rotations.  Missing: states
in which the in-plane coupling carries force, see `C156_rotation_violated`. -/
theorem C156_rotation_partial (D : Penalty κ) (A : Patch ι κ) (B : Patch ι' κ) (hA : Regular D A)
    (hB : Regular D B) (h : Meet D A B) {q : κ} (hq : q ∈ D.Q)
    (h1 : dot (A.side q).o (B.side q).n = dot (A.rest q).o (B.rest q).n)
    (h2 : dot (B.side q).o (A.side q).n = dot (B.rest q).o (A.rest q).n) (ω : V3) (xL xR : V3) (vL vR : Surf) :
    slope D A B q xL xR vL vR (cross ω (A.place q)) (cross ω (B.place q)) (spin ω (A.def q)) (spin ω (B.def q))
      = work D A B q (cross ω xL) (cross ω xR) (spin ω vL) (spin ω vR) :=
  turn_force D A B (hA q hq).1 (hB q hq).1 (hA q hq).2 (hB q hq).2 (h q hq) h1 h2 ω xL xR vL vR

/-! ## Two triangles with a common edge -/

/-- The edge carries one quadrature point, in its middle; all factors are one. -/
def one : Penalty Unit := ⟨Finset.univ, fun _ => 1, fun _ => 1, fun _ => 1⟩

/-- Shape functions of the left triangle (first corner in the interior) at the middle of its edge. -/
noncomputable def shL : Fin 3 → Shape :=
  vec3 ⟨0, ![-1, 0], fun _ => 0⟩ ⟨1 / 2, ![0, 1], fun _ => 0⟩ ⟨1 / 2, ![1, -1], fun _ => 0⟩

/-- Shape functions of the right triangle. -/
noncomputable def shR : Fin 3 → Shape :=
  vec3 ⟨0, ![1, 0], fun _ => 0⟩ ⟨1 / 2, ![0, 1], fun _ => 0⟩ ⟨1 / 2, ![-1, -1], fun _ => 0⟩

/-- The left triangle, at rest. -/
noncomputable def triL : Patch (Fin 3) Unit :=
  ⟨Finset.univ, vec3 ⟨-2, 0, 0⟩ ⟨0, 1, 0⟩ 0, vec3 ⟨-2, 0, 0⟩ ⟨0, 1, 0⟩ 0, fun _ => shL, fun _ => 1, fun _ => 1⟩

/-- The right triangle, flat in the undeformed state, folded up about the edge. -/
noncomputable def triR : Patch (Fin 3) Unit :=
  ⟨Finset.univ, vec3 ⟨1, 0, 0⟩ ⟨0, 1, 0⟩ 0, vec3 ⟨3 / 5, 0, 4 / 5⟩ ⟨0, 1, 0⟩ 0, fun _ => shR, fun _ => 1,
    fun _ => -1⟩

/-- A right triangle whose undeformed edge is one unit away. -/
noncomputable def farR : Patch (Fin 3) Unit :=
  ⟨Finset.univ, vec3 ⟨2, 0, 0⟩ ⟨1, 1, 0⟩ ⟨1, 0, 0⟩, vec3 ⟨2, 0, 0⟩ ⟨1, 1, 0⟩ ⟨1, 0, 0⟩, fun _ => shR, fun _ => 1,
    fun _ => -1⟩

theorem shL_unity : PartitionOfUnity Finset.univ shL where
  val := by simp [shL, Fin.sum_univ_three]; norm_num
  grad k := by rcases fin2_cases k with rfl | rfl <;> simp [shL, Fin.sum_univ_three]
  hess k := by simp [shL, Fin.sum_univ_three]

theorem shR_unity : PartitionOfUnity Finset.univ shR where
  val := by simp [shR, Fin.sum_univ_three]; norm_num
  grad k := by rcases fin2_cases k with rfl | rfl <;> simp [shR, Fin.sum_univ_three]
  hess k := by simp [shR, Fin.sum_univ_three]

/-- A stretched flat patch. -/
def wide : Surf := ⟨![⟨2, 0, 0⟩, ⟨0, 1, 0⟩], 0, 0, 0⟩

theorem triL_def : triL.def () = wide := by
  unfold Patch.def geo triL wide
  congr 1
  · funext k
    rcases fin2_cases k with rfl | rfl <;> ext <;> simp [vsum, shL, Fin.sum_univ_three]
  all_goals ext <;> simp [vsum, shL, Fin.sum_univ_three]

theorem triL_ori : triL.ori () = wide := triL_def

theorem triR_def : triR.def () = foldR := by
  unfold Patch.def geo triR foldR
  congr 1
  · funext k
    rcases fin2_cases k with rfl | rfl <;> ext <;> simp [vsum, shR, Fin.sum_univ_three]
  all_goals ext <;> simp [vsum, shR, Fin.sum_univ_three]

theorem triR_ori : triR.ori () = flatL := by
  unfold Patch.ori geo triR flatL
  congr 1
  · funext k
    rcases fin2_cases k with rfl | rfl <;> ext <;> simp [vsum, shR, Fin.sum_univ_three]
  all_goals ext <;> simp [vsum, shR, Fin.sum_univ_three]

theorem farR_def : farR.def () = flatL := by
  unfold Patch.def geo farR flatL
  congr 1
  · funext k
    rcases fin2_cases k with rfl | rfl <;> ext <;> norm_num [vsum, shR, Fin.sum_univ_three]
  all_goals ext <;> simp [vsum, shR, Fin.sum_univ_three]

theorem wide_indep : Indep (wide.a 0) (wide.a 1) := by
  intro c d h
  have hx := congrArg V3.x h
  have hy := congrArg V3.y h
  simp [wide] at hx hy
  exact ⟨hx, hy⟩

theorem triL_regular : Regular one triL := fun q _ => by
  have e : surface triL.I triL.P (triL.φ q) = wide := triL_def
  rw [e]; exact ⟨wide_indep, .inl rfl⟩

theorem triL_regular0 : Regular0 one triL := triL_regular

theorem triR_regular : Regular one triR := fun q _ => by
  have e : surface triR.I triR.P (triR.φ q) = foldR := triR_def
  rw [e]; exact ⟨foldR_indep, .inr rfl⟩

theorem triR_regular0 : Regular0 one triR := fun q _ => by
  have e : surface triR.I triR.P0 (triR.φ q) = flatL := triR_ori
  rw [e]; exact ⟨flatL_indep, .inr rfl⟩

theorem farR_regular : Regular one farR := fun q _ => by
  have e : surface farR.I farR.P (farR.φ q) = flatL := farR_def
  rw [e]; exact ⟨flatL_indep, .inr rfl⟩

theorem triL_place (q : Unit) : triL.place q = ⟨0, 1 / 2, 0⟩ := by
  unfold Patch.place position triL
  ext <;> simp [vsum, shL, Fin.sum_univ_three]

theorem triR_place0 (q : Unit) : triR.place0 q = ⟨0, 1 / 2, 0⟩ := by
  unfold Patch.place0 position triR
  ext <;> simp [vsum, shR, Fin.sum_univ_three]

theorem farR_place (q : Unit) : farR.place q = ⟨1, 1 / 2, 0⟩ := by
  unfold Patch.place position farR
  ext <;> simp [vsum, shR, Fin.sum_univ_three]; norm_num

theorem tri_meet : Meet one triL triR := fun q _ => by rw [triR_place0]; exact triL_place q

/-- Normals of the stretched patch. -/
theorem wide_measure : Variation.measure wide = 2 := by
  unfold Variation.measure
  have e : cross (wide.a 0) (wide.a 1) = ⟨0, 0, 2⟩ := by ext <;> simp [wide, cross]
  rw [e]
  unfold V3.norm
  rw [show dot (⟨0, 0, 2⟩ : V3) ⟨0, 0, 2⟩ = 2 ^ 2 by simp [dot]; norm_num]
  exact Real.sqrt_sq (by norm_num)

theorem wide_normal : normal wide = ⟨0, 0, 1⟩ := by
  unfold normal normalized
  have h : V3.norm (cross (wide.a 0) (wide.a 1)) = 2 := wide_measure
  rw [h]
  ext <;> simp [wide, cross]

theorem wide_tan : (1 : ℝ) • wide.a 1 = ⟨0, 1, 0⟩ := by ext <;> simp [wide]

theorem triL_side : triL.side () = sideOf wide ((1 : ℝ) • wide.a 1) := by
  unfold Patch.side
  rw [triL_def]; rfl

theorem triL_rest : triL.rest () = sideOf wide ((1 : ℝ) • wide.a 1) := triL_side

theorem triR_side : triR.side () = witR := by
  unfold Patch.side
  rw [triR_def]; rfl

theorem triR_rest : triR.rest () = sideOf flatL ((-1 : ℝ) • flatL.a 1) := by
  unfold Patch.rest
  rw [triR_ori]; rfl

theorem wide_o : (sideOf wide ((1 : ℝ) • wide.a 1)).o = ⟨1, 0, 0⟩ := by
  change cross (normalized ((1 : ℝ) • wide.a 1)) (normal wide) = _
  rw [wide_tan, unit_ey, wide_normal]; ext <;> norm_num [cross]

theorem back_o : (sideOf flatL ((-1 : ℝ) • flatL.a 1)).o = ⟨-1, 0, 0⟩ := by
  change cross (normalized ((-1 : ℝ) • flatL.a 1)) (normal flatL) = _
  have e : (-1 : ℝ) • flatL.a 1 = ⟨0, -1, 0⟩ := by ext <;> simp [flatL]
  rw [e, unit_ney, flatL_normal]; ext <;> norm_num [cross]

/-- Non-vacuity of the theorems on matching patches: the folded triangles meet, are regular, and the coupling
force on the interior corner of the left one is not zero. -/
example : Meet one triL triR ∧ Unity one triL ∧ Unity one triR ∧ Regular one triL ∧ Regular one triR ∧
    Regular0 one triL ∧ Regular0 one triR ∧ rowsL one triL triR 0 ≠ 0 := by
  refine ⟨tri_meet, fun _ _ => shL_unity, fun _ _ => shR_unity, triL_regular, triR_regular, triL_regular0,
    triR_regular0, fun h => ?_⟩
  have h' := congrArg (dot ⟨0, 0, 1⟩) h
  have z : dot (⟨0, 0, 1⟩ : V3) 0 = 0 := by simp [dot]
  rw [dot_rowsL, z] at h'
  have e : (∑ q ∈ one.Q, work one triL triR q ((triL.φ q 0).val • ⟨0, 0, 1⟩) 0 (dirField (triL.φ q 0) ⟨0, 0, 1⟩)
      absent) = work one triL triR () ((triL.φ () 0).val • ⟨0, 0, 1⟩) 0 (dirField (triL.φ () 0) ⟨0, 0, 1⟩)
      absent := by simp [one]
  rw [e, work_eq, triL_side, triL_rest, triR_side, triR_rest, wide_o, back_o, witR_n, witR_o,
    sideOf_o1 wide wide_indep 1 1 (.inl rfl), show (sideOf wide ((1 : ℝ) • wide.a 1)).n = ⟨0, 0, 1⟩ from wide_normal,
    show (sideOf flatL ((-1 : ℝ) • flatL.a 1)).n = ⟨0, 0, 1⟩ from flatL_normal,
    show (sideOf wide ((1 : ℝ) • wide.a 1)).n1 = var1 wide from rfl] at h'
  have a1 : witR.n1 absent = 0 := by
    change var1 foldR absent = _
    unfold var1 mvec
    rw [foldR_measure, foldR_normal]; ext <;> norm_num [foldR, absent, dot, cross]
  have a2 : witR.o1 absent = 0 := by
    rw [witR_o1]; unfold ovarC tvarC var1 mvec
    simp only [foldR_measure, foldR_normal, foldR_tan, norm_ney, unit_ney]
    ext <;> norm_num [foldR, absent, dot, cross]
  have a3 : var1 wide (dirField (triL.φ () 0) ⟨0, 0, 1⟩) = ⟨1 / 2, 0, 0⟩ := by
    unfold var1 mvec
    rw [wide_measure, wide_normal]; ext <;> simp [wide, dirField, triL, shL, dot, cross]
  have a4 : ovarC wide 1 1 (dirField (triL.φ () 0) ⟨0, 0, 1⟩) = ⟨0, 0, -1 / 2⟩ := by
    unfold ovarC
    rw [a3]
    unfold tvarC
    rw [wide_tan, norm_ey, unit_ey, wide_normal]
    ext <;> norm_num [wide, dirField, triL, shL, dot, cross]
  rw [a1, a2, a3, a4] at h'
  simp only [disp_eq, triL_place, triR_place0] at h'
  norm_num [one, dot, triL, shL] at h'

/-- The quarter turn about the third axis. -/
noncomputable def quarter : Rotation :=
  ⟨⟨0, 1, 0⟩, ⟨-1, 0, 0⟩, ⟨0, 0, 1⟩, by simp [dot], by simp [dot], by simp [dot], by simp [dot], by simp [dot],
    by simp [dot], by simp [dot, cross]⟩

/-- **C156** (violation: gap) If the undeformed edges do not meet, a rigid motion of the undeformed patches causes
forces, and these have a moment. -/
theorem C156_gap_violated : ∃ (D : Penalty Unit) (A B : Patch (Fin 3) Unit) (R : Rotation),
    Unity D A ∧ Unity D B ∧ Regular D A ∧ Regular D B ∧
    rowsL D (A.atRest.moved R 0) (B.atRest.moved R 0) 1 ≠ 0 ∧
    (vsum A.I fun i => cross ((A.atRest.moved R 0).P i) (rowsL D (A.atRest.moved R 0) (B.atRest.moved R 0) i))
      + (vsum B.I fun j => cross ((B.atRest.moved R 0).P j) (rowsR D (A.atRest.moved R 0) (B.atRest.moved R 0) j))
      ≠ 0 := by
  have uL : Unity one triL := fun _ _ => shL_unity
  have uR : Unity one farR := fun _ _ => shR_unity
  have p0 : triL.place0 () = ⟨0, 1 / 2, 0⟩ := triL_place ()
  have p1 : farR.place0 () = ⟨1, 1 / 2, 0⟩ := farR_place ()
  refine ⟨one, triL, farR, quarter, uL, uR, triL_regular, farR_regular, fun h => ?_, fun h => ?_⟩
  · rw [C156_rigid one triL farR uL uR] at h
    have h' := congrArg V3.y h
    have v : (triL.φ PUnit.unit 1).val = 1 / 2 := by simp [triL, shL]
    simp [vsum, one, p0, p1, quarter, Rotation.act, v] at h'
  · have rA : Regular one (triL.atRest.moved quarter 0) := fun q hq => by
      refine ⟨?_, (triL_regular q hq).2⟩
      have e : surface (triL.atRest.moved quarter 0).I (triL.atRest.moved quarter 0).P
          ((triL.atRest.moved quarter 0).φ q) = quarter.move wide := by
        rw [← triL_def]; exact def_moved triL quarter 0 q (uL q hq)
      rw [e]
      exact moved_indep quarter wide wide_indep
    have rB : Regular one (farR.atRest.moved quarter 0) := fun q hq => by
      refine ⟨?_, (farR_regular q hq).2⟩
      have e : surface (farR.atRest.moved quarter 0).I (farR.atRest.moved quarter 0).P
          ((farR.atRest.moved quarter 0).φ q) = quarter.move flatL := by
        rw [← farR_def]; exact def_moved farR quarter 0 q (uR q hq)
      rw [e]
      exact moved_indep quarter flatL flatL_indep
    have m := C156_moment one (triL.atRest.moved quarter 0) (farR.atRest.moved quarter 0) rA rB
    have m' := m.symm.trans h
    have q0 : (triL.atRest.moved quarter 0).place () = quarter.act ⟨0, 1 / 2, 0⟩ := by
      rw [place_moved triL.atRest quarter 0 () (uL () (Finset.mem_univ _))]
      rw [show triL.atRest.place () = ⟨0, 1 / 2, 0⟩ from triL_place ()]
      exact v3_add_zero _
    have q1 : (farR.atRest.moved quarter 0).place () = quarter.act ⟨1, 1 / 2, 0⟩ := by
      rw [place_moved farR.atRest quarter 0 () (uR () (Finset.mem_univ _))]
      rw [show farR.atRest.place () = ⟨1, 1 / 2, 0⟩ from farR_place ()]
      exact v3_add_zero _
    have q2 : (triL.atRest.moved quarter 0).place0 () = ⟨0, 1 / 2, 0⟩ := triL_place ()
    have q3 : (farR.atRest.moved quarter 0).place0 () = ⟨1, 1 / 2, 0⟩ := farR_place ()
    have hz := congrArg V3.z m'
    simp only [vsum, one, Finset.univ_unique, PUnit.default_eq_unit, Finset.sum_singleton, q0, q1, q2, q3] at hz
    norm_num [quarter, Rotation.act, cross] at hz

/-- The right triangle lifted off the left one without turning. -/
noncomputable def offR : Patch (Fin 3) Unit :=
  ⟨Finset.univ, vec3 ⟨1, 0, 0⟩ ⟨0, 1, 0⟩ 0, vec3 ⟨1, 0, 1⟩ ⟨0, 1, 1⟩ ⟨0, 0, 1⟩, fun _ => shR, fun _ => 1,
    fun _ => -1⟩

/-- Non-vacuity of `C156_rotation_partial`: a state with an open edge, where the force is not zero. -/
example : Meet one triL offR ∧ Regular one offR ∧
    dot (triL.side ()).o (offR.side ()).n = dot (triL.rest ()).o (offR.rest ()).n ∧
    dot (offR.side ()).o (triL.side ()).n = dot (offR.rest ()).o (triL.rest ()).n ∧
    ∃ xL, work one triL offR () xL 0 absent absent ≠ 0 := by
  have e0 : offR.def () = flatL := by
    unfold Patch.def geo offR flatL
    congr 1
    · funext k
      rcases fin2_cases k with rfl | rfl <;> ext <;> norm_num [vsum, shR, Fin.sum_univ_three]
    all_goals ext <;> simp [vsum, shR, Fin.sum_univ_three]
  have e1 : offR.ori () = flatL := triR_ori
  have e2 : offR.side () = offR.rest () := by
    unfold Patch.side Patch.rest
    rw [e0, e1]
  have e3 : triL.side () = triL.rest () := rfl
  have e4 : offR.place () = ⟨0, 1 / 2, 1⟩ := by
    unfold Patch.place position offR
    ext <;> norm_num [vsum, shR, Fin.sum_univ_three]
  have e5 : offR.place0 () = ⟨0, 1 / 2, 0⟩ := triR_place0 ()
  refine ⟨tri_meet, fun q _ => ?_, by rw [e2, e3], by rw [e2, e3], ⟨0, 0, 1⟩, ?_⟩
  · have e : surface offR.I offR.P (offR.φ q) = flatL := e0
    rw [e]; exact ⟨flatL_indep, .inr rfl⟩
  · rw [work_eq, e2, e3, disp_eq, disp_eq, triL_place, show triL.place0 () = ⟨0, 1 / 2, 0⟩ from triL_place (),
      e4, e5]
    norm_num [one, dot]

/-- The left patch bends about the edge. -/
def lift : Surf := ⟨![⟨0, 0, 1⟩, 0], 0, 0, 0⟩

/-- **C156** (violation: in-plane stress stiffness) For the folded triangles, whose edges meet, the tangent applied
to a rotation about the edge does not turn the coupling force. -/
theorem C156_rotation_violated : ∃ (D : Penalty Unit) (A B : Patch (Fin 3) Unit),
    Unity D A ∧ Unity D B ∧ Regular D A ∧ Regular D B ∧ Meet D A B ∧
    ∃ (ω xL xR : V3) (vL vR : Surf),
      slope D A B () xL xR vL vR (cross ω (A.place ())) (cross ω (B.place ())) (spin ω (A.def ()))
          (spin ω (B.def ()))
        ≠ work D A B () (cross ω xL) (cross ω xR) (spin ω vL) (spin ω vR) := by
  refine ⟨one, triL, triR, fun _ _ => shL_unity, fun _ _ => shR_unity, triL_regular, triR_regular, tri_meet,
    ⟨0, 1, 0⟩, 0, 0, lift, absent, fun h => ?_⟩
  have h0 : triR.place0 () = triL.place0 () := (tri_meet () (Finset.mem_univ _)).symm
  have e4 := out_spin 1 1 (dot (triL.rest ()).n (triR.rest ()).n) (triL.def ()) (triR.def ())
    ((1 : ℝ) • (triL.def ()).a 1) ((-1 : ℝ) • (triR.def ()).a 1) lift absent ⟨0, 1, 0⟩
  change c1MatOut1 1 1 (triL.side ()) (triR.side ()) _ _ _ _ _ + c1MatOut2 1 1 (triL.side ()) (triR.side ()) _ _ _ _
    = c1VecOut 1 1 (triL.side ()) (triR.side ()) _ _ _ at e4
  have e5 := c0_spin 1 1 0 0 (triL.place ()) (triR.place ()) ⟨0, 1, 0⟩ (triL.place0 ())
  have hin : c1MatIn1 1 1 (triL.side ()) (triR.side ()) (dot (triL.rest ()).o (triR.rest ()).n)
        (dot (triR.rest ()).o (triL.rest ()).n) lift absent (spin ⟨0, 1, 0⟩ (triL.def ()))
        (spin ⟨0, 1, 0⟩ (triR.def ()))
      + c1MatIn2 1 1 (triL.side ()) (triR.side ()) lift absent (spin ⟨0, 1, 0⟩ (triL.def ()))
        (spin ⟨0, 1, 0⟩ (triR.def ()))
      = c1VecIn 1 1 (triL.side ()) (triR.side ()) (dot (triL.rest ()).o (triR.rest ()).n)
        (dot (triR.rest ()).o (triL.rest ()).n) (spin ⟨0, 1, 0⟩ lift) (spin ⟨0, 1, 0⟩ absent) := by
    simp only [slope, work, one, disp_eq, h0] at h
    linear_combination h - e4 - e5
  have nA : (triL.side ()).n1 (spin ⟨0, 1, 0⟩ (triL.def ())) = cross ⟨0, 1, 0⟩ (triL.side ()).n := var1_spin _ _
  have nB : (triR.side ()).n1 (spin ⟨0, 1, 0⟩ (triR.def ())) = cross ⟨0, 1, 0⟩ (triR.side ()).n := var1_spin _ _
  have oA : (triL.side ()).o1 (spin ⟨0, 1, 0⟩ (triL.def ())) = cross ⟨0, 1, 0⟩ (triL.side ()).o :=
    ovar1_spin _ (triL_regular () (Finset.mem_univ _)).1 _ (.inl rfl) _
  have oB : (triR.side ()).o1 (spin ⟨0, 1, 0⟩ (triR.def ())) = cross ⟨0, 1, 0⟩ (triR.side ()).o :=
    ovar1_spin _ (triR_regular () (Finset.mem_univ _)).1 _ (.inr rfl) _
  have sA : spin ⟨0, 1, 0⟩ absent = absent := by
    unfold spin absent
    congr 1
    · funext k; ext <;> simp [cross]
    all_goals ext <;> simp [cross]
  have t1 : ∀ w, witR.o2 absent w = 0 := by
    intro w
    rw [witR_o2]
    unfold ovar2C tvar2C tvarC var2 var2From var1 mvec muv
    simp only [foldR_measure, foldR_normal, foldR_tan, norm_ney, unit_ney]
    ext <;> simp [absent, dot, cross]
  have a1 : var1 wide lift = ⟨-1 / 2, 0, 0⟩ := by
    unfold var1 mvec
    rw [wide_measure, wide_normal]; ext <;> norm_num [wide, lift, dot, cross]
  have a2 : (sideOf wide ((1 : ℝ) • wide.a 1)).o1 lift = ⟨0, 0, 1 / 2⟩ := by
    rw [sideOf_o1 wide wide_indep 1 1 (.inl rfl)]
    unfold ovarC
    rw [a1]
    unfold tvarC
    rw [wide_tan, norm_ey, unit_ey, wide_normal]
    ext <;> norm_num [lift, dot, cross]
  have a3 : var1 wide (spin ⟨0, 1, 0⟩ lift) = 0 := by
    unfold var1 mvec
    rw [wide_measure, wide_normal]; ext <;> norm_num [wide, spin, lift, dot, cross]
  have a4 : (sideOf wide ((1 : ℝ) • wide.a 1)).o1 (spin ⟨0, 1, 0⟩ lift) = 0 := by
    rw [sideOf_o1 wide wide_indep 1 1 (.inl rfl)]
    unfold ovarC
    rw [a3]
    unfold tvarC
    rw [wide_tan, norm_ey, unit_ey, wide_normal]
    ext <;> norm_num [lift, spin, dot, cross]
  have a5 : (sideOf wide ((1 : ℝ) • wide.a 1)).o2 lift (spin ⟨0, 1, 0⟩ wide) = ⟨2, 0, 0⟩ := by
    rw [JoinedShell.ovar2_code wide wide_indep 1 (.inl rfl)]
    unfold JoinedShell.ovar2S
    have j : unitCols wide = flatL := by
      unfold unitCols wide flatL
      congr 1
      funext k
      rcases fin2_cases k with rfl | rfl
      · have : V3.norm (⟨2, 0, 0⟩ : V3) = 2 := by
          unfold V3.norm
          rw [show dot (⟨2, 0, 0⟩ : V3) ⟨2, 0, 0⟩ = 2 ^ 2 by simp [dot]; norm_num]
          exact Real.sqrt_sq (by norm_num)
        show normalized (⟨2, 0, 0⟩ : V3) = ⟨1, 0, 0⟩
        unfold normalized
        rw [this]; ext <;> simp
      · exact unit_ey
    rw [j]
    unfold tvar2C tvarC mvec muv
    simp only [flatL_measure, wide_normal, wide_tan, norm_ey, unit_ey]
    ext <;> norm_num [wide, flatL, lift, spin, dot, cross]
  have b1 : witR.n1 absent = 0 := by
    change var1 foldR absent = _
    unfold var1 mvec
    rw [foldR_measure, foldR_normal]; ext <;> norm_num [foldR, absent, dot, cross]
  have b2 : witR.o1 absent = 0 := by
    rw [witR_o1]; unfold ovarC tvarC var1 mvec
    simp only [foldR_measure, foldR_normal, foldR_tan, norm_ney, unit_ney]
    ext <;> norm_num [foldR, absent, dot, cross]
  unfold c1MatIn1 c1MatIn2 c1VecIn dnN at hin
  rw [sA, nA, nB, oA, oB, triL_side, triL_rest, triR_side, triR_rest, triL_def, a2, a4, a5, b1, b2, t1, wide_o,
    back_o, witR_n, witR_o, show (sideOf wide ((1 : ℝ) • wide.a 1)).n1 = var1 wide from rfl, a1, a3,
    show (sideOf wide ((1 : ℝ) • wide.a 1)).n = ⟨0, 0, 1⟩ from wide_normal,
    show (sideOf flatL ((-1 : ℝ) • flatL.a 1)).n = ⟨0, 0, 1⟩ from flatL_normal] at hin
  norm_num [dot, cross] at hin

end Verif.JointBalance
