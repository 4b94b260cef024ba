import Verif.Spec.JointBalance
import Verif.Lemmas.PenaltySystem
import Verif.Lemmas.JoinedShell

/-! # Lemmas for the balance of interfaces -/

namespace Verif.JointBalance

open V3 Verif.Geometry Verif.Variation Verif.WeakForms Verif.Balance

variable {ι ι' κ : Type}

theorem dotd_arr (u v : V3) : dotd (arr u) (arr v) = dot u v := by
  simp [dotd, arr, Fin.sum_univ_three, dot]

theorem dotd_arr_sub (u v w : V3) : dotd (arr u) (fun i => arr v i - arr w i) = dot u (v - w) := by
  simp [dotd, arr, Fin.sum_univ_three, dot]

theorem geo_eq (I : Finset ι) (P : ι → V3) (φ : ι → Shape) : geo I P φ = surface I P φ := rfl

/-- The work of the coupling, with the scalar products written out. -/
theorem work_eq (D : Penalty κ) (A : Patch ι κ) (B : Patch ι' κ) (q : κ) (xL xR : V3) (vL vR : Surf) :
    work D A B q xL xR vL vR = D.μ q * (-D.a0 q * dot (xL - xR) (A.disp q - B.disp q)
      + -D.a1 q * (dot (A.side q).n (B.side q).n - dot (A.rest q).n (B.rest q).n)
        * (2 * (dot ((A.side q).n1 vL) (B.side q).n + dot ((B.side q).n1 vR) (A.side q).n))
      + -D.a1 q * (dot (A.side q).o (B.side q).n - dot (A.rest q).o (B.rest q).n)
        * (dot ((A.side q).o1 vL) (B.side q).n + dot ((B.side q).n1 vR) (A.side q).o)
      + -D.a1 q * (dot (B.side q).o (A.side q).n - dot (B.rest q).o (A.rest q).n)
        * (dot ((B.side q).o1 vR) (A.side q).n + dot ((A.side q).n1 vL) (B.side q).o)) := by
  unfold work c0Vec3 c1VecOut c1VecIn dN dnN
  simp only [dotd_arr_sub, dot_sub_left]
  rw [dot_comm (B.side q).n (A.side q).n]
  ring

theorem side_n1 (A : Patch ι κ) (q : κ) (v : Surf) : (A.side q).n1 v = var1 (A.def q) v := rfl
theorem side_o1 (A : Patch ι κ) (q : κ) (v : Surf) :
    (A.side q).o1 v = ovar1 (A.def q) (A.side q).o (A.σ q • (A.def q).a (A.c q)) v := rfl

theorem work_add (D : Penalty κ) (A : Patch ι κ) (B : Patch ι' κ) (q : κ) (xL xR yL yR : V3)
    (vL vR wL wR : Surf) :
    work D A B q (xL + yL) (xR + yR) (fieldAdd vL wL) (fieldAdd vR wR)
      = work D A B q xL xR vL vR + work D A B q yL yR wL wR := by
  simp only [work_eq, side_n1, side_o1, var1_add, PenaltySystem.ovar1_add, dot_add_left, dot_sub_left]
  ring

theorem work_smul (D : Penalty κ) (A : Patch ι κ) (B : Patch ι' κ) (q : κ) (c : ℝ) (xL xR : V3) (vL vR : Surf) :
    work D A B q (c • xL) (c • xR) (fieldSmul c vL) (fieldSmul c vR) = c * work D A B q xL xR vL vR := by
  simp only [work_eq, side_n1, side_o1, var1_smul, PenaltySystem.ovar1_smul, dot_smul_left, dot_sub_left]
  ring

theorem absent_smul (c : ℝ) : fieldSmul c absent = absent := by
  unfold fieldSmul absent
  congr 1
  · funext k; ext <;> simp
  all_goals ext <;> simp

theorem absent_add (v : Surf) : fieldAdd v absent = v := by
  unfold fieldAdd absent
  cases v
  congr 1
  · funext k; ext <;> simp
  all_goals ext <;> simp

theorem add_absent (v : Surf) : fieldAdd absent v = v := by
  unfold fieldAdd absent
  cases v
  congr 1
  · funext k; ext <;> simp
  all_goals ext <;> simp

theorem v3_zero_add (v : V3) : (0 : V3) + v = v := by ext <;> simp
theorem v3_add_zero (v : V3) : v + (0 : V3) = v := by ext <;> simp
theorem v3_smul_zero (c : ℝ) : c • (0 : V3) = 0 := by ext <;> simp

theorem work_addL (D : Penalty κ) (A : Patch ι κ) (B : Patch ι' κ) (q : κ) (x y : V3) (v w : Surf) :
    work D A B q (x + y) 0 (fieldAdd v w) absent
      = work D A B q x 0 v absent + work D A B q y 0 w absent := by
  have h := work_add D A B q x 0 y 0 v absent w absent
  rwa [v3_zero_add, absent_add] at h

theorem work_smulL (D : Penalty κ) (A : Patch ι κ) (B : Patch ι' κ) (q : κ) (c : ℝ) (x : V3) (v : Surf) :
    work D A B q (c • x) 0 (fieldSmul c v) absent = c * work D A B q x 0 v absent := by
  have h := work_smul D A B q c x 0 v absent
  rwa [v3_smul_zero, absent_smul] at h

theorem work_addR (D : Penalty κ) (A : Patch ι κ) (B : Patch ι' κ) (q : κ) (x y : V3) (v w : Surf) :
    work D A B q 0 (x + y) absent (fieldAdd v w)
      = work D A B q 0 x absent v + work D A B q 0 y absent w := by
  have h := work_add D A B q 0 x 0 y absent v absent w
  rwa [v3_zero_add, absent_add] at h

theorem work_smulR (D : Penalty κ) (A : Patch ι κ) (B : Patch ι' κ) (q : κ) (c : ℝ) (x : V3) (v : Surf) :
    work D A B q 0 (c • x) absent (fieldSmul c v) = c * work D A B q 0 x absent v := by
  have h := work_smul D A B q c 0 x absent v
  rwa [v3_smul_zero, absent_smul] at h

theorem work_split (D : Penalty κ) (A : Patch ι κ) (B : Patch ι' κ) (q : κ) (x y : V3) (v w : Surf) :
    work D A B q x 0 v absent + work D A B q 0 y absent w = work D A B q x y v w := by
  have h := work_add D A B q x 0 0 y v absent absent w
  rw [v3_add_zero, v3_zero_add, absent_add, add_absent] at h
  exact h.symm

/-! ## Linear functionals of a field and its value -/

/-- A functional that is linear in value and derivatives, on the field of a basis function times a vector. -/
theorem lin_dir (f : V3 → Surf → ℝ) (ha : ∀ x y v w, f (x + y) (fieldAdd v w) = f x v + f y w)
    (hs : ∀ (c : ℝ) x v, f (c • x) (fieldSmul c v) = c * f x v) (φ : Shape) (w : V3) :
    f (φ.val • w) (dirField φ w) = w.x * f (vecFun 0 φ.val) (basisField 0 φ.grad φ.hess)
      + w.y * f (vecFun 1 φ.val) (basisField 1 φ.grad φ.hess)
      + w.z * f (vecFun 2 φ.val) (basisField 2 φ.grad φ.hess) := by
  have key : φ.val • w = w.x • vecFun 0 φ.val + w.y • vecFun 1 φ.val + w.z • vecFun 2 φ.val := by
    ext <;> simp [vecFun] <;> ring
  rw [dirField_eq, key, ha, ha, hs, hs, hs]

theorem lin_sum (f : V3 → Surf → ℝ) (ha : ∀ x y v w, f (x + y) (fieldAdd v w) = f x v + f y w)
    (hs : ∀ (c : ℝ) x v, f (c • x) (fieldSmul c v) = c * f x v) (I : Finset ι) (φ : ι → Shape) (w : ι → V3) :
    ∑ i ∈ I, f ((φ i).val • w i) (dirField (φ i) (w i)) = f (position I w φ) (surface I w φ) := by
  classical
  induction I using Finset.induction_on with
  | empty =>
    have e : surface ∅ w φ = fieldSmul 0 absent := by
      simp only [surface, fieldSmul, vsum, Finset.sum_empty]
      congr 1
      · funext k; ext <;> simp
      all_goals ext <;> simp
    have e' : position ∅ w φ = (0 : ℝ) • (0 : V3) := by
      simp only [position, vsum, Finset.sum_empty]; ext <;> simp
    rw [e, e', hs]; simp
  | insert a J ha' ih =>
    rw [Finset.sum_insert ha', ih, ← ha]
    congr 1
    · simp only [position, vsum, Finset.sum_insert ha']; ext <;> simp
    · simp only [surface, fieldAdd, dirField, vsum, Finset.sum_insert ha']
      congr 1

theorem dot_rowsL (D : Penalty κ) (A : Patch ι κ) (B : Patch ι' κ) (i : ι) (w : V3) :
    dot w (rowsL D A B i)
      = ∑ q ∈ D.Q, work D A B q ((A.φ q i).val • w) 0 (dirField (A.φ q i) w) absent := by
  unfold rowsL
  rw [dot_vsum]
  refine Finset.sum_congr rfl (fun q _ => ?_)
  rw [lin_dir (fun x v => work D A B q x 0 v absent) (fun x y v w => work_addL D A B q x y v w)
    (fun c x v => work_smulL D A B q c x v)]
  rfl

theorem dot_rowsR (D : Penalty κ) (A : Patch ι κ) (B : Patch ι' κ) (j : ι') (w : V3) :
    dot w (rowsR D A B j)
      = ∑ q ∈ D.Q, work D A B q 0 ((B.φ q j).val • w) absent (dirField (B.φ q j) w) := by
  unfold rowsR
  rw [dot_vsum]
  refine Finset.sum_congr rfl (fun q _ => ?_)
  rw [lin_dir (fun x v => work D A B q 0 x absent v) (fun x y v w => work_addR D A B q x y v w)
    (fun c x v => work_smulR D A B q c x v)]
  rfl

/-- Virtual work of all rows. -/
theorem total (D : Penalty κ) (A : Patch ι κ) (B : Patch ι' κ) (wL : ι → V3) (wR : ι' → V3) :
    (∑ i ∈ A.I, dot (wL i) (rowsL D A B i)) + ∑ j ∈ B.I, dot (wR j) (rowsR D A B j)
      = ∑ q ∈ D.Q, work D A B q (position A.I wL (A.φ q)) (position B.I wR (B.φ q))
          (surface A.I wL (A.φ q)) (surface B.I wR (B.φ q)) := by
  simp only [dot_rowsL, dot_rowsR]
  rw [Finset.sum_comm, Finset.sum_comm (s := B.I), ← Finset.sum_add_distrib]
  refine Finset.sum_congr rfl (fun q _ => ?_)
  rw [lin_sum (fun x v => work D A B q x 0 v absent) (fun x y v w => work_addL D A B q x y v w)
    (fun c x v => work_smulL D A B q c x v), lin_sum (fun x v => work D A B q 0 x absent v)
    (fun x y v w => work_addR D A B q x y v w) (fun c x v => work_smulR D A B q c x v), work_split]

/-! ## Constant fields and rotations -/

theorem position_const (I : Finset ι) (φ : ι → Shape) (h : PartitionOfUnity I φ) (w : V3) :
    position I (fun _ => w) φ = w := by
  unfold position
  ext <;> simp [vsum, ← Finset.sum_mul, h.val]

theorem position_cross (I : Finset ι) (P : ι → V3) (φ : ι → Shape) (ω : V3) :
    position I (fun i => cross ω (P i)) φ = cross ω (position I P φ) := by
  have key : ∀ (c : ℝ) (p : V3), c • cross ω p = cross ω (c • p) := by
    intro c p; ext <;> simp [cross] <;> ring
  simp only [position, cross_vsum, key]

theorem disp_eq (A : Patch ι κ) (q : κ) : A.disp q = A.place q - A.place0 q := rfl

/-- The first variation of the outer normal along a rotation. -/
theorem ovar1_spin (s : Surf) (h : Indep (s.a 0) (s.a 1)) (c : Fin 2) {σ : ℝ} (hσ : σ = 1 ∨ σ = -1) (ω : V3) :
    (sideOf s (σ • s.a c)).o1 (spin ω s) = cross ω (sideOf s (σ • s.a c)).o := by
  rw [sideOf_o1 s h c σ hσ]
  unfold ovarC
  rw [var1_spin]
  have e : tvarC s c σ (spin ω s) = cross ω (normalized (σ • s.a c)) := by
    have k : dot (normalized (σ • s.a c)) (σ • (spin ω s).a c) = 0 := by
      simp only [normalized, spin, dot, cross, smul_x, smul_y, smul_z]; ring
    unfold tvarC
    rw [k]
    ext <;> simp [normalized, spin, cross] <;> ring
  rw [e]
  show _ = cross ω (cross (normalized (σ • s.a c)) (normal s))
  generalize normalized (σ • s.a c) = u
  generalize normal s = n
  ext <;> simp [cross] <;> ring

theorem turn_zero (ω a b : V3) : dot (cross ω a) b + dot (cross ω b) a = 0 := by
  simp [dot, cross]; ring

/-- Work of the coupling along an infinitesimal rigid rotation of the deformed patches: only an undeformed
gap contributes. -/
theorem work_spin (D : Penalty κ) (A : Patch ι κ) (B : Patch ι' κ) (q : κ)
    (hA : Indep ((A.def q).a 0) ((A.def q).a 1)) (hB : Indep ((B.def q).a 0) ((B.def q).a 1))
    (sA : A.σ q = 1 ∨ A.σ q = -1) (sB : B.σ q = 1 ∨ B.σ q = -1) (ω : V3) :
    work D A B q (cross ω (A.place q)) (cross ω (B.place q)) (spin ω (A.def q)) (spin ω (B.def q))
      = D.μ q * D.a0 q * dot ω (cross (A.place q - B.place q) (A.place0 q - B.place0 q)) := by
  have oA : (A.side q).o1 (spin ω (A.def q)) = cross ω (A.side q).o := ovar1_spin _ hA _ sA ω
  have oB : (B.side q).o1 (spin ω (B.def q)) = cross ω (B.side q).o := ovar1_spin _ hB _ sB ω
  have nA : (A.side q).n1 (spin ω (A.def q)) = cross ω (A.side q).n := var1_spin _ ω
  have nB : (B.side q).n1 (spin ω (B.def q)) = cross ω (B.side q).n := var1_spin _ ω
  rw [work_eq, oA, oB, nA, nB, turn_zero, turn_zero, turn_zero, disp_eq, disp_eq]
  simp only [dot, cross, sub_x, sub_y, sub_z]
  ring

/-! ## Rotating a side -/

theorem normalized_act (R : Rotation) (v : V3) : normalized (R.act v) = R.act (normalized v) := by
  unfold normalized V3.norm
  rw [R.dot_act, act_smul]

theorem norm_act (R : Rotation) (v : V3) : V3.norm (R.act v) = V3.norm v := by
  unfold V3.norm; rw [R.dot_act]

theorem colIndex_move (R : Rotation) (s : Surf) (o : V3) : colIndex (R.move s) (R.act o) = colIndex s o := by
  unfold colIndex
  simp only [Rotation.move, normalized_act, R.dot_act]

theorem tvar1_move (R : Rotation) (s : Surf) (o tv : V3) (u : Surf) :
    tvar1 (R.move s) (R.act o) (R.act tv) (R.move u) = R.act (tvar1 s o tv u) := by
  unfold tvar1
  rw [colIndex_move]
  cases colIndex s o with
  | none => ext <;> simp [Rotation.act]
  | some c => simp only [Rotation.move, normalized_act, R.dot_act, norm_act, ← act_smul, ← act_sub]

theorem ovar1_move (R : Rotation) (s : Surf) (o tv : V3) (u : Surf) :
    ovar1 (R.move s) (R.act o) (R.act tv) (R.move u) = R.act (ovar1 s o tv u) := by
  unfold ovar1
  rw [tvar1_move, var1_move, R.normal_move, normalized_act, R.cross_act, R.cross_act, act_add]

theorem unitCols_move (R : Rotation) (s : Surf) : unitCols (R.move s) = R.move (unitCols s) := by
  simp only [unitCols, Rotation.move, normalized_act]

theorem ovar2_move (R : Rotation) (s : Surf) (o tv : V3) (u v : Surf) :
    ovar2 (R.move s) (R.act o) (R.act tv) (R.move u) (R.move v) = R.act (ovar2 s o tv u v) := by
  unfold ovar2
  rw [colIndex_move]
  cases colIndex s o with
  | none => ext <;> simp [Rotation.act]
  | some c =>
    simp only [unitCols_move, mvec_move, muv_move, R.normal_move, normalized_act, norm_act]
    simp only [Rotation.move, R.dot_act, ← act_smul, ← act_sub, ← act_add, R.cross_act]

/-- A side rotated. -/
structure Turned (R : Rotation) (S T : Side Surf) : Prop where
  n : T.n = R.act S.n
  o : T.o = R.act S.o
  n1 : ∀ v, T.n1 (R.move v) = R.act (S.n1 v)
  o1 : ∀ v, T.o1 (R.move v) = R.act (S.o1 v)
  n2 : ∀ v w, T.n2 (R.move v) (R.move w) = R.act (S.n2 v w)
  o2 : ∀ v w, T.o2 (R.move v) (R.move w) = R.act (S.o2 v w)

theorem sideOf_turned (R : Rotation) (s : Surf) (tv : V3) :
    Turned R (sideOf s tv) (sideOf (R.move s) (R.act tv)) := by
  have ho : cross (normalized (R.act tv)) (normal (R.move s)) = R.act (cross (normalized tv) (normal s)) := by
    rw [normalized_act, R.normal_move, R.cross_act]
  refine ⟨R.normal_move s, ho, fun v => var1_move R s v, fun v => ?_, fun v w => var2_move R s v w, fun v w => ?_⟩
  · show ovar1 _ (cross (normalized (R.act tv)) (normal (R.move s))) _ _ = _
    rw [ho]; exact ovar1_move R s _ tv v
  · show ovar2 _ (cross (normalized (R.act tv)) (normal (R.move s))) _ _ _ = _
    rw [ho]; exact ovar2_move R s _ tv v w

theorem act_vsum' (R : Rotation) (I : Finset ι) (f : ι → V3) (b : V3) (c : ι → ℝ) :
    vsum I (fun i => c i • (R.act (f i) + b)) = R.act (vsum I fun i => c i • f i) + (∑ i ∈ I, c i) • b := by
  rw [act_vsum]
  ext <;> simp [vsum, Finset.sum_mul, ← Finset.sum_add_distrib, Rotation.act] <;>
    exact Finset.sum_congr rfl (fun i _ => by ring)

theorem def_moved (A : Patch ι κ) (R : Rotation) (b : V3) (q : κ) (h : PartitionOfUnity A.I (A.φ q)) :
    (A.moved R b).def q = R.move (A.def q) := by
  have z : ∀ v : V3, v + (0 : ℝ) • b = v := by intro v; ext <;> simp
  unfold Patch.def Patch.moved geo Rotation.move
  simp only [act_vsum', h.grad, h.hess, z]

theorem place_moved (A : Patch ι κ) (R : Rotation) (b : V3) (q : κ) (h : PartitionOfUnity A.I (A.φ q)) :
    (A.moved R b).place q = R.act (A.place q) + b := by
  unfold Patch.place Patch.moved position
  simp only [act_vsum', h.val]
  ext <;> simp

theorem side_moved (A : Patch ι κ) (R : Rotation) (b : V3) (q : κ) (h : PartitionOfUnity A.I (A.φ q)) :
    Turned R (A.side q) ((A.moved R b).side q) := by
  have e := sideOf_turned R (A.def q) (A.σ q • (A.def q).a (A.c q))
  unfold Patch.side
  rw [def_moved A R b q h]
  have e' : R.act (A.σ q • (A.def q).a (A.c q)) = (A.moved R b).σ q • (R.move (A.def q)).a ((A.moved R b).c q) := by
    rw [act_smul]; rfl
  rwa [e'] at e

theorem Turned.symm_apply {R : Rotation} (v : V3) : ∃ u, R.act u = v := by
  refine ⟨⟨dot R.c0 v, dot R.c1 v, dot R.c2 v⟩, ?_⟩
  refine eq_of_act (R := R) (fun w => ?_)
  rw [R.dot_act]
  simp only [Rotation.act, dot_add_left, dot_smul_left]
  simp [dot]

/-- The work of the rotated patches in rotated directions, when the undeformed sides meet. -/
theorem work_moved (D : Penalty κ) (A : Patch ι κ) (B : Patch ι' κ) (R : Rotation) (b : V3) (q : κ)
    (hA : PartitionOfUnity A.I (A.φ q)) (hB : PartitionOfUnity B.I (B.φ q)) (h0 : A.place0 q = B.place0 q)
    (xL xR : V3) (vL vR : Surf) :
    work D (A.moved R b) (B.moved R b) q (R.act xL) (R.act xR) (R.move vL) (R.move vR)
      = work D A B q xL xR vL vR := by
  have tA := side_moved A R b q hA
  have tB := side_moved B R b q hB
  have hd : (A.moved R b).disp q - (B.moved R b).disp q = R.act (A.disp q - B.disp q) := by
    rw [disp_eq, disp_eq, disp_eq, disp_eq, place_moved A R b q hA, place_moved B R b q hB]
    have e0 : (A.moved R b).place0 q = (B.moved R b).place0 q := h0
    rw [e0, h0, act_sub, act_sub, act_sub]
    ext <;> simp
  have rA : (A.moved R b).rest q = A.rest q := rfl
  have rB : (B.moved R b).rest q = B.rest q := rfl
  rw [work_eq, work_eq, hd, tA.n, tB.n, tA.o, tB.o, tA.n1, tB.n1, tA.o1, tB.o1, rA, rB, ← act_sub]
  simp only [R.dot_act]

theorem move_absent (R : Rotation) : R.move absent = absent := by
  unfold Rotation.move absent
  congr 1
  · funext k; ext <;> simp [Rotation.act]
  all_goals ext <;> simp [Rotation.act]

theorem act_zero (R : Rotation) : R.act 0 = 0 := by ext <;> simp [Rotation.act]

theorem moved_indep (R : Rotation) (s : Surf) (h : Indep (s.a 0) (s.a 1)) :
    Indep ((R.move s).a 0) ((R.move s).a 1) := by
  intro c d e
  have e' : R.act (c • s.a 0 + d • s.a 1) = 0 := by rw [act_add, act_smul, act_smul]; exact e
  refine h c d ?_
  rw [← dot_self_eq_zero, ← R.dot_act, e']
  simp [dot]

/-! ## The tangent along a rotation -/

/-- Matrix of the C0 and the out-of-plane coupling along a rotation. -/
theorem out_spin (α μ nn0 : ℝ) (sL sR : Surf) (tL tR : V3) (vL vR : Surf) (ω : V3) :
    c1MatOut1 α μ (sideOf sL tL) (sideOf sR tR) nn0 vL vR (spin ω sL) (spin ω sR)
      + c1MatOut2 α μ (sideOf sL tL) (sideOf sR tR) vL vR (spin ω sL) (spin ω sR)
      = c1VecOut α μ (sideOf sL tL) (sideOf sR tR) nn0 (spin ω vL) (spin ω vR) := by
  have e1 : ∀ s t v, (sideOf s t).n2 v (spin ω s) = cross ω (var1 s v) - var1 s (spin ω v) :=
    fun s t v => var2_spin s v ω
  have e2 : ∀ s t v, (sideOf s t).n1 v = var1 s v := fun _ _ _ => rfl
  have e3 : ∀ s t, (sideOf s t).n = normal s := fun _ _ => rfl
  unfold c1MatOut1 c1MatOut2 c1VecOut dN
  simp only [e1, e2, e3, var1_spin]
  generalize var1 sL vL = a
  generalize var1 sR vR = b
  generalize var1 sL (spin ω vL) = a'
  generalize var1 sR (spin ω vR) = b'
  generalize normal sL = n
  generalize normal sR = m
  simp only [dot, cross, sub_x, sub_y, sub_z]
  ring

theorem c0_spin (α μ : ℝ) (xL xR p r : V3) (ω g : V3) :
    c0Mat α μ (arr xL) (arr xR) (arr (cross ω p)) (arr (cross ω r))
      = c0Vec3 α μ (arr (p - g)) (arr (r - g)) (arr (cross ω xL)) (arr (cross ω xR)) := by
  unfold c0Mat c0Vec3
  simp only [dotd_arr, dotd_arr_sub]
  simp only [dot, cross, sub_x, sub_y, sub_z]
  ring

theorem turn_force (D : Penalty κ) (A : Patch ι κ) (B : Patch ι' κ) {q : κ}
    (hA : Indep ((A.def q).a 0) ((A.def q).a 1)) (hB : Indep ((B.def q).a 0) ((B.def q).a 1))
    (sA : A.σ q = 1 ∨ A.σ q = -1) (sB : B.σ q = 1 ∨ B.σ q = -1) (h : A.place0 q = B.place0 q)
    (h1 : dot (A.side q).o (B.side q).n = dot (A.rest q).o (B.rest q).n)
    (h2 : dot (B.side q).o (A.side q).n = dot (B.rest q).o (A.rest q).n) (ω : V3) (xL xR : V3) (vL vR : Surf) :
    slope D A B q xL xR vL vR (cross ω (A.place q)) (cross ω (B.place q)) (spin ω (A.def q)) (spin ω (B.def q))
      = work D A B q (cross ω xL) (cross ω xR) (spin ω vL) (spin ω vR) := by
  have oA : (A.side q).o1 (spin ω (A.def q)) = cross ω (A.side q).o := ovar1_spin _ hA _ sA ω
  have oB : (B.side q).o1 (spin ω (B.def q)) = cross ω (B.side q).o := ovar1_spin _ hB _ sB ω
  have nA : (A.side q).n1 (spin ω (A.def q)) = cross ω (A.side q).n := var1_spin _ ω
  have nB : (B.side q).n1 (spin ω (B.def q)) = cross ω (B.side q).n := var1_spin _ ω
  have k2 := turn_zero ω (A.side q).o (B.side q).n
  have k3 := turn_zero ω (B.side q).o (A.side q).n
  have e1 : c1MatIn1 (D.a1 q) (D.μ q) (A.side q) (B.side q) (dot (A.rest q).o (B.rest q).n)
      (dot (B.rest q).o (A.rest q).n) vL vR (spin ω (A.def q)) (spin ω (B.def q)) = 0 := by
    unfold c1MatIn1 dnN
    rw [h1, h2]; ring
  have e2 : c1MatIn2 (D.a1 q) (D.μ q) (A.side q) (B.side q) vL vR (spin ω (A.def q)) (spin ω (B.def q)) = 0 := by
    unfold c1MatIn2
    rw [nA, nB, oA, oB]
    linear_combination (D.a1 q * D.μ q * (dot ((A.side q).o1 vL) (B.side q).n
      + dot ((B.side q).n1 vR) (A.side q).o)) * k2 + (D.a1 q * D.μ q * (dot ((A.side q).n1 vL) (B.side q).o
      + dot ((B.side q).o1 vR) (A.side q).n)) * k3
  have e3 : c1VecIn (D.a1 q) (D.μ q) (A.side q) (B.side q) (dot (A.rest q).o (B.rest q).n)
      (dot (B.rest q).o (A.rest q).n) (spin ω vL) (spin ω vR) = 0 := by
    unfold c1VecIn dnN
    rw [h1, h2]; ring
  have e4 := out_spin (D.a1 q) (D.μ q) (dot (A.rest q).n (B.rest q).n) (A.def q) (B.def q)
    (A.σ q • (A.def q).a (A.c q)) (B.σ q • (B.def q).a (B.c q)) vL vR ω
  have e5 := c0_spin (D.a0 q) (D.μ q) xL xR (A.place q) (B.place q) ω (A.place0 q)
  unfold slope work
  rw [e1, e2, e3, add_zero, add_zero, add_zero, add_assoc, disp_eq, disp_eq, ← h, e5]
  exact congrArg _ e4

end Verif.JointBalance
