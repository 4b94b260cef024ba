import Verif.Lemmas.WeakForms
import Mathlib.Tactic.NormNum

/-! # Lemmas on weak C1 coupling -/

set_option linter.unusedSimpArgs false

namespace Verif.WeakForms

open V3 Verif.Geometry Verif.Variation

variable {ι F : Type}

/-! ## Abstract sides -/

/-- Out-of-plane vector as derivative, for sides whose variations are exact. -/
theorem out_force (α μ nn0 : ℝ) (L R : ℝ → Side F) (wL wR : F)
    (hL : HasVDeriv (fun t => (L t).n) ((L 0).n1 wL) 0)
    (hR : HasVDeriv (fun t => (R t).n) ((R 0).n1 wR) 0) :
    HasDerivAt (fun t => angleEnergy α μ (L t) (R t) nn0)
      (-c1VecOut α μ (L 0) (R 0) nn0 wL wR) 0 := by
  have h1 := ((hL.dot hR).sub_const nn0).pow 2
  have h2 := ((hR.dot hL).sub_const nn0).pow 2
  have h := ((h1.add h2).const_mul (α / 2)).mul_const μ
  refine h.congr_deriv ?_
  unfold c1VecOut dN
  rw [dot_comm (R 0).n (L 0).n, dot_comm ((R 0).n1 wR) (L 0).n, dot_comm ((L 0).n1 wL) (R 0).n]
  push_cast
  ring

/-- Out-of-plane matrix as derivative of the vector. -/
theorem out_tangent (α μ nn0 : ℝ) (L R : ℝ → Side F) (vL vR wL wR : F) (hL : NVar L vL wL)
    (hR : NVar R vR wR) :
    HasDerivAt (fun t => c1VecOut α μ (L t) (R t) nn0 vL vR)
      (-(c1MatOut1 α μ (L 0) (R 0) nn0 vL vR wL wR + c1MatOut2 α μ (L 0) (R 0) vL vR wL wR)) 0 := by
  have hd := (hL.1.dot hR.1).sub_const nn0
  have hd' := (hR.1.dot hL.1).sub_const nn0
  have ha := hL.2.dot hR.1
  have hb := hR.2.dot hL.1
  have h := ((((hd.const_mul (-α)).mul ha).mul_const μ).add
    (((hd.const_mul (-α)).mul hb).mul_const μ)).add
    (((hd'.const_mul (-α)).mul hb).mul_const μ) |>.add
    (((hd'.const_mul (-α)).mul ha).mul_const μ)
  refine (h.congr_deriv ?_).congr_of_eventuallyEq (Filter.Eventually.of_forall (fun t => ?_))
  · unfold c1MatOut1 c1MatOut2 dN
    simp only [dot_comm (R 0).n (L 0).n, dot_comm (L 0).n ((R 0).n1 wR),
      dot_comm (R 0).n ((L 0).n1 wL)]
    ring
  · simp only [c1VecOut, dN, Pi.add_apply, Pi.mul_apply]

/-- In-plane vector as derivative of its energy. -/
theorem in_force (α μ lr0 rl0 : ℝ) (L R : ℝ → Side F) (wL wR : F)
    (hL : HasVDeriv (fun t => (L t).n) ((L 0).n1 wL) 0)
    (hR : HasVDeriv (fun t => (R t).n) ((R 0).n1 wR) 0)
    (hLo : HasVDeriv (fun t => (L t).o) ((L 0).o1 wL) 0)
    (hRo : HasVDeriv (fun t => (R t).o) ((R 0).o1 wR) 0) :
    HasDerivAt (fun t => outerEnergy α μ (L t) (R t) lr0 rl0)
      (-c1VecIn α μ (L 0) (R 0) lr0 rl0 wL wR) 0 := by
  have h1 := ((hLo.dot hR).sub_const lr0).pow 2
  have h2 := ((hRo.dot hL).sub_const rl0).pow 2
  have h := ((h1.add h2).const_mul (α / 2)).mul_const μ
  refine h.congr_deriv ?_
  unfold c1VecIn dnN
  rw [dot_comm ((R 0).n1 wR) (L 0).o, dot_comm ((L 0).n1 wL) (R 0).o]
  push_cast
  ring

/-- The entries by which the coded in-plane "third line" differs from the second derivative of the
energy: for each block the right term minus the coded one. -/
def inDefect (α μ : ℝ) (L R : Side F) (lr0 rl0 : ℝ) (vL vR wL wR : F) : ℝ :=
  α * μ * (dnN R L rl0 * (dot (L.n2 vL wL) R.o - dot (L.o2 vL wL) R.n)
    + dnN R L rl0 * (dot (L.n1 vL) (R.o1 wR) - dot (L.o1 vL) (R.n1 wR))
    + dnN L R lr0 * (dot (R.n1 vR) (L.o1 wL) - dot (R.o1 vR) (L.n1 wL))
    + dnN L R lr0 * (dot (R.n2 vR wR) L.o - dot (R.o2 vR wR) L.n))

/-- Exact derivative of the in-plane vector. -/
theorem in_tangent (α μ lr0 rl0 : ℝ) (L R : ℝ → Side F) (vL vR wL wR : F) (hL : NVar L vL wL)
    (hR : NVar R vR wR) (hLo : OVar L vL wL) (hRo : OVar R vR wR) :
    HasDerivAt (fun t => c1VecIn α μ (L t) (R t) lr0 rl0 vL vR)
      (-(c1MatIn1 α μ (L 0) (R 0) lr0 rl0 vL vR wL wR + c1MatIn2 α μ (L 0) (R 0) vL vR wL wR
        + inDefect α μ (L 0) (R 0) lr0 rl0 vL vR wL wR)) 0 := by
  have hd := (hLo.1.dot hR.1).sub_const lr0
  have hd' := (hRo.1.dot hL.1).sub_const rl0
  have h1 := hLo.2.dot hR.1
  have h2 := hR.2.dot hLo.1
  have h3 := hRo.2.dot hL.1
  have h4 := hL.2.dot hRo.1
  have h := ((((hd.const_mul (-α)).mul h1).mul_const μ).add
    (((hd.const_mul (-α)).mul h2).mul_const μ)).add
    (((hd'.const_mul (-α)).mul h3).mul_const μ) |>.add
    (((hd'.const_mul (-α)).mul h4).mul_const μ)
  refine (h.congr_deriv ?_).congr_of_eventuallyEq (Filter.Eventually.of_forall (fun t => ?_))
  · unfold c1MatIn1 c1MatIn2 inDefect dnN
    simp only [dot_comm (L 0).o ((R 0).n1 wR), dot_comm (R 0).o ((L 0).n1 wL)]
    ring
  · simp only [c1VecIn, dnN, Pi.add_apply, Pi.mul_apply]

/-! ## Surfaces -/

/-- Regular surfaces at the quadrature points of the two sides, with the boundary tangents. -/
structure IfcData (ι : Type) where
  s : ι → Surf
  c : ι → Fin 2
  σ : ι → ℝ

/-- All points are regular. -/
def IfcData.Regular (Q : Finset ι) (D : IfcData ι) : Prop :=
  ∀ q ∈ Q, Indep ((D.s q).a 0) ((D.s q).a 1) ∧ (D.σ q = 1 ∨ D.σ q = -1)

/-- The side at a point after moving by `t` times the field. -/
noncomputable def IfcData.side (D : IfcData ι) (w : ι → Surf) (t : ℝ) (q : ι) : Side Surf :=
  sideCurve (D.s q) (w q) (D.c q) (D.σ q) t

/-- The side at a point. -/
noncomputable def IfcData.now (D : IfcData ι) (q : ι) : Side Surf :=
  sideOf (D.s q) (D.σ q • (D.s q).a (D.c q))

theorem side_zero (D : IfcData ι) (w : ι → Surf) (q : ι) : D.side w 0 q = D.now q := by
  simp only [IfcData.side, IfcData.now, sideCurve, shift_zero]

/-- The variation of the normal is orthogonal to the normal. -/
theorem var1_dot_normal (s v : Surf) (h : Indep (s.a 0) (s.a 1)) :
    dot (var1 s v) (normal s) = 0 := by
  have h1 : dot (normal s) (normal s) = 1 := normal_unit s h.cross_ne
  have h2 : dot (var1 s v) (normal s)
      = dot (mvec s v) (normal s) * (1 - dot (normal s) (normal s)) := by
    unfold var1; simp only [dot, sub_x, sub_y, sub_z, smul_x, smul_y, smul_z]; ring
  rw [h2, h1]; ring

/-! ## A folded interface -/

/-- A flat left patch. -/
def flatL : Surf := ⟨![⟨1, 0, 0⟩, ⟨0, 1, 0⟩], 0, 0, 0⟩
/-- A right patch folded about the interface. -/
noncomputable def foldR : Surf := ⟨![⟨3 / 5, 0, 4 / 5⟩, ⟨0, 1, 0⟩], 0, 0, 0⟩
/-- The left patch tilts about the first axis. -/
def tiltL : Surf := ⟨![0, ⟨0, 0, 1⟩], 0, 0, 0⟩
/-- The right patch shears in its plane. -/
noncomputable def shearR : Surf := ⟨![0, ⟨3 / 5, 0, 4 / 5⟩], 0, 0, 0⟩
/-- No variation. -/
def still : Surf := ⟨![0, 0], 0, 0, 0⟩

theorem flatL_indep : Indep (flatL.a 0) (flatL.a 1) := by
  intro c d h
  have hx := congrArg V3.x h
  have hy := congrArg V3.y h
  simp [flatL] at hx hy
  exact ⟨hx, hy⟩

theorem foldR_indep : Indep (foldR.a 0) (foldR.a 1) := by
  intro c d h
  have hx := congrArg V3.x h
  have hy := congrArg V3.y h
  simp [foldR] at hx hy
  exact ⟨hx, hy⟩

theorem flatL_unit (i : Fin 2) : V3.norm (flatL.a i) = 1 := by
  rcases fin2_cases i with rfl | rfl <;> simp [flatL, V3.norm, dot]

theorem foldR_unit (i : Fin 2) : V3.norm (foldR.a i) = 1 := by
  rcases fin2_cases i with rfl | rfl <;> norm_num [foldR, V3.norm, dot]

theorem flatL_normal : normal flatL = ⟨0, 0, 1⟩ := by
  unfold normal normalized V3.norm
  ext <;> norm_num [flatL, dot, cross]

theorem foldR_normal : normal foldR = ⟨-4 / 5, 0, 3 / 5⟩ := by
  unfold normal normalized V3.norm
  ext <;> norm_num [foldR, dot, cross]

/-- The left side of the folded interface. -/
noncomputable def witL : Side Surf := sideOf flatL ((1 : ℝ) • flatL.a 1)
/-- The right side of the folded interface. -/
noncomputable def witR : Side Surf := sideOf foldR ((-1 : ℝ) • foldR.a 1)

theorem flatL_measure : Variation.measure flatL = 1 := by
  unfold Variation.measure V3.norm; norm_num [flatL, dot, cross]

theorem foldR_measure : Variation.measure foldR = 1 := by
  unfold Variation.measure V3.norm; norm_num [foldR, dot, cross]

theorem flatL_tan : (1 : ℝ) • flatL.a 1 = ⟨0, 1, 0⟩ := by ext <;> simp [flatL]
theorem foldR_tan : (-1 : ℝ) • foldR.a 1 = ⟨0, -1, 0⟩ := by ext <;> simp [foldR]

theorem norm_ey : V3.norm (⟨0, 1, 0⟩ : V3) = 1 := by simp [V3.norm, dot]
theorem norm_ney : V3.norm (⟨0, -1, 0⟩ : V3) = 1 := by simp [V3.norm, dot]

theorem unit_ey : normalized (⟨0, 1, 0⟩ : V3) = ⟨0, 1, 0⟩ := by
  unfold normalized; rw [norm_ey]; ext <;> simp

theorem unit_ney : normalized (⟨0, -1, 0⟩ : V3) = ⟨0, -1, 0⟩ := by
  unfold normalized; rw [norm_ney]; ext <;> simp

theorem witL_n : witL.n = ⟨0, 0, 1⟩ := flatL_normal
theorem witR_n : witR.n = ⟨-4 / 5, 0, 3 / 5⟩ := foldR_normal

theorem witL_o : witL.o = ⟨1, 0, 0⟩ := by
  change cross (normalized ((1 : ℝ) • flatL.a 1)) (normal flatL) = _
  rw [flatL_tan, unit_ey, flatL_normal]; ext <;> norm_num [cross]

theorem witR_o : witR.o = ⟨-3 / 5, 0, -4 / 5⟩ := by
  change cross (normalized ((-1 : ℝ) • foldR.a 1)) (normal foldR) = _
  rw [foldR_tan, unit_ney, foldR_normal]; ext <;> norm_num [cross]

theorem witL_n1_tilt : witL.n1 tiltL = ⟨0, -1, 0⟩ := by
  change var1 flatL tiltL = _
  unfold var1 mvec
  rw [flatL_measure, flatL_normal]; ext <;> norm_num [flatL, tiltL, dot, cross]

theorem witL_n1_still : witL.n1 still = 0 := by
  change var1 flatL still = _
  unfold var1 mvec
  rw [flatL_measure, flatL_normal]; ext <;> norm_num [flatL, still, dot, cross]

theorem witR_n1_shear : witR.n1 shearR = 0 := by
  change var1 foldR shearR = _
  unfold var1 mvec
  rw [foldR_measure, foldR_normal]; ext <;> norm_num [foldR, shearR, dot, cross]

theorem witR_n1_still : witR.n1 still = 0 := by
  change var1 foldR still = _
  unfold var1 mvec
  rw [foldR_measure, foldR_normal]; ext <;> norm_num [foldR, still, dot, cross]

theorem witL_o1 (v : Surf) : witL.o1 v = ovarC flatL 1 1 v :=
  sideOf_o1 flatL flatL_indep 1 1 (.inl rfl) v

theorem witR_o1 (v : Surf) : witR.o1 v = ovarC foldR 1 (-1) v :=
  sideOf_o1 foldR foldR_indep 1 (-1) (.inr rfl) v

theorem witL_o2 (v w : Surf) : witL.o2 v w = ovar2C flatL 1 1 v w :=
  ovar2_eq flatL flatL_indep flatL_unit 1 _ (sideOf_crosses flatL flatL_indep 1 1 (.inl rfl)) 1
    (.inl rfl) v w

theorem witR_o2 (v w : Surf) : witR.o2 v w = ovar2C foldR 1 (-1) v w :=
  ovar2_eq foldR foldR_indep foldR_unit 1 _ (sideOf_crosses foldR foldR_indep 1 (-1) (.inr rfl))
    (-1) (.inr rfl) v w

theorem witL_o1_tilt : witL.o1 tiltL = 0 := by
  rw [witL_o1]; unfold ovarC tvarC var1 mvec
  simp only [flatL_measure, flatL_normal, flatL_tan, norm_ey, unit_ey]
  ext <;> norm_num [flatL, tiltL, dot, cross]

theorem witL_o1_still : witL.o1 still = 0 := by
  rw [witL_o1]; unfold ovarC tvarC var1 mvec
  simp only [flatL_measure, flatL_normal, flatL_tan, norm_ey, unit_ey]
  ext <;> norm_num [flatL, still, dot, cross]

theorem witR_o1_shear : witR.o1 shearR = ⟨0, 1, 0⟩ := by
  rw [witR_o1]; unfold ovarC tvarC var1 mvec
  simp only [foldR_measure, foldR_normal, foldR_tan, norm_ney, unit_ney]
  ext <;> norm_num [foldR, shearR, dot, cross]

theorem witR_o1_still : witR.o1 still = 0 := by
  rw [witR_o1]; unfold ovarC tvarC var1 mvec
  simp only [foldR_measure, foldR_normal, foldR_tan, norm_ney, unit_ney]
  ext <;> norm_num [foldR, still, dot, cross]

theorem witL_n2 : witL.n2 tiltL still = 0 ∧ witL.n2 still tiltL = 0 := by
  change var2 flatL tiltL still = 0 ∧ var2 flatL still tiltL = 0
  unfold var2 var2From var1 mvec muv
  rw [flatL_measure, flatL_normal]
  constructor <;> ext <;> norm_num [flatL, tiltL, still, dot, cross]

theorem witR_n2 : witR.n2 shearR still = 0 ∧ witR.n2 still shearR = 0 := by
  change var2 foldR shearR still = 0 ∧ var2 foldR still shearR = 0
  unfold var2 var2From var1 mvec muv
  rw [foldR_measure, foldR_normal]
  constructor <;> ext <;> norm_num [foldR, shearR, still, dot, cross]

theorem witL_o2_zero : witL.o2 tiltL still = 0 ∧ witL.o2 still tiltL = 0 := by
  rw [witL_o2, witL_o2]
  unfold ovar2C tvar2C tvarC var2 var2From var1 mvec muv
  simp only [flatL_measure, flatL_normal, flatL_tan, norm_ey, unit_ey]
  constructor <;> ext <;> norm_num [flatL, tiltL, still, dot, cross]

theorem witR_o2_zero : witR.o2 shearR still = 0 ∧ witR.o2 still shearR = 0 := by
  rw [witR_o2, witR_o2]
  unfold ovar2C tvar2C tvarC var2 var2From var1 mvec muv
  simp only [foldR_measure, foldR_normal, foldR_tan, norm_ney, unit_ney]
  constructor <;> ext <;> norm_num [foldR, shearR, still, dot, cross]

end Verif.WeakForms
