import Verif.Lemmas.Queries
import Mathlib.Tactic.NormNum
import Mathlib.Tactic.Linarith
import Mathlib.Tactic.Positivity

/-! # Properties C81, C87, C88: energy, norms and interface errors -/

set_option linter.unusedSimpArgs false

namespace Verif.Queries

open V3 Verif.Geometry

variable {ι : Type}

/-! ## C81 -/

/-- **C81** The area does not change under translations. -/
theorem C81_area (Q : Finset ι) (wt : ι → ℝ) (G : Geo ι) (c : V3) :
    getArea Q wt (translate c G) = getArea Q wt G := rfl

/-- **C81** The displacement norm of a translation is its length, for every geometry of positive
area. -/
theorem C81_norm (Q : Finset ι) (wt : ι → ℝ) (ori : Geo ι) (h : 0 < getArea Q wt ori) (c : V3) :
    displacementNorm Q wt ori (translate c ori) = V3.norm c := by
  unfold displacementNorm V3.norm
  congr 1
  have e : ∑ q ∈ Q, wt q * (dot ((translate c ori).x q - ori.x q) ((translate c ori).x q - ori.x q)
      * (translate c ori).meas q) = dot c c * ∑ q ∈ Q, wt q * ori.meas q := by
    rw [Finset.mul_sum]
    refine Finset.sum_congr rfl (fun q _ => ?_)
    have : (translate c ori).x q - ori.x q = c := add_sub_self _ _
    rw [this]
    change wt q * (dot c c * ori.meas q) = _
    ring
  rw [e, mul_div_assoc, div_self]
  · ring
  · exact h.ne'

/-- **C81** (partial: area-preserving deformations) The displacement norm never exceeds the largest
displacement. -/
theorem C81_mean_partial (Q : Finset ι) (wt : ι → ℝ) (hw : ∀ q ∈ Q, 0 ≤ wt q) (ori defo : Geo ι)
    (h : 0 < getArea Q wt ori) (hm : ∀ q ∈ Q, defo.meas q = ori.meas q) (B : ℝ) (hB : 0 ≤ B)
    (hu : ∀ q ∈ Q, V3.norm (defo.x q - ori.x q) ≤ B) : displacementNorm Q wt ori defo ≤ B := by
  unfold displacementNorm
  unfold getArea at h
  rw [Real.sqrt_le_left hB, div_le_iff₀ h, Finset.mul_sum]
  refine Finset.sum_le_sum (fun q hq => ?_)
  have h1 : dot (defo.x q - ori.x q) (defo.x q - ori.x q) ≤ B ^ 2 := by
    have := hu q hq
    unfold V3.norm at this
    rwa [Real.sqrt_le_left hB] at this
  have h2 : 0 ≤ ori.meas q := by
    unfold Geo.meas Variation.measure V3.norm; exact Real.sqrt_nonneg _
  rw [hm q hq]
  have := mul_le_mul_of_nonneg_right h1 (mul_nonneg (hw q hq) h2)
  nlinarith

/-- A unit square seen at its centre. -/
noncomputable def square : Geo Unit := ⟨fun _ => ⟨1 / 2, 1 / 2, 0⟩, fun _ =>
  ⟨![⟨1, 0, 0⟩, ⟨0, 1, 0⟩], 0, 0, 0⟩⟩

/-- The square stretched to four times its length and moved by `c` at the centre. -/
noncomputable def stretched (c : V3) : Geo Unit := ⟨fun _ => ⟨1 / 2, 1 / 2, 0⟩ + c, fun _ =>
  ⟨![⟨4, 0, 0⟩, ⟨0, 1, 0⟩], 0, 0, 0⟩⟩

theorem square_meas (q : Unit) : square.meas q = 1 := by
  unfold Geo.meas Variation.measure V3.norm; norm_num [square, dot, cross]

theorem stretched_meas (c : V3) (q : Unit) : (stretched c).meas q = 4 := by
  unfold Geo.meas Variation.measure V3.norm
  simp [stretched, dot, cross]

theorem square_area : 0 < getArea Finset.univ (fun _ => 1) square := by
  simp [getArea, square_meas]

/-- Non-vacuity of `C81_norm` and `C81_mean_partial`. -/
example : 0 < getArea Finset.univ (fun _ => 1) square := square_area

/-- **C81** is violated: the displacement is weighed with the deformed area but divided by the
undeformed one, so that the norm exceeds the largest displacement for stretched shells. -/
theorem C81_mean_violated : ∃ ori defo : Geo Unit, 0 < getArea Finset.univ (fun _ => 1) ori ∧
    (∀ q, V3.norm (defo.x q - ori.x q) = 1) ∧
    displacementNorm Finset.univ (fun _ => 1) ori defo = 2 := by
  have e : ∀ q, (stretched ⟨1, 0, 0⟩).x q - square.x q = ⟨1, 0, 0⟩ := fun q => add_sub_self _ _
  refine ⟨square, stretched ⟨1, 0, 0⟩, square_area, fun q => ?_, ?_⟩
  · rw [e]; simp [V3.norm, dot]
  · unfold displacementNorm
    simp only [e, stretched_meas, square_meas]
    have : (4 : ℝ) = 2 ^ 2 := by norm_num
    simp [dot]
    rw [this, Real.sqrt_sq (by norm_num)]

/-- **C81** (partial: no displacement or no stress) The energy is zero. -/
theorem C81_energy_partial (Q : Finset ι) (wt : ι → ℝ) (ori defo : Geo ι) (N M : ι → Voigt)
    (h : ∀ q ∈ Q, defo.x q = ori.x q ∨ ∀ k, N q k + M q k = 0) :
    elasticEnergy Q wt ori defo N M = 0 := by
  refine Finset.sum_eq_zero (fun q hq => ?_)
  have : pairing (defo.x q - ori.x q) (N q) (M q) = 0 := by
    rcases h q hq with h | h
    · rw [(sub_zero_iff _ _).2 h]; simp [pairing]
    · simp [pairing, h]
  rw [this]; ring

/-- **C81** (exact change of the energy under translations, for every material) -/
theorem C81_translation (Q : Finset ι) (wt : ι → ℝ) (ori defo : Geo ι) (N M : ι → Voigt) (c : V3) :
    elasticEnergy Q wt ori (translate c defo) N M = elasticEnergy Q wt ori defo N M
      + ∑ q ∈ Q, wt q * (1 / 2 * pairing c (N q) (M q) * defo.meas q) := by
  unfold elasticEnergy
  rw [← Finset.sum_add_distrib]
  refine Finset.sum_congr rfl (fun q _ => ?_)
  have : (translate c defo).meas q = defo.meas q := rfl
  rw [this]
  simp [pairing, translate]
  ring

/-- Membrane resultant of the linear material with thickness 1, modulus 1 and Poisson ratio 0. -/
noncomputable def linN (ori defo : Geo Unit) (q : Unit) : Voigt :=
  Linear.stress 1 0 (inv2 (Acov (ori.s q))) (membraneStrain (ori.s q) (defo.s q))

theorem linN_stretched (c : V3) (q : Unit) : linN square (stretched c) q = vec3 (15 / 2) 0 0 := by
  funext k
  unfold linN Linear.stress Linear.Sij Linear.Cval Linear.Cconst Linear.mu Linear.lam
  rcases fin3_cases k with rfl | rfl | rfl <;>
    norm_num [square, stretched, membraneStrain, Acov, inv2, det2, dot, vec3]

/-- **C81** is violated: the energy of a stretched square of linear material changes under
translations. -/
theorem C81_energy_violated : ∃ (ori defo : Geo Unit) (c : V3),
    elasticEnergy Finset.univ (fun _ => 1) ori (translate c defo) (linN ori (translate c defo))
        (fun _ _ => 0)
      ≠ elasticEnergy Finset.univ (fun _ => 1) ori defo (linN ori defo) (fun _ _ => 0) := by
  refine ⟨square, stretched 0, ⟨1, 0, 0⟩, ?_⟩
  have e : linN square (translate ⟨1, 0, 0⟩ (stretched 0)) = linN square (stretched 0) := rfl
  rw [e, C81_translation]
  simp [pairing, linN_stretched, stretched_meas, vec3]

/-- **C81** is violated: the energy of a stretched square of linear material can be negative. -/
theorem C81_negative_violated : ∃ (ori defo : Geo Unit),
    elasticEnergy Finset.univ (fun _ => 1) ori defo (linN ori defo) (fun _ _ => 0) < 0 := by
  refine ⟨square, stretched ⟨-1, 0, 0⟩, ?_⟩
  have e : ∀ q, (stretched ⟨-1, 0, 0⟩).x q - square.x q = ⟨-1, 0, 0⟩ := fun q => add_sub_self _ _
  simp [elasticEnergy, e, pairing, linN_stretched, stretched_meas, vec3]

/-- **C81** (partial: the first argument is a displacement field instead of a geometry) The
deformation norm is the squared mean of the field; it is zero exactly if the field is. -/
theorem C81_deformation_partial (Q : Finset ι) (wt : ι → ℝ) (hw : ∀ q ∈ Q, 0 < wt q)
    (u ori : Geo ι) (hm : ∀ q ∈ Q, 0 < ori.meas q) :
    deformationNorm Q wt u ori = 0 ↔ ∀ q ∈ Q, u.x q = 0 := by
  have hn : ∀ q ∈ Q, 0 ≤ wt q * (dot (u.x q) (u.x q) * ori.meas q) := fun q hq =>
    mul_nonneg (hw q hq).le (mul_nonneg (dot_self_nonneg _) (hm q hq).le)
  unfold deformationNorm
  rw [Finset.sum_eq_zero_iff_of_nonneg hn]
  constructor
  · intro h q hq
    have h1 := h q hq
    have h2 := (mul_eq_zero.1 h1).resolve_left (hw q hq).ne'
    exact dot_self_zero ((mul_eq_zero.1 h2).resolve_right (hm q hq).ne')
  · intro h q hq
    rw [h q hq]; simp [dot]

/-- **C81** is violated: the deformation norm between a geometry and itself is positive unless the
geometry is the origin. -/
theorem C81_deformation_violated (Q : Finset ι) (wt : ι → ℝ) (hw : ∀ q ∈ Q, 0 < wt q) (G : Geo ι)
    (hm : ∀ q ∈ Q, 0 < G.meas q) (q₀ : ι) (hq : q₀ ∈ Q) (hx : G.x q₀ ≠ 0) :
    deformationNorm Q wt G G ≠ 0 :=
  fun h => hx ((C81_deformation_partial Q wt hw G G hm).1 h q₀ hq)

/-- Non-vacuity: the unit square. -/
example : (∀ q ∈ (Finset.univ : Finset Unit), 0 < square.meas q) ∧ square.x () ≠ 0 :=
  ⟨fun q _ => by rw [square_meas]; norm_num, fun h => by
    have := congrArg V3.x h; simp [square] at this⟩

/-! ## C87 -/

/-- **C87** The C0 error is zero exactly if both sides coincide at all points. -/
theorem C87_C0 (Q : Finset ι) (wt : ι → ℝ) (hw : ∀ q ∈ Q, 0 < wt q) (I : Ifc ι) :
    errorC0 Q wt I = 0 ↔ ∀ q ∈ Q, I.L.x q = I.R.x q := by
  unfold errorC0
  rw [rms_zero Q wt hw]
  simp only [sub_zero_iff]

/-- **C87** The G1 error is zero exactly if the unit normals coincide at all points. -/
theorem C87_G1 (Q : Finset ι) (wt : ι → ℝ) (hw : ∀ q ∈ Q, 0 < wt q) (I : Ifc ι) :
    errorG1 Q wt I = 0 ↔ ∀ q ∈ Q, normal (I.L.s q) = normal (I.R.s q) := by
  unfold errorG1
  rw [rms_zero Q wt hw]
  simp only [sub_zero_iff]

/-- Non-vacuity. -/
example : ∀ q ∈ (Finset.univ : Finset Unit), (0 : ℝ) < (fun _ => 1 : Unit → ℝ) q :=
  fun _ _ => one_pos

/-- **C87** The unit normal, hence the G1 error, does not depend on orientation-preserving changes
of parameters. -/
theorem C87_G1_parameters (s : Surf) (J : T2) (h1 h2 : Fin 3 → ℝ) (hJ : 0 < det2 J) :
    normal (reparam s J h1 h2) = normal s := by
  rw [reparam_normal s J h1 h2 hJ.ne', abs_of_pos hJ, div_self hJ.ne']
  ext <;> simp

/-- **C87** The Gauss curvature compared at the interface does not depend on the parameters, not
even on the orientation. -/
theorem C87_gauss (s : Surf) (J : T2) (h1 h2 : Fin 3 → ℝ) (hJ : det2 J ≠ 0) :
    gauss (reparam s J h1 h2) = gauss s := by
  have hA : det2 (Acov (reparam s J h1 h2)) = det2 J ^ 2 * det2 (Acov s) := by
    simp only [det2, reparam_Acov, Fin.sum_univ_two]; ring
  have hσ : (det2 J / |det2 J|) ^ 2 = 1 := by
    rw [div_pow, sq_abs, div_self (pow_ne_zero 2 hJ)]
  have hB : det2 (Bcov (reparam s J h1 h2)) = det2 J ^ 2 * det2 (Bcov s) := by
    have : det2 (Bcov (reparam s J h1 h2))
        = (det2 J / |det2 J|) ^ 2 * (det2 J ^ 2 * det2 (Bcov s)) := by
      simp only [reparam_Bcov s J h1 h2 hJ, det2, Fin.sum_univ_two]; ring
    rw [this, hσ, one_mul]
  rw [gauss_eq, gauss_eq, hA, hB, mul_div_mul_left _ _ (pow_ne_zero 2 hJ)]

/-- **C87** The mean curvature compared at the interface changes with the orientation only. -/
theorem C87_mean_partial (s : Surf) (J : T2) (h1 h2 : Fin 3 → ℝ) (hJ : det2 J ≠ 0) :
    mean (reparam s J h1 h2) = det2 J / |det2 J| * mean s := by
  have hA : det2 (Acov (reparam s J h1 h2)) = det2 J ^ 2 * det2 (Acov s) := by
    simp only [det2, reparam_Acov, Fin.sum_univ_two]; ring
  rw [mean_eq, mean_eq, hA, ← mul_div_assoc,
    ← mul_div_mul_left (det2 J / |det2 J| * _) (det2 (Acov s)) (pow_ne_zero 2 hJ)]
  congr 1
  simp only [reparam_Bcov s J h1 h2 hJ, reparam_Acov, Fin.sum_univ_two]
  have hD : det2 J ^ 2 = (J 0 0 * J 1 1 - J 0 1 * J 1 0) ^ 2 := rfl
  rw [hD]
  generalize det2 J / |det2 J| = σ
  ring

/-- **C87** Curvature errors vanish when both sides are parametrisations of one surface with the same
orientation. -/
theorem C87_conforming (Q : Finset ι) (hQ : Q.Nonempty) (I : Ifc ι)
    (hI : ∀ q ∈ Q, ∃ (J : T2) (h1 h2 : Fin 3 → ℝ), 0 < det2 J ∧
      I.R.s q = reparam (I.L.s q) J h1 h2) :
    maxOver Q hQ (fun q => |gauss (I.L.s q) - gauss (I.R.s q)|) = 0 ∧
    maxOver Q hQ (fun q => |mean (I.L.s q) - mean (I.R.s q)|) = 0 := by
  constructor
  · unfold maxOver
    refine (Finset.sup'_congr hQ rfl (g := fun _ => (0 : ℝ)) (fun q hq => ?_)).trans
      (Finset.sup'_const hQ 0)
    obtain ⟨J, h1, h2, hJ, e⟩ := hI q hq
    rw [e, C87_gauss _ _ _ _ hJ.ne']; simp
  · unfold maxOver
    refine (Finset.sup'_congr hQ rfl (g := fun _ => (0 : ℝ)) (fun q hq => ?_)).trans
      (Finset.sup'_const hQ 0)
    obtain ⟨J, h1, h2, hJ, e⟩ := hI q hq
    rw [e, C87_mean_partial _ _ _ _ hJ.ne', abs_of_pos hJ, div_self hJ.ne', one_mul]; simp

/-- A curved surface: the vertex of a paraboloid. -/
def bowl : Surf := ⟨![⟨1, 0, 0⟩, ⟨0, 1, 0⟩], ⟨0, 0, 1⟩, ⟨0, 0, 1⟩, 0⟩

/-- Non-vacuity of the parameter changes: doubling the first parameter. -/
example : 0 < det2 (![![2, 0], ![0, 1]] : T2) := by norm_num [det2]

theorem bowl_normal : normal bowl = ⟨0, 0, 1⟩ := by
  unfold normal normalized V3.norm; ext <;> norm_num [bowl, dot, cross]

/-- **C87** is violated: the error of the normals is that of the vectors `sn`, which are not
normalised; it is positive for two parametrisations of the same surface (every regular surface,
first parameter doubled). -/
theorem C87_normal_violated (s : Surf) (h : cross (s.a 0) (s.a 1) ≠ 0) :
    normal (reparam s ![![2, 0], ![0, 1]] (fun _ => 0) (fun _ => 0)) = normal s ∧
    normalDiff s (reparam s ![![2, 0], ![0, 1]] (fun _ => 0) (fun _ => 0)) ≠ 0 := by
  refine ⟨C87_G1_parameters _ _ _ _ (by norm_num [det2]), fun he => h ?_⟩
  unfold normalDiff V3.norm at he
  rw [Real.sqrt_eq_zero (dot_self_nonneg _)] at he
  have := (sub_zero_iff _ _).1 (dot_self_zero he)
  have e : sn (reparam s ![![2, 0], ![0, 1]] (fun _ => 0) (fun _ => 0))
      = (2 : ℝ) • cross (s.a 0) (s.a 1) := by
    unfold sn
    rw [reparam_cross]
    norm_num [det2]
  rw [e] at this
  unfold sn at this
  have hx := congrArg V3.x this
  have hy := congrArg V3.y this
  have hz := congrArg V3.z this
  simp only [smul_x, smul_y, smul_z] at hx hy hz
  ext
  · change _ = (0 : ℝ); linarith
  · change _ = (0 : ℝ); linarith
  · change _ = (0 : ℝ); linarith

/-- **C87** is violated: for two parametrisations of one surface with opposite orientation the mean
curvature error is not zero (the G1 error is not zero either). -/
theorem C87_mean_violated : ∃ (s : Surf) (J : T2), det2 J ≠ 0 ∧
    |mean s - mean (reparam s J (fun _ => 0) (fun _ => 0))| = 4 ∧
    normal (reparam s J (fun _ => 0) (fun _ => 0)) ≠ normal s := by
  have hJ : det2 (![![0, 1], ![1, 0]] : T2) = -1 := by norm_num [det2]
  have hm : mean bowl = 2 := by
    rw [mean_eq]
    unfold Bcov
    rw [bowl_normal]
    norm_num [Acov, bowl, dot, det2]
  refine ⟨bowl, ![![0, 1], ![1, 0]], by rw [hJ]; norm_num, ?_, ?_⟩
  · rw [C87_mean_partial _ _ _ _ (by rw [hJ]; norm_num), hJ, hm]; norm_num
  · rw [reparam_normal _ _ _ _ (by rw [hJ]; norm_num), hJ, bowl_normal]
    intro h
    have := congrArg V3.z h
    norm_num at this

/-- **C87** is violated in scale: the value compared is the trace, twice the mean curvature, for a
unit sphere 2 instead of 1. -/
theorem C87_scale_violated : mean bowl = 2 := by
  rw [mean_eq]
  unfold Bcov
  rw [bowl_normal]
  norm_num [Acov, bowl, dot, det2]

/-! ## C88 -/

/-- **C88** (partial: one interface) The classification is right. -/
theorem C88_partial (Q : Finset ι) (wt : ι → ℝ) (tol : ℝ) (I : Ifc ι) :
    isInPlane Q wt [I] tol I ↔ InPlane Q wt tol I := by
  unfold isInPlane InPlane errorG1
  simp

/-- **C88** is violated: all interfaces get the same class. -/
theorem C88_same_violated (Q : Finset ι) (wt : ι → ℝ) (all : List (Ifc ι)) (tol : ℝ) :
    ifcTest Q wt all tol = all ∨ ifcTest Q wt all tol = [] := by
  classical
  unfold ifcTest
  by_cases h : ∃ I, isInPlane Q wt all tol I
  · left
    obtain ⟨I, hI⟩ := h
    exact List.filter_eq_self.2 (fun _ _ => by rw [decide_eq_true_eq]; exact hI)
  · right
    exact List.filter_eq_nil_iff.2 (fun J _ => by
      simpa using fun hJ => h ⟨J, hJ⟩)

/-- A side given by a surface. -/
def sideGeo (s : Surf) : Geo Unit := ⟨fun _ => 0, fun _ => s⟩

/-- A vertical surface. -/
def wall : Surf := ⟨![⟨0, 1, 0⟩, ⟨0, 0, 1⟩], 0, 0, 0⟩

theorem wall_normal : normal wall = ⟨1, 0, 0⟩ := by
  unfold normal normalized V3.norm; ext <;> norm_num [wall, dot, cross]

/-- **C88** is violated: a flat interface is classified as out-of-plane because another interface
has a kink. -/
theorem C88_violated : ∃ (all : List (Ifc Unit)) (I : Ifc Unit), I ∈ all ∧
    InPlane Finset.univ (fun _ => 1) (1 / 100) I ∧
    ¬ isInPlane Finset.univ (fun _ => 1) all (1 / 100) I := by
  refine ⟨[⟨sideGeo bowl, sideGeo bowl⟩, ⟨sideGeo bowl, sideGeo wall⟩],
    ⟨sideGeo bowl, sideGeo bowl⟩, by simp, ?_, ?_⟩
  · unfold InPlane errorG1
    simp [sideGeo, dot]
  · unfold isInPlane
    rw [not_lt]
    refine Real.le_sqrt_of_sq_le ?_
    simp [sideGeo, bowl_normal, wall_normal, dot]
    norm_num

end Verif.Queries
