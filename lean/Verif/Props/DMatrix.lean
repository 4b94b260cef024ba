import Verif.Lemmas.DMatrix
import Verif.Props.HyperIncompressible
import Mathlib.Analysis.Calculus.FDeriv.Symmetric

/-!
# C120: the derivative of the tangent in the wrinkled tangent

Property theorems.
-/

namespace Verif.DMatrix

open Verif.Hyper Spec.Hyper Spec.DMatrix Verif.Geometry

/-- C120: what the wrinkled tangent reads from the closed form of the incompressible
neo-Hookean material is the derivative of the 3×3 tangent with respect to the Voigt strain,
entry by entry and for every deformation. -/
theorem C120_neoHookean {C : ℝ → T2} {t : ℝ} (p : Par) (A : T2) (hA : det2 A ≠ 0)
    (d : Fin 3) (hc : Curve C (strainRate d) t) (hdet : det2 (C t) ≠ 0) (i j : Fin 3) :
    HasDerivAt (fun s => fillMatrix (cNH p (data A (C s))) i j)
      (readTft (storeNH p (data A (C t))) d i j) t := by
  have hsy : ∀ i j, (data A (C t)).gcon i j = (data A (C t)).gcon j i := fun i j =>
    embed_symm (by rw [inv2_symm (C t) hc.symm]) i j
  have hd := C57_derivative p A hA hc hdet (fst i) (snd i) (fst j) (snd j)
  have hd' := C57_derivative p A hA hc hdet (fst j) (snd j) (fst i) (snd i)
  have hval : (∑ m, ∑ n, dCNH p (data A (C t)) (up (fst i)) (up (snd i)) (up (fst j))
      (up (snd j)) (up m) (up n) * strainRate d m n)
      = readTft (storeNH p (data A (C t))) d i j := by
    rw [read_index _ _ (storeNH_index p (data A (C t)))]
    have hs := (C57_symmetric p (data A (C t)) hsy (up (fst d)) (up (snd d)) (up (fst j))
      (up (snd j)) (up (fst i)) (up (snd i))).2.2
    rw [hs]
    have h10 : dCNH p (data A (C t)) (up (fst i)) (up (snd i)) (up (fst j)) (up (snd j)) 1 0
        = dCNH p (data A (C t)) (up (fst i)) (up (snd i)) (up (fst j)) (up (snd j)) 0 1 := by
      have a1 := (C57_symmetric p (data A (C t)) hsy (up (fst i)) (up (snd i)) (up (fst j))
        (up (snd j)) 1 0).2.2
      have a2 := (C57_symmetric p (data A (C t)) hsy 1 0 (up (fst j)) (up (snd j)) (up (fst i))
        (up (snd i))).1
      have a3 := (C57_symmetric p (data A (C t)) hsy 0 1 (up (fst j)) (up (snd j)) (up (fst i))
        (up (snd i))).2.2
      rw [a1, a2, a3]
    exact rate_sum (fun m n => dCNH p (data A (C t)) (up (fst i)) (up (snd i)) (up (fst j))
      (up (snd j)) (up m) (up n)) h10 d
  have hval' : (∑ m, ∑ n, dCNH p (data A (C t)) (up (fst j)) (up (snd j)) (up (fst i))
      (up (snd i)) (up m) (up n) * strainRate d m n)
      = readTft (storeNH p (data A (C t))) d i j := by
    rw [← hval]
    refine Finset.sum_congr rfl fun m _ => Finset.sum_congr rfl fun n _ => ?_
    rw [(C57_symmetric p (data A (C t)) hsy (up (fst j)) (up (snd j)) (up (fst i))
      (up (snd i)) (up m) (up n)).2.1]
  rw [hval] at hd
  rw [hval'] at hd'
  rcases fin3_cases i with rfl | rfl | rfl <;> rcases fin3_cases j with rfl | rfl | rfl <;>
    first | exact hd | exact hd'

/-- The hypotheses of the theorem hold for a shear of a stretched membrane. -/
example : Curve (fun s => ![![2, 1 + s], ![1 + s, 3]]) (strainRate 2) 0 ∧
    det2 (![![2, 1 + 0], ![1 + 0, 3]] : T2) ≠ 0 := by
  refine ⟨⟨fun i j => ?_, rfl, rfl⟩, by simp [det2]; norm_num⟩
  rcases fin2_cases i with rfl | rfl <;> rcases fin2_cases j with rfl | rfl
  · exact hasDerivAt_const _ _
  · exact (hasDerivAt_id (0 : ℝ)).const_add 1
  · exact (hasDerivAt_id (0 : ℝ)).const_add 1
  · exact hasDerivAt_const _ _

/-! ### Numerical derivative -/

/-- C120: layout of the numerical derivative.  What is read at (`i`, `j`) for strain direction
`d` is the derivative of entry (`j`, `d`) in direction `i`, at the deformation with half of the
shear (C56). -/
theorem C120_numerical (T : T2 → T3) (C : T2) (K : Voigt → T3)
    (hK : ∀ e, T (metricOfStrain e) = K e)
    (hdiff : ∀ i j, DifferentiableAt ℝ (fun e => K e i j) (vec3 (C 0 0 / 2) (C 1 1 / 2) (C 0 1 / 2)))
    (d i j : Fin 3) :
    readTft (storeFd T C) d i j
      = partialD (fun e => K e j d) i (vec3 (C 0 0 / 2) (C 1 1 / 2) (C 0 1 / 2)) := by
  have hd := d.2
  have hi := i.2
  have hj := j.2
  have e1 : (9 * (d : ℕ) + (3 * (j : ℕ) + (i : ℕ))) / 3 = 3 * (d : ℕ) + j := by omega
  have e2 : (9 * (d : ℕ) + (3 * (j : ℕ) + (i : ℕ))) % 3 = i := by omega
  have e3 : (3 * (d : ℕ) + (j : ℕ)) / 3 = d := by omega
  have e4 : (3 * (d : ℕ) + (j : ℕ)) % 3 = j := by omega
  unfold readTft storeFd
  rw [e1, e2, e3, e4, fin_ofNat, fin_ofNat]
  set e0 : Voigt := vec3 (C 0 0 / 2) (C 1 1 / 2) (C 0 1 / 2) with he0
  have hfun : (fun s : ℝ => cfun T (fun k => cVoigt C k + if (k : ℕ) = (i : ℕ) then s else 0) j d)
      = fun s : ℝ => K (e0 + (s / 2) • unit i) j d := by
    funext s
    rw [← hK]
    unfold cfun
    have : metricOfVoigt (cfunArg fun k => cVoigt C k + if (k : ℕ) = (i : ℕ) then s else 0)
        = metricOfStrain (e0 + (s / 2) • unit i) := by
      rcases fin3_cases i with rfl | rfl | rfl <;> funext a b <;>
        rcases fin2_cases a with rfl | rfl <;> rcases fin2_cases b with rfl | rfl <;>
        simp [metricOfVoigt, cfunArg, cVoigt, metricOfStrain, he0, unit] <;> ring
    rw [this]
  rw [hfun]
  have hline : HasDerivAt (fun s : ℝ => e0 + (s / 2) • unit i) ((1 / 2 : ℝ) • unit i) 0 :=
    (((hasDerivAt_id' (0 : ℝ)).div_const 2).smul_const (unit i)).const_add e0
  have hf : HasFDerivAt (fun e => K e j d) (fderiv ℝ (fun e => K e j d) e0)
      (e0 + ((0 : ℝ) / 2) • unit i) := by
    simpa using (hdiff j d).hasFDerivAt
  have := hf.comp_hasDerivAt (0 : ℝ) hline
  have h2 := this.deriv
  simp only [Function.comp_def] at h2
  rw [h2, map_smul]
  simp only [partialD, smul_eq_mul]
  ring

/-- C120 (partial): if the tangent is the symmetric derivative of a stress that is twice
continuously differentiable, what is read for a deformation without shear is the derivative of
the tangent with respect to the Voigt strain, entry by entry.  Missing: deformations with shear,
where the derivative is taken at half of the shear. -/
theorem C120_numerical_partial (T : T2 → T3) (C : T2) (h01 : C 0 1 = 0) (S : Voigt → Voigt)
    (hS : ∀ i, ContDiff ℝ 2 (fun e => S e i))
    (hT : ∀ e i j, T (metricOfStrain e) i j = partialD (fun e => S e i) j e)
    (hsym : ∀ e i j, partialD (fun e => S e i) j e = partialD (fun e => S e j) i e)
    (d i j : Fin 3) :
    metricOfStrain (vec3 (C 0 0 / 2) (C 1 1 / 2) (C 0 1)) = ![![C 0 0, C 0 1], ![C 0 1, C 1 1]] ∧
    readTft (storeFd T C) d i j
      = partialD (fun e => T (metricOfStrain e) i j) d (vec3 (C 0 0 / 2) (C 1 1 / 2) (C 0 1)) := by
  constructor
  · funext a b
    rcases fin2_cases a with rfl | rfl <;> rcases fin2_cases b with rfl | rfl <;>
      simp [metricOfStrain] <;> ring
  have hfd : ∀ a b, ContDiff ℝ 1 (fun e => partialD (fun e => S e a) b e) := fun a b =>
    ((hS a).fderiv_right (m := 1) (by norm_num)).clm_apply contDiff_const
  have hK : ∀ e, T (metricOfStrain e) = fun i j => partialD (fun e => S e i) j e :=
    fun e => by funext i j; exact hT e i j
  rw [C120_numerical T C _ hK fun a b => ((hfd a b).differentiable (by norm_num)).differentiableAt]
  have hz : vec3 (C 0 0 / 2) (C 1 1 / 2) (C 0 1 / 2) = vec3 (C 0 0 / 2) (C 1 1 / 2) (C 0 1) := by
    rw [h01, zero_div]
  rw [hz]
  have hright : (fun e => T (metricOfStrain e) i j) = fun e => partialD (fun e => S e j) i e := by
    funext e; rw [hT, hsym]
  rw [hright]
  have hdd : ∀ a b c e, partialD (fun e => partialD (fun e => S e a) b e) c e
      = fderiv ℝ (fderiv ℝ (fun e => S e a)) e (unit c) (unit b) := by
    intro a b c e
    unfold partialD
    have h1 : DifferentiableAt ℝ (fderiv ℝ (fun e => S e a)) e :=
      (((hS a).fderiv_right (m := 1) (by norm_num)).differentiable (by norm_num)).differentiableAt
    have := (h1.hasFDerivAt.clm_apply (hasFDerivAt_const (unit b) e)).fderiv
    rw [this]
    simp
  rw [hdd, hdd]
  have hs : IsSymmSndFDerivAt ℝ (fun e => S e j) (vec3 (C 0 0 / 2) (C 1 1 / 2) (C 0 1)) :=
    (hS j).contDiffAt.isSymmSndFDerivAt (by simp)
  exact hs.eq _ _

/-! ### A law that meets the hypotheses, and shear -/

/-- Stress with components `e_i³`, and its tangent as a function of the deformation tensor. -/
def cubeStress (e : Voigt) : Voigt := fun i => e i ^ 3
noncomputable def cubeTangent (C : T2) : T3 :=
  mk3 (3 * (C 0 0 / 2) ^ 2) 0 0 0 (3 * (C 1 1 / 2) ^ 2) 0 0 0 (3 * C 0 1 ^ 2)

theorem cube_contDiff (i : Fin 3) : ContDiff ℝ 2 (fun e => cubeStress e i) := by
  unfold cubeStress; fun_prop

theorem partial_pow (n : ℕ) (i d : Fin 3) (e : Voigt) :
    partialD (fun e => e i ^ n) d e = if i = d then n * e i ^ (n - 1) else 0 := by
  have h : HasFDerivAt (fun e : Voigt => e i ^ n)
      ((n * e i ^ (n - 1)) • (ContinuousLinearMap.proj i : Voigt →L[ℝ] ℝ)) e :=
    ((ContinuousLinearMap.proj (R := ℝ) (φ := fun _ : Fin 3 => ℝ) i).hasFDerivAt).pow n |>.congr_fderiv
      (by ext; simp)
  unfold partialD
  rw [h.fderiv]
  simp [unit, Pi.single_apply]

theorem cube_tangent (e : Voigt) (i j : Fin 3) :
    cubeTangent (metricOfStrain e) i j = partialD (fun e => cubeStress e i) j e := by
  unfold cubeStress
  rw [partial_pow]
  rcases fin3_cases i with rfl | rfl | rfl <;> rcases fin3_cases j with rfl | rfl | rfl <;>
    simp [cubeTangent, metricOfStrain]

theorem cube_symm (e : Voigt) (i j : Fin 3) :
    partialD (fun e => cubeStress e i) j e = partialD (fun e => cubeStress e j) i e := by
  unfold cubeStress
  rw [partial_pow, partial_pow]
  rcases fin3_cases i with rfl | rfl | rfl <;> rcases fin3_cases j with rfl | rfl | rfl <;> simp

/-- The hypotheses of the partial theorem hold for a stretched membrane of this law. -/
example (d i j : Fin 3) : readTft (storeFd cubeTangent ![![2, 0], ![0, 4]]) d i j
    = partialD (fun e => cubeTangent (metricOfStrain e) i j) d (vec3 (2 / 2) (4 / 2) 0) := by
  have := (C120_numerical_partial cubeTangent ![![2, 0], ![0, 4]] (by simp) cubeStress
    cube_contDiff cube_tangent cube_symm d i j).2
  simpa using this

/-- C120: violated with shear.  For a law that meets all other hypotheses the derivative read is
half of the derivative of the tangent at the current deformation. -/
theorem C120_shear_violated : ∃ (T : T2 → T3) (S : Voigt → Voigt) (C : T2),
    (∀ i, ContDiff ℝ 2 (fun e => S e i)) ∧
    (∀ e i j, T (metricOfStrain e) i j = partialD (fun e => S e i) j e) ∧
    (∀ e i j, partialD (fun e => S e i) j e = partialD (fun e => S e j) i e) ∧
    metricOfStrain (vec3 (C 0 0 / 2) (C 1 1 / 2) (C 0 1)) = C ∧
    partialD (fun e => T (metricOfStrain e) 2 2) 2 (vec3 (C 0 0 / 2) (C 1 1 / 2) (C 0 1)) = 6 ∧
    readTft (storeFd T C) 2 2 2 = 3 := by
  have hK : ∀ e, cubeTangent (metricOfStrain e) = fun i j => partialD (fun e => cubeStress e i) j e :=
    fun e => by funext i j; exact cube_tangent e i j
  have hfd : ∀ a b, ContDiff ℝ 1 (fun e => partialD (fun e => cubeStress e a) b e) := fun a b =>
    ((cube_contDiff a).fderiv_right (m := 1) (by norm_num)).clm_apply contDiff_const
  have h22 : (fun e => partialD (fun e => cubeStress e 2) 2 e) = fun e : Voigt => 3 * e 2 ^ 2 := by
    funext e
    unfold cubeStress
    rw [partial_pow]; simp
  have hd : ∀ e : Voigt, partialD (fun e : Voigt => 3 * e 2 ^ 2) 2 e = 6 * e 2 := by
    intro e
    have h0 : DifferentiableAt ℝ (fun e : Voigt => e 2 ^ 2) e := by fun_prop
    have h1 : partialD (fun e : Voigt => 3 * e 2 ^ 2) 2 e = 3 * partialD (fun e => e 2 ^ 2) 2 e := by
      unfold partialD
      rw [fderiv_const_mul h0]; simp
    rw [h1, partial_pow]
    simp; ring
  refine ⟨cubeTangent, cubeStress, ![![4, 1], ![1, 4]], cube_contDiff, cube_tangent, cube_symm,
    ?_, ?_, ?_⟩
  · funext a b
    rcases fin2_cases a with rfl | rfl <;> rcases fin2_cases b with rfl | rfl <;>
      simp [metricOfStrain] <;> norm_num
  · have : (fun e => cubeTangent (metricOfStrain e) 2 2) = fun e : Voigt => 3 * e 2 ^ 2 := by
      rw [← h22]; funext e; exact cube_tangent e 2 2
    rw [this, hd]; simp
  · rw [C120_numerical cubeTangent _ _ hK fun a b =>
      ((hfd a b).differentiable (by norm_num)).differentiableAt]
    rw [h22, hd]; simp; norm_num

end Verif.DMatrix
