import Verif.Model.AtTensor
import Verif.Spec.AtTensor
import Verif.Lemmas.PlanarSystem
import Verif.Lemmas.Shortcut
import Verif.Props.Geometry
import Mathlib.Topology.Order.Lattice

/-! # Helper lemmas: members from a tensor, closeness of nearby tensors -/

namespace Verif.AtTensor

open Verif.Geometry Verif.Hyper Spec.AtTensor Filter Topology

@[simp] theorem tensor_00 (c : Voigt) : tensor c 0 0 = c 0 := by simp [tensor]
@[simp] theorem tensor_11 (c : Voigt) : tensor c 1 1 = c 1 := by simp [tensor]
@[simp] theorem tensor_01 (c : Voigt) : tensor c 0 1 = c 2 := by simp [tensor]
@[simp] theorem tensor_10 (c : Voigt) : tensor c 1 0 = c 2 := by simp [tensor]

theorem det_tensor (c : Voigt) : det2 (tensor c) = c 0 * c 1 - c 2 ^ 2 := by
  simp [det2]; ring

theorem Gblock_symm' (s : Surf) (z : ℝ) : Gblock s z 0 1 = Gblock s z 1 0 := by
  simp only [Gblock, Acov_symm s 0 1, V3.dot_comm (ncov s 0) (ncov s 1)]
  rfl

theorem tensor_deformation (s : Surf) (h : Indep (s.a 0) (s.a 1)) (z : ℝ) :
    tensor (deformation s z) = Gblock s z := by
  have hg : ∀ i j : Fin 2, Gblock s z i j = V3.dot (s.a i + z • ncov s i) (s.a j + z • ncov s j) := by
    intro i j
    have := C14_gram s h z (i.castSucc) (j.castSucc)
    rcases fin2_cases i with rfl | rfl <;> rcases fin2_cases j with rfl | rfl <;>
      simpa [Gcov, embed, gcov] using this
  funext i j
  rcases fin2_cases i with rfl | rfl <;> rcases fin2_cases j with rfl | rfl <;>
    simp [deformation, hg]
  exact V3.dot_comm _ _

theorem metricC_deformation (ori defo : Surf) (h : Indep (defo.a 0) (defo.a 1)) (z : ℝ) :
    metricC ori z (deformation defo z) = metric ori defo z := by
  unfold metricC metric
  rw [tensor_deformation defo h z]
  have hd : det3 (Gcov defo z) = det2 (Gblock defo z) := det3_embed _
  by_cases h0 : det2 (Gblock defo z) = 0
  · rw [if_pos h0, if_pos (hd.trans h0)]
  · have h1 : det3 (Gcov defo z) ≠ 0 := by rw [hd]; exact h0
    have h2 : Gcon defo z = embed (inv2 (Gblock defo z)) := Planar.inv3_embed _ h0
    rw [if_neg h0, if_neg h1, h2]
    rfl

theorem metricC_ok (ori : Surf) (z : ℝ) (c : Voigt) (ho : det2 (Gblock ori z) ≠ 0)
    (hc : det2 (tensor c) ≠ 0) :
    metricC ori z c = if 0 ≤ det2 (tensor c) / det2 (Gblock ori z)
      then .ok (data (Gblock ori z) (tensor c)) else .throws := by
  have hd : det3 (Gcov ori z) = det2 (Gblock ori z) := det3_embed _
  have h1 : det3 (Gcov ori z) ≠ 0 := by rw [hd]; exact ho
  unfold metricC
  rw [if_neg hc, if_neg h1, areaRatioSq, if_neg (fun h => h1 h.1), if_neg h1, hd, det3_embed]
  by_cases hr : 0 ≤ det2 (tensor c) / det2 (Gblock ori z)
  · rw [if_pos hr, if_pos hr]
    simp only [Outcome.map, data, Gcon, Gcov, Planar.inv3_embed _ ho]
  · rw [if_neg hr, if_neg hr]; rfl

theorem metricC_pos (ori : Surf) (z : ℝ) (c : Voigt) (ho : 0 < det2 (Gblock ori z))
    (hc : 0 < det2 (tensor c)) : metricC ori z c = .ok (data (Gblock ori z) (tensor c)) := by
  rw [metricC_ok ori z c ho.ne' hc.ne', if_pos (div_pos hc ho).le]

theorem maxAbs_continuous {f : ℝ → T3} {t : ℝ} (h : ∀ i j, ContinuousAt (fun s => f s i j) t) :
    ContinuousAt (fun s => Shortcut.maxAbs (f s)) t :=
  ContinuousAt.finset_sup'_apply _ fun q _ => (h q.1 q.2).abs

theorem not_close_near {f : ℝ → T3} {M : T3} {t tol : ℝ} (h : ∀ i j, ContinuousAt (fun s => f s i j) t)
    (hn : ¬ Shortcut.allClose M (f t) tol) : ∀ᶠ s in 𝓝 t, ¬ Shortcut.allClose M (f s) tol := by
  have h1 : ContinuousAt (fun s => Shortcut.maxAbs fun i j => M i j - f s i j) t :=
    maxAbs_continuous fun i j => continuousAt_const.sub (h i j)
  have h2 : ContinuousAt (fun s => tol * max (Shortcut.maxAbs M) (Shortcut.maxAbs (f s))) t :=
    (continuousAt_const.max (maxAbs_continuous h)).const_mul tol
  have hn' := not_le.1 hn
  filter_upwards [h2.eventually_lt h1 hn'] with s hs
  exact not_le.2 hs

section line
variable (c e : Voigt)

theorem tensor_line (τ : ℝ) (i j : Fin 2) :
    tensor (fun k => c k + τ * rate e k) i j = tensor c i j + τ * tensor (rate e) i j := by
  rcases fin2_cases i with rfl | rfl <;> rcases fin2_cases j with rfl | rfl <;> simp

theorem tensor_curve : Spec.Hyper.Curve (fun τ => tensor (fun k => c k + τ * rate e k)) (tensor (rate e)) 0 where
  deriv i j := by
    simp only [tensor_line]
    simpa using ((hasDerivAt_id' (0 : ℝ)).mul_const (tensor (rate e) i j)).const_add (tensor c i j)
  symm := by simp
  symmH := by simp

theorem half_tensor : Spec.ShellTangent.half (tensor (rate e)) = e := by
  funext k
  rcases fin3_cases k with rfl | rfl | rfl <;> simp [Spec.ShellTangent.half, rate]

theorem det_line (hc : 0 < det2 (tensor c)) :
    ∀ᶠ τ in 𝓝 (0 : ℝ), 0 < det2 (tensor (fun k => c k + τ * rate e k)) := by
  have h : ContinuousAt (fun τ => det2 (tensor (fun k => c k + τ * rate e k))) 0 := by
    simp only [det_tensor]; fun_prop
  exact h.eventually (lt_mem_nhds (by simpa using hc))

theorem inv_line (hc : 0 < det2 (tensor c)) (i j : Fin 3) :
    ContinuousAt (fun τ => embed (inv2 (tensor (fun k => c k + τ * rate e k))) i j) 0 := by
  have hd : det2 (tensor (fun k => c k + (0 : ℝ) * rate e k)) ≠ 0 := by simpa using hc.ne'
  have g := fun a b => (hasDerivAt_inv2 (tensor_curve c e).deriv hd a b).continuousAt
  rcases fin3_cases i with rfl | rfl | rfl <;> rcases fin3_cases j with rfl | rfl | rfl
  · exact g 0 0
  · exact g 0 1
  · exact continuousAt_const
  · exact g 1 0
  · exact g 1 1
  · exact continuousAt_const
  · exact continuousAt_const
  · exact continuousAt_const
  · exact continuousAt_const

theorem close_near (A : T2) (hc : 0 < det2 (tensor c)) (hA : inv2 A = inv2 (tensor c)) :
    ∀ᶠ τ in 𝓝 (0 : ℝ), Shortcut.allClose (embed (inv2 A))
      (embed (inv2 (tensor (fun k => c k + τ * rate e k)))) (1 / 10 ^ 12) := by
  have hp : (0 : ℝ) < 1 / 10 ^ 12 := by positivity
  have h : ∀ a b : Fin 2, ∀ᶠ τ in 𝓝 (0 : ℝ),
      |inv2 A a b - inv2 (tensor (fun k => c k + τ * rate e k)) a b| ≤ 1 / 10 ^ 12 := by
    intro a b
    have hd : det2 (tensor (fun k => c k + (0 : ℝ) * rate e k)) ≠ 0 := by simpa using hc.ne'
    have g := (hasDerivAt_inv2 (tensor_curve c e).deriv hd a b).continuousAt
    have g2 : ContinuousAt (fun τ => |inv2 A a b - inv2 (tensor (fun k => c k + τ * rate e k)) a b|) 0 :=
      (continuousAt_const.sub g).abs
    have g3 : |inv2 A a b - inv2 (tensor (fun k => c k + (0 : ℝ) * rate e k)) a b| < 1 / 10 ^ 12 := by
      simp only [zero_mul, add_zero, hA, sub_self, abs_zero]; exact hp
    exact (g2.eventually (gt_mem_nhds g3)).mono fun _ h => le_of_lt h
  filter_upwards [h 0 0, h 0 1, h 1 0, h 1 1] with τ h0 h1 h2 h3
  apply Shortcut.allClose_of
  intro a b
  rcases fin2_cases a with rfl | rfl <;> rcases fin2_cases b with rfl | rfl <;> assumption

end line

theorem evalStress_far (T : Data → Fin 3 → Fin 3 → Fin 3 → Fin 3 → ℝ) {S : Data → Fin 3 → Fin 3 → ℝ} {D : Data}
    (h : ¬ Shortcut.allClose D.Gori D.gcon (1 / 10 ^ 12)) :
    stressOf (.inc S T) D = .ok (ShellTangent.stressV (S D)) := by
  simp only [stressOf, Shortcut.evalStress, if_neg h, up_zero, up_one, ShellTangent.stressV]

theorem evalStress_near (T : Data → Fin 3 → Fin 3 → Fin 3 → Fin 3 → ℝ) {S : Data → Fin 3 → Fin 3 → ℝ} {D : Data}
    (h : Shortcut.allClose D.Gori D.gcon (1 / 10 ^ 12)) :
    stressOf (.inc S T) D = .ok (vec3 0 0 0) := by
  simp only [stressOf, Shortcut.evalStress, if_pos h]

theorem det_deformation {s : Surf} {z : ℝ} (h : Indep (s.a 0) (s.a 1)) (hm : IsMetric (deformation s z)) :
    0 < det2 (Gblock s z) := by
  rw [← tensor_deformation s h z, det_tensor]
  linarith [hm.2.2]

/-- The tangent belongs to the stress wherever the stress is not cut to zero. -/
theorem derivative_of {M : Planar.Material} {ψ : T2 → T2 → ℝ} {ori : Surf} {z : ℝ} {c : Voigt}
    (hE : PlanarSystem.Elastic M ψ (Gblock ori z)) (ho : 0 < det2 (Gblock ori z)) (hc : IsMetric c)
    (hn : stressC (.inc M.stress M.tangent) ori z c ≠ .ok (vec3 0 0 0)) (e : Voigt) :
    ∃ (S : ℝ → Voigt) (C : T3), matrixC (.inc M.stress M.tangent) ori z c = .ok C ∧
      (∀ᶠ τ in 𝓝 (0 : ℝ), stressC (.inc M.stress M.tangent) ori z (fun k => c k + τ * rate e k) = .ok (S τ)) ∧
      ∀ k, HasDerivAt (fun τ => S τ k) (∑ j, C k j * e j) 0 := by
  have hd : 0 < det2 (tensor c) := by rw [det_tensor]; linarith [hc.2.2]
  have hm := metricC_pos ori z c ho hd
  have hfar : ¬ Shortcut.allClose (data (Gblock ori z) (tensor c)).Gori (data (Gblock ori z) (tensor c)).gcon
      (1 / 10 ^ 12) := by
    intro h
    apply hn
    rw [stressC, hm]
    exact evalStress_near M.tangent h
  refine ⟨fun τ => ShellTangent.stressV (M.stress (data (Gblock ori z) (tensor fun k => c k + τ * rate e k))),
    fillMatrix (M.tangent (data (Gblock ori z) (tensor c))), ?_, ?_, fun k => ?_⟩
  · rw [matrixC, hm]; rfl
  · have hf := not_close_near (M := embed (inv2 (Gblock ori z))) (inv_line c e hd)
      (tol := 1 / 10 ^ 12) (by simp only [zero_mul, add_zero]; exact hfar)
    filter_upwards [hf, det_line c e hd] with τ h1 h2
    rw [stressC, metricC_pos ori z _ ho h2]
    exact evalStress_far M.tangent h1
  · have hs : tensor c 0 1 = tensor c 1 0 := by simp
    have := ShellTangent.stress_deriv (fun G => M.stress (data (Gblock ori z) G)) _
      (hE.symm _ hs hd.ne') _ _ (tensor_curve c e)
      (by simp only [zero_mul, add_zero]; exact hE.tangent _ hs hd.ne') k
    rwa [half_tensor] at this

/-! ## The cylinder -/

theorem cylinder_normal : normal cylinder = ⟨0, 0, 1⟩ := by
  have e : V3.cross (cylinder.a 0) (cylinder.a 1) = ⟨0, 0, 1⟩ := by ext <;> simp [cylinder, V3.cross]
  rw [normal, e]
  ext <;> simp [V3.normalized, V3.norm, V3.dot]

theorem cylinder_Acov : Acov cylinder = ![![1, 0], ![0, 1]] := by
  funext i j
  rcases fin2_cases i with rfl | rfl <;> rcases fin2_cases j with rfl | rfl <;> simp [Acov, cylinder, V3.dot]

theorem cylinder_Acon : Acon cylinder = ![![1, 0], ![0, 1]] := by
  rw [Acon, cylinder_Acov]
  funext i j
  rcases fin2_cases i with rfl | rfl <;> rcases fin2_cases j with rfl | rfl <;> simp [inv2, det2]

theorem cylinder_B : Bcov cylinder = ![![1, 0], ![0, 0]] := by
  rw [Bcov, cylinder_normal]
  simp [cylinder, V3.dot]

theorem cylinder_deformation (z : ℝ) : deformation cylinder z = vec3 ((1 - z) ^ 2) 1 0 := by
  have n0 : ncov cylinder 0 = ⟨-1, 0, 0⟩ := by
    rw [ncov, mixedB, mixedB, cylinder_Acon, cylinder_B]
    ext <;> simp [cylinder]
  have n1 : ncov cylinder 1 = ⟨0, 0, 0⟩ := by
    rw [ncov, mixedB, mixedB, cylinder_Acon, cylinder_B]
    ext <;> simp [cylinder]
  funext k
  rcases fin3_cases k with rfl | rfl | rfl <;> simp [deformation, n0, n1, V3.dot] <;> (simp [cylinder]; try ring)

theorem cylinder_indep : Indep (cylinder.a 0) (cylinder.a 1) := by
  intro a b h
  have hx := congrArg V3.x h
  have hy := congrArg V3.y h
  simp [cylinder] at hx hy
  exact ⟨hx, hy⟩

theorem cylinder_metric : IsMetric (deformation cylinder (1 / 2)) := by
  rw [cylinder_deformation]
  simp [IsMetric]; norm_num

/-- Two metrics whose inverses differ. -/
theorem far_example {G : T2} (hG : G = tensor (vec3 (1 / 4) 1 0)) :
    ¬ Shortcut.allClose (data G (tensor (vec3 2 1 (1 / 2)))).Gori (data G (tensor (vec3 2 1 (1 / 2)))).gcon (1 / 10 ^ 12) := by
  subst hG
  intro hc
  have h1 := Shortcut.le_maxAbs (fun i j => (data (tensor (vec3 (1 / 4) 1 0)) (tensor (vec3 2 1 (1 / 2)))).Gori i j
    - (data (tensor (vec3 (1 / 4) 1 0)) (tensor (vec3 2 1 (1 / 2)))).gcon i j) 0 0
  have b1 : Shortcut.maxAbs (data (tensor (vec3 (1 / 4) 1 0)) (tensor (vec3 2 1 (1 / 2)))).Gori ≤ 4 := by
    refine Shortcut.maxAbs_le _ _ fun i j => ?_
    rcases fin3_cases i with rfl | rfl | rfl <;> rcases fin3_cases j with rfl | rfl | rfl <;>
      simp [data, embed, inv2, det2, mk3]
  have b2 : Shortcut.maxAbs (data (tensor (vec3 (1 / 4) 1 0)) (tensor (vec3 2 1 (1 / 2)))).gcon ≤ 4 := by
    refine Shortcut.maxAbs_le _ _ fun i j => ?_
    rcases fin3_cases i with rfl | rfl | rfl <;> rcases fin3_cases j with rfl | rfl | rfl <;>
      simp [data, embed, inv2, det2, mk3] <;> norm_num [abs_div]
  have h2 := le_trans h1 hc
  have h3 : (3 : ℝ) ≤ |(data (tensor (vec3 (1 / 4) 1 0)) (tensor (vec3 2 1 (1 / 2)))).Gori 0 0
    - (data (tensor (vec3 (1 / 4) 1 0)) (tensor (vec3 2 1 (1 / 2)))).gcon 0 0| := by
    refine le_trans ?_ (le_abs_self _)
    simp [data, embed, inv2, det2]; norm_num
  have h4 := max_le b1 b2
  have h5 : (1 : ℝ) / 10 ^ 12 * max (Shortcut.maxAbs (data (tensor (vec3 (1 / 4) 1 0)) (tensor (vec3 2 1 (1 / 2)))).Gori)
      (Shortcut.maxAbs (data (tensor (vec3 (1 / 4) 1 0)) (tensor (vec3 2 1 (1 / 2)))).gcon) ≤ 1 / 10 ^ 12 * 4 :=
    mul_le_mul_of_nonneg_left h4 (by positivity)
  have h6 := le_trans h3 (le_trans h2 h5)
  norm_num at h6

end Verif.AtTensor
