import Verif.Spec.Balloon
import Verif.Lemmas.Tensor
import Mathlib.Analysis.Calculus.LineDeriv.IntegrationByParts
import Mathlib.Analysis.Calculus.ContDiff.Operations
import Mathlib.Analysis.Calculus.FDeriv.Symmetric
import Mathlib.Analysis.Calculus.Deriv.Inv
import Mathlib.MeasureTheory.Measure.Lebesgue.EqHaar
import Mathlib.MeasureTheory.Integral.Bochner.ContinuousLinearMap

/-! # Lemmas: partial derivatives and integrals over the parameters -/

namespace Verif.Balloon

open V3 Fields Spec.Balloon MeasureTheory

/-- Direction of parameter `i`. -/
def dir (i : Fin 2) : ℝ × ℝ := if i = 0 then (1, 0) else (0, 1)

theorem pd_eq (i : Fin 2) (f : ℝ × ℝ → ℝ) (q : ℝ × ℝ) : pd i f q = fderiv ℝ f q (dir i) := rfl

theorem pd_add {i : Fin 2} {f g : ℝ × ℝ → ℝ} {q : ℝ × ℝ} (hf : DifferentiableAt ℝ f q)
    (hg : DifferentiableAt ℝ g q) : pd i (fun q => f q + g q) q = pd i f q + pd i g q := by
  rw [pd_eq, fderiv_fun_add hf hg]; rfl

theorem pd_sub {i : Fin 2} {f g : ℝ × ℝ → ℝ} {q : ℝ × ℝ} (hf : DifferentiableAt ℝ f q)
    (hg : DifferentiableAt ℝ g q) : pd i (fun q => f q - g q) q = pd i f q - pd i g q := by
  rw [pd_eq, fderiv_fun_sub hf hg]; rfl

theorem pd_mul {i : Fin 2} {f g : ℝ × ℝ → ℝ} {q : ℝ × ℝ} (hf : DifferentiableAt ℝ f q)
    (hg : DifferentiableAt ℝ g q) :
    pd i (fun q => f q * g q) q = pd i f q * g q + f q * pd i g q := by
  rw [pd_eq, fderiv_fun_mul hf hg]
  simp only [add_apply, smul_apply, smul_eq_mul, pd_eq]
  ring

theorem pd_const (i : Fin 2) (c : ℝ) (q : ℝ × ℝ) : pd i (fun _ => c) q = 0 := by
  rw [pd_eq, fderiv_fun_const]; rfl

theorem pd_congr {i : Fin 2} {f g : ℝ × ℝ → ℝ} {q : ℝ × ℝ} (h : f =ᶠ[nhds q] g) :
    pd i f q = pd i g q := by
  rw [pd_eq, pd_eq, h.fderiv_eq]

theorem pd_div {i : Fin 2} {f g : ℝ × ℝ → ℝ} {q : ℝ × ℝ} (hf : DifferentiableAt ℝ f q)
    (hg : DifferentiableAt ℝ g q) (h0 : g q ≠ 0) :
    pd i (fun q => f q / g q) q = (pd i f q * g q - f q * pd i g q) / g q ^ 2 := by
  have hd : DifferentiableAt ℝ (fun q => f q / g q) q := by
    simpa [div_eq_mul_inv] using hf.fun_mul (hg.fun_inv h0)
  have hne : ∀ᶠ x in nhds q, g x ≠ 0 := hg.continuousAt.eventually_ne h0
  have he : (fun x => f x / g x * g x) =ᶠ[nhds q] f := by
    filter_upwards [hne] with x hx
    exact div_mul_cancel₀ _ hx
  have := pd_congr (i := i) he
  rw [pd_mul hd hg] at this
  rw [← this]
  field_simp
  ring

/-! ## Vector fields -/

/-- All components are differentiable at the point. -/
def VDiffAt (X : ℝ × ℝ → V3) (q : ℝ × ℝ) : Prop :=
  DifferentiableAt ℝ (fun q => (X q).x) q ∧ DifferentiableAt ℝ (fun q => (X q).y) q ∧
    DifferentiableAt ℝ (fun q => (X q).z) q

theorem _root_.Verif.Spec.Balloon.SmoothOn.diffAt {n : ℕ} {X : ℝ × ℝ → V3} {U : Set (ℝ × ℝ)} (h : SmoothOn n X U)
    (hn : n ≠ 0) (hU : IsOpen U) {q : ℝ × ℝ} (hq : q ∈ U) : VDiffAt X q := by
  have hn' : ((n : ℕ∞) : WithTop ℕ∞) ≠ 0 := by exact_mod_cast hn
  exact ⟨(h.1.contDiffAt (hU.mem_nhds hq)).differentiableAt hn',
    (h.2.1.contDiffAt (hU.mem_nhds hq)).differentiableAt hn',
    (h.2.2.contDiffAt (hU.mem_nhds hq)).differentiableAt hn'⟩

theorem pd_smooth {n : ℕ} {f : ℝ × ℝ → ℝ} {U : Set (ℝ × ℝ)} (h : ContDiffOn ℝ (n + 1 : ℕ) f U)
    (hU : IsOpen U) (i : Fin 2) : ContDiffOn ℝ n (pd i f) U :=
  (h.fderiv_of_isOpen hU (by norm_cast)).clm_apply contDiffOn_const

theorem _root_.Verif.Spec.Balloon.SmoothOn.vpd {n : ℕ} {X : ℝ × ℝ → V3} {U : Set (ℝ × ℝ)} (h : SmoothOn (n + 1) X U)
    (hU : IsOpen U) (i : Fin 2) : SmoothOn n (vpd i X) U :=
  ⟨pd_smooth h.1 hU i, pd_smooth h.2.1 hU i, pd_smooth h.2.2 hU i⟩

theorem _root_.Verif.Spec.Balloon.SmoothOn.mono {n m : ℕ} {X : ℝ × ℝ → V3} {U V : Set (ℝ × ℝ)} (h : SmoothOn n X U)
    (hm : m ≤ n) (hV : V ⊆ U) : SmoothOn m X V :=
  have hm' : (m : WithTop ℕ∞) ≤ n := by exact_mod_cast hm
  ⟨(h.1.of_le hm').mono hV, (h.2.1.of_le hm').mono hV, (h.2.2.of_le hm').mono hV⟩

theorem _root_.Verif.Spec.Balloon.SmoothOn.dot {n : ℕ} {X Y : ℝ × ℝ → V3} {U : Set (ℝ × ℝ)} (hX : SmoothOn n X U)
    (hY : SmoothOn n Y U) : ContDiffOn ℝ n (fun q => dot (X q) (Y q)) U :=
  ((hX.1.mul hY.1).add (hX.2.1.mul hY.2.1)).add (hX.2.2.mul hY.2.2)

theorem _root_.Verif.Spec.Balloon.SmoothOn.cross {n : ℕ} {X Y : ℝ × ℝ → V3} {U : Set (ℝ × ℝ)} (hX : SmoothOn n X U)
    (hY : SmoothOn n Y U) : SmoothOn n (fun q => cross (X q) (Y q)) U :=
  ⟨(hX.2.1.mul hY.2.2).sub (hX.2.2.mul hY.2.1), (hX.2.2.mul hY.1).sub (hX.1.mul hY.2.2),
    (hX.1.mul hY.2.1).sub (hX.2.1.mul hY.1)⟩

theorem VDiffAt.dot {X Y : ℝ × ℝ → V3} {q : ℝ × ℝ} (hX : VDiffAt X q) (hY : VDiffAt Y q) :
    DifferentiableAt ℝ (fun q => dot (X q) (Y q)) q :=
  ((hX.1.mul hY.1).add (hX.2.1.mul hY.2.1)).add (hX.2.2.mul hY.2.2)

theorem VDiffAt.cross {X Y : ℝ × ℝ → V3} {q : ℝ × ℝ} (hX : VDiffAt X q) (hY : VDiffAt Y q) :
    VDiffAt (fun q => cross (X q) (Y q)) q :=
  ⟨(hX.2.1.mul hY.2.2).sub (hX.2.2.mul hY.2.1), (hX.2.2.mul hY.1).sub (hX.1.mul hY.2.2),
    (hX.1.mul hY.2.1).sub (hX.2.1.mul hY.1)⟩

theorem pd_dot {i : Fin 2} {X Y : ℝ × ℝ → V3} {q : ℝ × ℝ} (hX : VDiffAt X q) (hY : VDiffAt Y q) :
    pd i (fun q => dot (X q) (Y q)) q = dot (vpd i X q) (Y q) + dot (X q) (vpd i Y q) := by
  have e : (fun q => V3.dot (X q) (Y q))
      = fun q => ((X q).x * (Y q).x + (X q).y * (Y q).y) + (X q).z * (Y q).z := rfl
  rw [e, pd_add ((hX.1.fun_mul hY.1).fun_add (hX.2.1.fun_mul hY.2.1)) (hX.2.2.fun_mul hY.2.2),
    pd_add (hX.1.fun_mul hY.1) (hX.2.1.fun_mul hY.2.1), pd_mul hX.1 hY.1, pd_mul hX.2.1 hY.2.1,
    pd_mul hX.2.2 hY.2.2]
  simp only [V3.dot, vpd]
  ring

theorem vpd_cross {i : Fin 2} {X Y : ℝ × ℝ → V3} {q : ℝ × ℝ} (hX : VDiffAt X q)
    (hY : VDiffAt Y q) :
    vpd i (fun q => cross (X q) (Y q)) q = cross (vpd i X q) (Y q) + cross (X q) (vpd i Y q) := by
  have ex : pd i (fun q => (X q).y * (Y q).z - (X q).z * (Y q).y) q = _ :=
    pd_sub (hX.2.1.mul hY.2.2) (hX.2.2.mul hY.2.1)
  have ey : pd i (fun q => (X q).z * (Y q).x - (X q).x * (Y q).z) q = _ :=
    pd_sub (hX.2.2.mul hY.1) (hX.1.mul hY.2.2)
  have ez : pd i (fun q => (X q).x * (Y q).y - (X q).y * (Y q).x) q = _ :=
    pd_sub (hX.1.mul hY.2.1) (hX.2.1.mul hY.1)
  rw [pd_mul hX.2.1 hY.2.2, pd_mul hX.2.2 hY.2.1] at ex
  rw [pd_mul hX.2.2 hY.1, pd_mul hX.1 hY.2.2] at ey
  rw [pd_mul hX.1 hY.2.1, pd_mul hX.2.1 hY.1] at ez
  ext
  · show pd i (fun q => (X q).y * (Y q).z - (X q).z * (Y q).y) q = _
    rw [ex]; simp [V3.cross, vpd]; ring
  · show pd i (fun q => (X q).z * (Y q).x - (X q).x * (Y q).z) q = _
    rw [ey]; simp [V3.cross, vpd]; ring
  · show pd i (fun q => (X q).x * (Y q).y - (X q).y * (Y q).x) q = _
    rw [ez]; simp [V3.cross, vpd]; ring

/-- Second derivatives are symmetric. -/
theorem pd_comm {f : ℝ × ℝ → ℝ} {U : Set (ℝ × ℝ)} (h : ContDiffOn ℝ 2 f U) (hU : IsOpen U)
    {q : ℝ × ℝ} (hq : q ∈ U) : pd 0 (pd 1 f) q = pd 1 (pd 0 f) q := by
  have hc : ContDiffAt ℝ 2 f q := h.contDiffAt (hU.mem_nhds hq)
  have hs : IsSymmSndFDerivAt ℝ f q := hc.isSymmSndFDerivAt (by simp)
  have hd : DifferentiableAt ℝ (fderiv ℝ f) q :=
    (hc.fderiv_right (m := 1) (by norm_num)).differentiableAt (by norm_num)
  have key : ∀ i j, pd i (pd j f) q = fderiv ℝ (fderiv ℝ f) q (dir i) (dir j) := by
    intro i j
    have : pd j f = fun q => fderiv ℝ f q (dir j) := rfl
    rw [this, pd_eq, fderiv_clm_apply hd (differentiableAt_const _)]
    simp
  rw [key, key]
  exact hs _ _

theorem vpd_comm {X : ℝ × ℝ → V3} {U : Set (ℝ × ℝ)} (h : SmoothOn 2 X U) (hU : IsOpen U)
    {q : ℝ × ℝ} (hq : q ∈ U) : vpd 0 (vpd 1 X) q = vpd 1 (vpd 0 X) q := by
  ext
  · exact pd_comm h.1 hU hq
  · exact pd_comm h.2.1 hU hq
  · exact pd_comm h.2.2 hU hq

/-! ## Integrals -/

/-- The integral of a derivative of a function with compact support in `U` is zero. -/
theorem integral_pd {U K : Set (ℝ × ℝ)} (hU : IsOpen U) (hK : IsCompact K) (hKU : K ⊆ U)
    {F : ℝ × ℝ → ℝ} (hF : ContDiffOn ℝ 1 F U) (h0 : ∀ q, q ∉ K → F q = 0) (i : Fin 2) :
    Integrable (pd i F) ∧ ∫ q, pd i F q = 0 := by
  have hc : ContDiff ℝ 1 F := by
    rw [contDiff_iff_contDiffAt]
    intro q
    by_cases hq : q ∈ K
    · exact hF.contDiffAt (hU.mem_nhds (hKU hq))
    · have : F =ᶠ[nhds q] fun _ => 0 := by
        filter_upwards [hK.isClosed.isOpen_compl.mem_nhds hq] with x hx using h0 x hx
      exact contDiffAt_const.congr_of_eventuallyEq this
  have hs : HasCompactSupport F := HasCompactSupport.intro hK (fun q hq => h0 q hq)
  have hd : Continuous (pd i F) := (hc.continuous_fderiv (by norm_num)).clm_apply continuous_const
  have hs' : HasCompactSupport (pd i F) := hs.fderiv_apply (𝕜 := ℝ) _
  have hi : Integrable (pd i F) := hd.integrable_of_hasCompactSupport hs'
  refine ⟨hi, ?_⟩
  have : (volume : Measure (ℝ × ℝ)).IsAddHaarMeasure := by
    rw [Measure.volume_eq_prod]; infer_instance
  have hi' : Integrable fun q => fderiv ℝ F q (dir i) := hi
  show ∫ q, fderiv ℝ F q (dir i) = 0
  have := integral_mul_fderiv_eq_neg_fderiv_mul_of_integrable (𝕜 := ℝ) (f := fun _ : ℝ × ℝ => (1 : ℝ))
    (g := F) (v := dir i) (μ := volume) (by simp) (by simpa using hi')
    (by simpa using hc.continuous.integrable_of_hasCompactSupport hs)
    (fun x _ => differentiableAt_const _) (fun x _ => hc.differentiable (by norm_num) x)
  simpa using this

end Verif.Balloon
