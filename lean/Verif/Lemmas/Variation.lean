import Verif.Spec.Variation
import Verif.Lemmas.Tensor
import Verif.Lemmas.Geometry
import Mathlib.Analysis.Calculus.Deriv.Add
import Mathlib.Analysis.Calculus.Deriv.Mul
import Mathlib.Analysis.Calculus.Deriv.Inv
import Mathlib.Analysis.SpecialFunctions.Sqrt

/-! # Calculus of vector-valued functions of one variable -/

namespace Verif.Variation

open V3 Verif.Geometry

variable {f g : ℝ → V3} {f' g' : V3} {t : ℝ}

theorem HasVDeriv.congr (h : HasVDeriv f f' t) (e : ∀ s, g s = f s) (e' : f' = g') :
    HasVDeriv g g' t := by
  have : g = f := funext e
  rw [this, ← e']; exact h

theorem HasVDeriv.add (hf : HasVDeriv f f' t) (hg : HasVDeriv g g' t) :
    HasVDeriv (fun s => f s + g s) (f' + g') t :=
  ⟨hf.1.add hg.1, hf.2.1.add hg.2.1, hf.2.2.add hg.2.2⟩

theorem HasVDeriv.sub (hf : HasVDeriv f f' t) (hg : HasVDeriv g g' t) :
    HasVDeriv (fun s => f s - g s) (f' - g') t :=
  ⟨hf.1.sub hg.1, hf.2.1.sub hg.2.1, hf.2.2.sub hg.2.2⟩

theorem HasVDeriv.smul {c : ℝ → ℝ} {c' : ℝ} (hc : HasDerivAt c c' t) (hf : HasVDeriv f f' t) :
    HasVDeriv (fun s => c s • f s) (c' • f t + c t • f') t :=
  ⟨hc.mul hf.1, hc.mul hf.2.1, hc.mul hf.2.2⟩

theorem HasVDeriv.const (w : V3) (t : ℝ) : HasVDeriv (fun _ => w) 0 t :=
  ⟨hasDerivAt_const _ _, hasDerivAt_const _ _, hasDerivAt_const _ _⟩

theorem HasVDeriv.line (a w : V3) (t : ℝ) : HasVDeriv (fun s => a + s • w) w t := by
  refine ⟨?_, ?_, ?_⟩
  · simpa using ((hasDerivAt_id' t).mul_const w.x).const_add a.x
  · simpa using ((hasDerivAt_id' t).mul_const w.y).const_add a.y
  · simpa using ((hasDerivAt_id' t).mul_const w.z).const_add a.z

theorem HasVDeriv.dot (hf : HasVDeriv f f' t) (hg : HasVDeriv g g' t) :
    HasDerivAt (fun s => V3.dot (f s) (g s)) (V3.dot f' (g t) + V3.dot (f t) g') t := by
  have h := ((hf.1.mul hg.1).add (hf.2.1.mul hg.2.1)).add (hf.2.2.mul hg.2.2)
  refine h.congr_deriv ?_
  simp only [V3.dot]; ring

theorem HasVDeriv.cross (hf : HasVDeriv f f' t) (hg : HasVDeriv g g' t) :
    HasVDeriv (fun s => V3.cross (f s) (g s)) (V3.cross f' (g t) + V3.cross (f t) g') t := by
  refine ⟨?_, ?_, ?_⟩
  · refine ((hf.2.1.mul hg.2.2).sub (hf.2.2.mul hg.2.1)).congr_deriv ?_
    simp [V3.cross]; ring
  · refine ((hf.2.2.mul hg.1).sub (hf.1.mul hg.2.2)).congr_deriv ?_
    simp [V3.cross]; ring
  · refine ((hf.1.mul hg.2.1).sub (hf.2.1.mul hg.1)).congr_deriv ?_
    simp [V3.cross]; ring

theorem HasVDeriv.norm (hf : HasVDeriv f f' t) (h0 : f t ≠ 0) :
    HasDerivAt (fun s => V3.norm (f s)) (V3.dot f' (normalized (f t))) t := by
  have h := (hf.dot hf).sqrt (dot_self_pos h0).ne'
  refine h.congr_deriv ?_
  unfold normalized
  rw [dot_smul_right, dot_comm (f t) f']
  have : Real.sqrt (V3.dot (f t) (f t)) = V3.norm (f t) := rfl
  rw [this]
  have := (norm_pos h0).ne'
  field_simp; ring

theorem HasVDeriv.normalized (hf : HasVDeriv f f' t) (h0 : f t ≠ 0) :
    HasVDeriv (fun s => V3.normalized (f s))
      ((1 / V3.norm (f t)) • (f' - V3.dot f' (V3.normalized (f t)) • V3.normalized (f t))) t := by
  have hn := (norm_pos h0).ne'
  have h := HasVDeriv.smul (((hf.norm h0).inv hn)) hf
  refine h.congr (fun s => ?_) ?_
  · simp [V3.normalized]
  · generalize hd : V3.dot f' (V3.normalized (f t)) = d
    unfold V3.normalized
    ext <;> simp <;> field_simp <;> ring

theorem HasVDeriv.dot_const (hf : HasVDeriv f f' t) (w : V3) :
    HasDerivAt (fun s => V3.dot (f s) w) (V3.dot f' w) t := by
  refine (hf.dot (HasVDeriv.const w t)).congr_deriv ?_
  simp [V3.dot]

theorem HasVDeriv.const_dot (hf : HasVDeriv f f' t) (w : V3) :
    HasDerivAt (fun s => V3.dot w (f s)) (V3.dot w f') t := by
  refine ((HasVDeriv.const w t).dot hf).congr_deriv ?_
  simp [V3.dot]

/-! ## Curves of surfaces -/

@[simp] theorem shift_a (s v : Surf) (t : ℝ) (i : Fin 2) : (shift s v t).a i = s.a i + t • v.a i := rfl

@[simp] theorem shift_zero_a (s v : Surf) (i : Fin 2) : (shift s v 0).a i = s.a i := by
  ext <;> simp

theorem shift_zero (s v : Surf) : shift s v 0 = s := by
  unfold shift
  cases s with
  | mk a d11 d22 d12 =>
    congr 1
    · funext i; ext <;> simp
    · ext <;> simp
    · ext <;> simp
    · ext <;> simp

theorem hasVDeriv_cross (s v : Surf) :
    HasVDeriv (fun t => V3.cross ((shift s v t).a 0) ((shift s v t).a 1))
      (V3.cross (v.a 0) (s.a 1) - V3.cross (v.a 1) (s.a 0)) 0 := by
  have h := (HasVDeriv.line (s.a 0) (v.a 0) 0).cross (HasVDeriv.line (s.a 1) (v.a 1) 0)
  refine h.congr (fun t => rfl) ?_
  ext <;> simp [V3.cross] <;> ring

theorem measure_ne (s : Surf) (h : Indep (s.a 0) (s.a 1)) : measure s ≠ 0 :=
  (norm_pos h.cross_ne).ne'

theorem hasDerivAt_measure (s v : Surf) (h : Indep (s.a 0) (s.a 1)) :
    HasDerivAt (fun t => measure (shift s v t)) (measure s * dot (normal s) (mvec s v)) 0 := by
  have hc := hasVDeriv_cross s v
  have h0 : V3.cross ((shift s v 0).a 0) ((shift s v 0).a 1) ≠ 0 := by
    rw [shift_zero]; exact h.cross_ne
  refine (hc.norm h0).congr_deriv ?_
  rw [shift_zero]
  have hm := measure_ne s h
  unfold mvec
  rw [dot_smul_right, dot_comm]
  unfold normal
  field_simp

theorem hasVDeriv_normal (s v : Surf) (h : Indep (s.a 0) (s.a 1)) :
    HasVDeriv (fun t => normal (shift s v t)) (var1 s v) 0 := by
  have hc := hasVDeriv_cross s v
  have h0 : V3.cross ((shift s v 0).a 0) ((shift s v 0).a 1) ≠ 0 := by
    rw [shift_zero]; exact h.cross_ne
  refine (hc.normalized h0).congr (fun t => rfl) ?_
  rw [shift_zero]
  unfold var1 mvec
  rw [dot_smul_left]
  unfold normal measure
  generalize V3.dot (V3.cross (v.a 0) (s.a 1) - V3.cross (v.a 1) (s.a 0))
    (V3.normalized (V3.cross (s.a 0) (s.a 1))) = d
  ext <;> simp <;> ring

theorem hasVDeriv_mvec (s u v : Surf) (h : Indep (s.a 0) (s.a 1)) :
    HasVDeriv (fun t => mvec (shift s v t) u)
      (muv s u v - dot (normal s) (mvec s v) • mvec s u) 0 := by
  have hm := measure_ne s h
  have hm0 : measure (shift s v 0) ≠ 0 := by rw [shift_zero]; exact hm
  have h1 := (HasVDeriv.const (u.a 0) 0).cross (HasVDeriv.line (s.a 1) (v.a 1) 0)
  have h2 := (HasVDeriv.const (u.a 1) 0).cross (HasVDeriv.line (s.a 0) (v.a 0) 0)
  have h3 := HasVDeriv.smul ((hasDerivAt_measure s v h).inv hm0) (h1.sub h2)
  refine h3.congr (fun t => ?_) ?_
  · unfold mvec; simp [shift]
  · simp only [Pi.inv_apply, shift_zero]
    generalize dot (normal s) (mvec s v) = d
    unfold muv mvec
    ext <;> simp [V3.cross] <;> field_simp <;> ring

theorem hasVDeriv_var1 (s u v : Surf) (h : Indep (s.a 0) (s.a 1)) :
    HasVDeriv (fun t => var1 (shift s v t) u) (var2 s u v) 0 := by
  have hm := hasVDeriv_mvec s u v h
  have hn := hasVDeriv_normal s v h
  have hd := hm.dot hn
  have := hm.sub (HasVDeriv.smul hd hn)
  refine this.congr (fun t => rfl) ?_
  rw [shift_zero]
  unfold var2 var2From
  simp only
  rw [dot_comm (mvec s u) (normal s),
    dot_comm (muv s u v - dot (normal s) (mvec s v) • mvec s u) (normal s)]
  ext <;> simp <;> ring

end Verif.Variation
