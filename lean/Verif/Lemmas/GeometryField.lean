import Verif.Spec.GeometryField
import Verif.Lemmas.Geometry
import Verif.Lemmas.Variation

/-! # Lemmas: derivatives of the unit normal field -/

namespace Verif.Geometry

open V3 Verif.Variation

/-- A vector orthogonal to two independent tangents and their unit normal is zero. -/
theorem eq_of_dots (s : Surf) (h : Indep (s.a 0) (s.a 1)) (u v : V3)
    (h0 : dot u (s.a 0) = dot v (s.a 0)) (h1 : dot u (s.a 1) = dot v (s.a 1))
    (h2 : dot u (normal s) = dot v (normal s)) : u = v := by
  have hc := h.cross_ne
  have hd := det_Acov_pos s hc
  -- the difference `w` is orthogonal to both tangents and their cross product
  have hw : ∀ w : V3, dot w (s.a 0) = 0 → dot w (s.a 1) = 0 → dot w (normal s) = 0 → dot w w = 0 := by
    intro w g0 g1 g2
    have g3 : dot w (cross (s.a 0) (s.a 1)) = 0 := by
      have hn : V3.norm (cross (s.a 0) (s.a 1)) ≠ 0 := (V3.norm_pos hc).ne'
      unfold normal normalized at g2
      rw [dot_smul_right] at g2
      rcases mul_eq_zero.1 g2 with g | g
      · exact absurd g (by simpa using hn)
      · exact g
    -- Cramer: `det² w` is a combination of the three products
    have key : dot (cross (s.a 0) (s.a 1)) (cross (s.a 0) (s.a 1)) * dot w w
        = dot w (cross (s.a 0) (s.a 1)) ^ 2
          + dot (s.a 1) (s.a 1) * dot w (s.a 0) ^ 2
          - 2 * dot (s.a 0) (s.a 1) * dot w (s.a 0) * dot w (s.a 1)
          + dot (s.a 0) (s.a 0) * dot w (s.a 1) ^ 2 := by
      simp only [dot, cross]; ring
    rw [g0, g1, g3] at key
    have hne : dot (cross (s.a 0) (s.a 1)) (cross (s.a 0) (s.a 1)) ≠ 0 := by
      intro e; exact hc ((dot_self_eq_zero _).1 e)
    have : dot (cross (s.a 0) (s.a 1)) (cross (s.a 0) (s.a 1)) * dot w w = 0 := by rw [key]; ring
    exact (mul_eq_zero.1 this).resolve_left hne
  have := hw (u - v) (by rw [dot_sub_left, h0, sub_self]) (by rw [dot_sub_left, h1, sub_self])
    (by rw [dot_sub_left, h2, sub_self])
  have h0 := (dot_self_eq_zero _).1 this
  ext
  · have := congrArg V3.x h0; simp at this; linarith
  · have := congrArg V3.y h0; simp at this; linarith
  · have := congrArg V3.z h0; simp at this; linarith

/-- Derivative of the unit normal of two moving tangents. -/
theorem normal_moves (s : Surf) (h : Indep (s.a 0) (s.a 1)) (i : Fin 2) (p q : ℝ → V3)
    (p' q' : V3) (hp0 : p 0 = s.a 0) (hq0 : q 0 = s.a 1) (hp : HasVDeriv p p' 0)
    (hq : HasVDeriv q q' 0) (e0 : dot p' (normal s) = Bcov s i 0)
    (e1 : dot q' (normal s) = Bcov s i 1) :
    HasVDeriv (fun t => unitNormal (p t) (q t)) (ncov s i) 0 := by
  have hc := h.cross_ne
  have hN := (hp.cross hq).normalized (by rw [hp0, hq0]; exact hc)
  obtain ⟨w, hw⟩ : ∃ w, HasVDeriv (fun t => V3.normalized (V3.cross (p t) (q t))) w 0 := ⟨_, hN⟩
  have hn0 : V3.normalized (V3.cross (p 0) (q 0)) = normal s := by rw [hp0, hq0]; rfl
  have hev : ∀ᶠ t in nhds (0 : ℝ), V3.cross (p t) (q t) ≠ 0 := by
    have hcr := hp.cross hq
    have hct : Filter.Tendsto (fun t => dot (V3.cross (p t) (q t)) (V3.cross (p t) (q t))) (nhds 0)
        (nhds (dot (V3.cross (p 0) (q 0)) (V3.cross (p 0) (q 0)))) :=
      (hcr.dot hcr).continuousAt
    have hne : dot (V3.cross (p 0) (q 0)) (V3.cross (p 0) (q 0)) ≠ 0 := by
      rw [hp0, hq0]; intro e; exact hc ((dot_self_eq_zero _).1 e)
    filter_upwards [hct.eventually_ne hne] with t ht e
    rw [e] at ht; simp [dot] at ht
  have k2 : dot w (normal s) = 0 := by
    have hd := hw.dot hw
    have hone : (fun t => dot (V3.normalized (V3.cross (p t) (q t)))
        (V3.normalized (V3.cross (p t) (q t)))) =ᶠ[nhds 0] fun _ => (1 : ℝ) := by
      filter_upwards [hev] with t ht using normalized_unit ht
    have := hd.unique ((hasDerivAt_const (0 : ℝ) (1 : ℝ)).congr_of_eventuallyEq hone)
    rw [hn0, dot_comm (normal s)] at this
    linarith
  have k0 : dot w (s.a 0) = -Bcov s i 0 := by
    have hd := hw.dot hp
    have hz : (fun t => dot (V3.normalized (V3.cross (p t) (q t))) (p t)) = fun _ => (0 : ℝ) := by
      funext t; unfold V3.normalized; rw [dot_smul_left, dot_comm, dot_cross_left, mul_zero]
    rw [hz] at hd
    have := hd.unique (hasDerivAt_const (0 : ℝ) (0 : ℝ))
    rw [hn0, hp0, dot_comm (normal s), e0] at this
    linarith
  have k1 : dot w (s.a 1) = -Bcov s i 1 := by
    have hd := hw.dot hq
    have hz : (fun t => dot (V3.normalized (V3.cross (p t) (q t))) (q t)) = fun _ => (0 : ℝ) := by
      funext t; unfold V3.normalized; rw [dot_smul_left, dot_comm, dot_cross_right, mul_zero]
    rw [hz] at hd
    have := hd.unique (hasDerivAt_const (0 : ℝ) (0 : ℝ))
    rw [hn0, hq0, dot_comm (normal s), e1] at this
    linarith
  have hwn : w = ncov s i := eq_of_dots s h _ _ (by rw [k0, ncov_dot_a s hc])
    (by rw [k1, ncov_dot_a s hc]) (by rw [k2, ncov_dot_normal])
  rw [← hwn]
  refine hw.congr (fun t => ?_) rfl
  simp [unitNormal, V3.normalized, V3.norm]

end Verif.Geometry
