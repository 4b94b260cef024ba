import Verif.Props.Geometry
import Verif.Lemmas.GeometryField

/-!
# The shell body

C14: the bases and metrics at a height are those of the body "mid-surface plus height times unit
normal".  C16: the Voigt strain measures the change of length.
-/

namespace Verif.Geometry

open V3 Verif.Variation

/-- **C14** The covariant basis at height `z` is the tangent basis of the body `r + z n`: its
derivatives in the two parameters and in the height, for the actual unit normal field `n`. -/
theorem C14_body (r a1 a2 : ℝ → ℝ → V3) (s : Surf) (m : IsMidSurface r a1 a2 s)
    (h : Indep (s.a 0) (s.a 1)) (z : ℝ) :
    HasVDeriv (fun x => r x 0 + z • unitNormal (a1 x 0) (a2 x 0)) (gcov s z 0) 0 ∧
    HasVDeriv (fun y => r 0 y + z • unitNormal (a1 0 y) (a2 0 y)) (gcov s z 1) 0 ∧
    HasVDeriv (fun t => r 0 0 + t • unitNormal (a1 0 0) (a2 0 0)) (gcov s z 2) z := by
  have h1 := normal_moves s h 0 (fun x => a1 x 0) (fun x => a2 x 0) _ _ m.t1 m.t2 m.a11 m.a21
    rfl rfl
  have h2 := normal_moves s h 1 (fun y => a1 0 y) (fun y => a2 0 y) _ _ m.t1 m.t2 m.a12 m.a22
    rfl rfl
  have hz : HasDerivAt (fun _ : ℝ => z) 0 0 := hasDerivAt_const _ _
  refine ⟨?_, ?_, ?_⟩
  · refine (m.r1.add (HasVDeriv.smul hz h1)).congr (fun _ => rfl) ?_
    ext <;> simp [gcov, vec3]
  · refine (m.r2.add (HasVDeriv.smul hz h2)).congr (fun _ => rfl) ?_
    ext <;> simp [gcov, vec3]
  · refine (HasVDeriv.line (r 0 0) (unitNormal (a1 0 0) (a2 0 0)) z).congr (fun _ => rfl) ?_
    rw [m.t1, m.t2]
    ext <;> simp [gcov, vec3, normal, unitNormal, V3.normalized, V3.norm]

/-- Non-vacuity: the paraboloid `(x, y, x² + y²)`. -/
example : IsMidSurface (fun x y => ⟨x, y, x ^ 2 + y ^ 2⟩) (fun x _ => ⟨1, 0, 2 * x⟩)
    (fun _ y => ⟨0, 1, 2 * y⟩) ⟨![⟨1, 0, 0⟩, ⟨0, 1, 0⟩], ⟨0, 0, 2⟩, ⟨0, 0, 2⟩, 0⟩ := by
  have hsq : HasDerivAt (fun x : ℝ => x ^ 2) 0 0 := by simpa using hasDerivAt_pow 2 (0 : ℝ)
  have hl : HasDerivAt (fun x : ℝ => 2 * x) 2 0 := by simpa using (hasDerivAt_id (0 : ℝ)).const_mul 2
  constructor
  · ext <;> simp
  · ext <;> simp
  · exact ⟨hasDerivAt_id' (0 : ℝ), by simpa using hasDerivAt_const (0 : ℝ) (0 : ℝ),
      by simpa using hsq⟩
  · exact ⟨by simpa using hasDerivAt_const (0 : ℝ) (0 : ℝ), hasDerivAt_id' (0 : ℝ),
      by simpa using hsq⟩
  · exact ⟨hasDerivAt_const _ _, hasDerivAt_const _ _, hl⟩
  · exact ⟨hasDerivAt_const _ _, hasDerivAt_const _ _, by simpa using hasDerivAt_const (0 : ℝ) (0 : ℝ)⟩
  · exact ⟨hasDerivAt_const _ _, hasDerivAt_const _ _, by simpa using hasDerivAt_const (0 : ℝ) (0 : ℝ)⟩
  · exact ⟨hasDerivAt_const _ _, hasDerivAt_const _ _, hl⟩

/-- **C16** The Voigt strain at height `z` is half the change of the squared length of every material
line element `(u, v)` at that height. -/
theorem C16_voigt (ori defo : Surf) (ho : Indep (ori.a 0) (ori.a 1))
    (hd : Indep (defo.a 0) (defo.a 1)) (z u v : ℝ) :
    strainVoigt ori defo z 0 * u ^ 2 + strainVoigt ori defo z 1 * v ^ 2
        + strainVoigt ori defo z 2 * (u * v)
      = 1 / 2 * (dot (u • gcov defo z 0 + v • gcov defo z 1) (u • gcov defo z 0 + v • gcov defo z 1)
        - dot (u • gcov ori z 0 + v • gcov ori z 1) (u • gcov ori z 0 + v • gcov ori z 1)) := by
  have key : ∀ s : Surf, Indep (s.a 0) (s.a 1) →
      dot (u • gcov s z 0 + v • gcov s z 1) (u • gcov s z 0 + v • gcov s z 1)
        = u ^ 2 * Gblock s z 0 0 + u * v * (Gblock s z 0 1 + Gblock s z 1 0)
          + v ^ 2 * Gblock s z 1 1 := by
    intro s h
    have e : ∀ i j : Fin 3, dot (gcov s z i) (gcov s z j) = Gcov s z i j :=
      fun i j => (C14_gram s h z i j).symm
    simp only [dot_add_left, dot_add_right, dot_smul_left, dot_smul_right, e]
    simp [Gcov, embed]; ring
  rw [key ori ho, key defo hd]
  simp [strainVoigt, strainAt]
  ring

/-- Non-vacuity: simple shear of the unit square lengthens the diagonal. -/
example : strainVoigt ⟨![⟨1, 0, 0⟩, ⟨0, 1, 0⟩], 0, 0, 0⟩ ⟨![⟨1, 0, 0⟩, ⟨1, 1, 0⟩], 0, 0, 0⟩ 0 2 = 1 := by
  simp [strainVoigt, strainAt, Gblock, Acov, dot]
  norm_num

end Verif.Geometry
