import Verif.Lemmas.Variation

/-! # Properties C63, C64: variations of the unit normal -/

set_option linter.unusedSimpArgs false

namespace Verif.Variation

open V3 Verif.Geometry

/-- Concrete surface for the examples: the unit square, curved in the first direction. -/
def flatSquare : Surf := ⟨![⟨1, 0, 0⟩, ⟨0, 1, 0⟩], ⟨0, 1, 0⟩, 0, 0⟩

theorem flatSquare_indep : Indep (flatSquare.a 0) (flatSquare.a 1) := by
  intro c d h
  have hx := congrArg V3.x h
  have hy := congrArg V3.y h
  simp [flatSquare] at hx hy
  exact ⟨hx, hy⟩

/-! ## C63 -/

/-- **C63** `var1` is the exact derivative of the unit normal in the direction of the field, for
every regular surface and every field. -/
theorem C63_exact (s u : Surf) (h : Indep (s.a 0) (s.a 1)) :
    HasVDeriv (fun t => unitNormal ((shift s u t).a 0) ((shift s u t).a 1)) (var1 s u) 0 :=
  hasVDeriv_normal s u h

/-- **C63** The first variation is orthogonal to the normal. -/
theorem C63_orthogonal (s u : Surf) (h : Indep (s.a 0) (s.a 1)) :
    dot (unitNormal (s.a 0) (s.a 1)) (var1 s u) = 0 := by
  have hn : dot (normal s) (normal s) = 1 := normal_unit s h.cross_ne
  change dot (normal s) (var1 s u) = 0
  unfold var1
  rw [dot_sub_right, dot_smul_right, hn, dot_comm (mvec s u)]; ring

/-- **C63** The first variation is linear in the field, so that its values on the basis functions
determine its value on every discrete field. -/
theorem C63_linear (s u v : Surf) (c : ℝ) :
    var1 s (fieldAdd (fieldSmul c u) v) = c • var1 s u + var1 s v := by
  have hm : mvec s (fieldAdd (fieldSmul c u) v) = c • mvec s u + mvec s v := by
    unfold mvec fieldAdd fieldSmul
    ext <;> simp [cross] <;> ring
  unfold var1
  rw [hm, dot_add_left, dot_smul_left]
  ext <;> simp <;> ring

/-- Non-vacuity: tilting the square about the second axis turns the normal. -/
example : var1 flatSquare ⟨![⟨0, 0, 1⟩, 0], 0, 0, 0⟩ = ⟨-1, 0, 0⟩ := by
  have hn : normal flatSquare = ⟨0, 0, 1⟩ := by
    ext <;> simp [normal, flatSquare, normalized, V3.norm, dot, cross]
  unfold var1 mvec measure
  rw [hn]
  ext <;> simp [flatSquare, V3.norm, dot, cross]

/-! ## C64 -/

/-- **C64** `var2` is the exact mixed second derivative of the unit normal, for every regular
surface and all pairs of fields. -/
theorem C64_exact (s u v : Surf) (h : Indep (s.a 0) (s.a 1)) :
    ∃ D : ℝ → V3,
      (∀ t, Indep ((shift s v t).a 0) ((shift s v t).a 1) →
        HasVDeriv (fun r => unitNormal ((shift (shift s v t) u r).a 0)
          ((shift (shift s v t) u r).a 1)) (D t) 0) ∧
      HasVDeriv D (var2 s u v) 0 :=
  ⟨fun t => var1 (shift s v t) u, fun _ ht => C63_exact _ _ ht, hasVDeriv_var1 s u v h⟩

/-- **C64** The second variation is symmetric in the two fields. -/
theorem C64_symmetric (s u v : Surf) : var2 s u v = var2 s v u := by
  have hm : muv s u v = muv s v u := by
    unfold muv; congr 1; ext <;> simp [cross] <;> ring
  unfold var2 var2From
  rw [hm]
  unfold var1
  simp only [dot_sub_right, dot_smul_right, dot_comm (mvec s v) (normal s),
    dot_comm (mvec s u) (normal s), dot_comm (mvec s v) (mvec s u)]
  ext <;> simp <;> ring

/-- **C64** The contraction with the second derivatives of the geometry and a resultant that
enters the stiffness is the contraction of the exact second derivative. -/
theorem C64_contracted (s u v : Surf) (M : Voigt) :
    var2deriv2 s u v M = M 0 * dot s.d11 (var2 s u v) + M 1 * dot s.d22 (var2 s u v)
      + 2 * (M 2 * dot s.d12 (var2 s u v)) := by
  simp [var2deriv2, dotV, dbl3, deriv2dot, Fin.sum_univ_three]; ring

/-- Non-vacuity: second variation for two tilts about the second axis. -/
example : var2 flatSquare ⟨![⟨0, 0, 1⟩, 0], 0, 0, 0⟩ ⟨![⟨0, 0, 1⟩, 0], 0, 0, 0⟩ = ⟨0, 0, -1⟩ := by
  have hn : normal flatSquare = ⟨0, 0, 1⟩ := by
    ext <;> simp [normal, flatSquare, normalized, V3.norm, dot, cross]
  have h1 : V3.norm (cross (flatSquare.a 0) (flatSquare.a 1)) = 1 := by
    simp [flatSquare, V3.norm, dot, cross]
  unfold var2 var2From var1 mvec muv measure
  rw [hn, h1]
  ext <;> simp [flatSquare, dot, cross]

/-- **C64** (partial: fields with `u,1 × v,2 = v,1 × u,2`, for example equal fields) The version
for two given fields returns the contraction with the second variation. -/
theorem C64_fields_partial (s u v : Surf)
    (h : cross (u.a 0) (v.a 1) = cross (v.a 0) (u.a 1)) :
    var2Fields s u v = dbl3 (deriv2dot s (var2 s u v)) := by
  have : muvFields s u v = muv s u v := by
    have hx := congrArg V3.x h; have hy := congrArg V3.y h; have hz := congrArg V3.z h
    simp [cross] at hx hy hz
    unfold muvFields muv
    congr 1
    ext
    · simp [cross]; linarith
    · simp [cross]; linarith
    · simp [cross]; linarith
  unfold var2Fields var2
  rw [this]

/-- Non-vacuity: a field paired with itself. -/
example (u : Surf) : cross (u.a 0) (u.a 1) = cross (u.a 0) (u.a 1) := rfl

/-- **C64** is violated: the version for two given fields differs from the exact second variation
on the unit square (it returns 2 where the exact value is 1). -/
theorem C64_fields_violated :
    ∃ s u v : Surf, Indep (s.a 0) (s.a 1) ∧ var2Fields s u v ≠ dbl3 (deriv2dot s (var2 s u v)) := by
  refine ⟨flatSquare, ⟨![⟨0, 0, 1⟩, 0], 0, 0, 0⟩, ⟨![0, ⟨1, 0, 0⟩], 0, 0, 0⟩, flatSquare_indep, ?_⟩
  intro h
  have h := congrFun h 0
  have hn : normal flatSquare = ⟨0, 0, 1⟩ := by
    ext <;> simp [normal, flatSquare, normalized, V3.norm, dot, cross]
  have h1 : V3.norm (cross (flatSquare.a 0) (flatSquare.a 1)) = 1 := by
    simp [flatSquare, V3.norm, dot, cross]
  unfold var2Fields var2 var2From var1 mvec muv muvFields measure at h
  rw [hn, h1] at h
  norm_num [flatSquare, dot, cross, dbl3, deriv2dot] at h

/-- **C64** is violated: the version for two given fields is not symmetric. -/
theorem C64_fields_symmetry_violated :
    ∃ s u v : Surf, Indep (s.a 0) (s.a 1) ∧ var2Fields s u v ≠ var2Fields s v u := by
  refine ⟨flatSquare, ⟨![⟨0, 0, 1⟩, 0], 0, 0, 0⟩, ⟨![0, ⟨1, 0, 0⟩], 0, 0, 0⟩, flatSquare_indep, ?_⟩
  intro h
  have h := congrFun h 0
  have hn : normal flatSquare = ⟨0, 0, 1⟩ := by
    ext <;> simp [normal, flatSquare, normalized, V3.norm, dot, cross]
  have h1 : V3.norm (cross (flatSquare.a 0) (flatSquare.a 1)) = 1 := by
    simp [flatSquare, V3.norm, dot, cross]
  unfold var2Fields var2From var1 mvec muvFields measure at h
  rw [hn, h1] at h
  norm_num [flatSquare, dot, cross, dbl3, deriv2dot] at h

/-- **C64** The formula for a discrete space agrees with the general one on the field of a basis
function. -/
theorem C64_space (d : Fin 3) (g : Fin 2 → ℝ) (h : Voigt) (n : V3) :
    deriv2Space d h n = deriv2dot (basisField d g h) n := by
  funext k
  rcases fin3_cases d with rfl | rfl | rfl <;> rcases fin3_cases k with rfl | rfl | rfl <;>
    simp [deriv2Space, deriv2dot, basisField, vecFun, dot]

end Verif.Variation
