import Verif.Spec.Balance
import Verif.Lemmas.Variation
import Verif.Props.StrainVariation

/-! # Helper lemmas on rows, rotations and discrete surfaces -/

namespace Verif.Balance

open V3 Verif.Geometry Verif.Variation

variable {ι κ : Type}

theorem dot_vsum (I : Finset ι) (f : ι → V3) (w : V3) :
    dot w (vsum I f) = ∑ i ∈ I, dot w (f i) := by
  simp only [dot, vsum, Finset.mul_sum, Finset.sum_add_distrib]

theorem vsum_dot (I : Finset ι) (f : ι → V3) (w : V3) :
    dot (vsum I f) w = ∑ i ∈ I, dot (f i) w := by
  simp only [dot, vsum, Finset.sum_mul, Finset.sum_add_distrib]

theorem cross_vsum (I : Finset ι) (f : ι → V3) (w : V3) :
    cross w (vsum I f) = vsum I fun i => cross w (f i) := by
  ext <;> simp [cross, vsum, Finset.mul_sum, Finset.sum_sub_distrib]

theorem act_vsum (R : Rotation) (I : Finset ι) (f : ι → V3) :
    R.act (vsum I f) = vsum I fun i => R.act (f i) := by
  ext <;> simp [Rotation.act, vsum, Finset.sum_mul, Finset.sum_add_distrib]

/-- Two vectors with the same products with all vectors are equal. -/
theorem eq_of_dot {u v : V3} (h : ∀ w, dot w u = dot w v) : u = v := by
  have hx := h ⟨1, 0, 0⟩
  have hy := h ⟨0, 1, 0⟩
  have hz := h ⟨0, 0, 1⟩
  simp [dot] at hx hy hz
  ext
  · exact hx
  · exact hy
  · exact hz

/-- A basis function times a vector. -/
def dirField (φ : Shape) (w : V3) : Surf :=
  ⟨fun k => φ.grad k • w, φ.hess 0 • w, φ.hess 1 • w, φ.hess 2 • w⟩

theorem mvec_add (s u v : Surf) : mvec s (fieldAdd u v) = mvec s u + mvec s v := by
  unfold mvec fieldAdd
  ext <;> simp [cross] <;> ring

theorem mvec_smul (s u : Surf) (c : ℝ) : mvec s (fieldSmul c u) = c • mvec s u := by
  unfold mvec fieldSmul
  ext <;> simp [cross] <;> ring

theorem var1_add (s u v : Surf) : var1 s (fieldAdd u v) = var1 s u + var1 s v := by
  unfold var1
  rw [mvec_add, dot_add_left]
  ext <;> simp <;> ring

theorem var1_smul (s u : Surf) (c : ℝ) : var1 s (fieldSmul c u) = c • var1 s u := by
  unfold var1
  rw [mvec_smul, dot_smul_left]
  ext <;> simp <;> ring

theorem force_add (s u v : Surf) (N M : Voigt) :
    internalForce s (fieldAdd u v) N M = internalForce s u N M + internalForce s v N M := by
  simp only [internalForce, dotV, Fin.sum_univ_three, EfDer, var1_add]
  simp only [deriv2dot, EmDer, dbl3, fieldAdd, vec3_zero, vec3_one, vec3_two, dot_add_left, dot_add_right]
  ring

theorem force_smul (s u : Surf) (c : ℝ) (N M : Voigt) :
    internalForce s (fieldSmul c u) N M = c * internalForce s u N M := by
  simp only [internalForce, dotV, Fin.sum_univ_three, EfDer, var1_smul]
  simp only [deriv2dot, EmDer, dbl3, fieldSmul, vec3_zero, vec3_one, vec3_two, dot_smul_left, dot_smul_right]
  ring

theorem dirField_eq (φ : Shape) (w : V3) : dirField φ w =
    fieldAdd (fieldAdd (fieldSmul w.x (basisField 0 φ.grad φ.hess))
      (fieldSmul w.y (basisField 1 φ.grad φ.hess))) (fieldSmul w.z (basisField 2 φ.grad φ.hess)) := by
  have key : ∀ c : ℝ, c • w = w.x • vecFun 0 c + w.y • vecFun 1 c + w.z • vecFun 2 c := by
    intro c; ext <;> simp [vecFun] <;> ring
  unfold dirField fieldAdd fieldSmul basisField
  simp only [key]

/-- Work of the rows in a direction. -/
theorem dot_forceRow (s : Surf) (φ : Shape) (N M : Voigt) (w : V3) :
    dot w (forceRow s φ N M) = internalForce s (dirField φ w) N M := by
  rw [dirField_eq, force_add, force_add, force_smul, force_smul, force_smul]
  rfl

theorem dot_loadRow (φ : Shape) (f w : V3) : dot w (loadRow φ f) = φ.val * dot w f := by
  simp [loadRow, dot, vecFun]; ring

theorem loadRow_eq (φ : Shape) (f : V3) : loadRow φ f = φ.val • f := by
  ext <;> simp [loadRow, dot, vecFun]

theorem dot_forceRows (Q : Finset κ) (μ : κ → ℝ) (s : κ → Surf) (φ : κ → Shape)
    (N M : κ → Voigt) (w : V3) : dot w (forceRows Q μ s φ N M)
      = ∑ q ∈ Q, μ q * internalForce (s q) (dirField (φ q) w) (N q) (M q) := by
  unfold forceRows
  rw [dot_vsum]
  refine Finset.sum_congr rfl (fun q _ => ?_)
  rw [dot_smul_right, dot_forceRow]

/-- The internal force of a sum of fields. -/
theorem force_sum (s : Surf) (N M : Voigt) (I : Finset ι) (φ : ι → Shape) (w : ι → V3) :
    ∑ i ∈ I, internalForce s (dirField (φ i) (w i)) N M
      = internalForce s (surface I w φ) N M := by
  classical
  induction I using Finset.induction_on with
  | empty =>
    have hz : ∀ c : ℝ, dot (normal s) (c • (0 : V3)) = 0 := by intro c; simp [dot]
    have e : surface ∅ w φ = fieldSmul 0 s := by
      simp only [surface, fieldSmul, vsum, Finset.sum_empty]
      congr 1
      · funext k; ext <;> simp
      all_goals ext <;> simp
    rw [e, force_smul]; simp
  | insert a J ha ih =>
    rw [Finset.sum_insert ha, ih, ← force_add]
    congr 1
    simp only [surface, fieldAdd, dirField, vsum, Finset.sum_insert ha]
    congr 1

theorem spin_surface (ω : V3) (I : Finset ι) (P : ι → V3) (φ : ι → Shape) :
    surface I (fun i => cross ω (P i)) φ = spin ω (surface I P φ) := by
  have key : ∀ c : ℝ, ∀ p : V3, c • cross ω p = cross ω (c • p) := by
    intro c p; ext <;> simp [cross] <;> ring
  simp only [surface, spin, cross_vsum, key]

theorem const_surface (w : V3) (I : Finset ι) (φ : ι → Shape) (h : PartitionOfUnity I φ) (s : Surf) :
    surface I (fun _ => w) φ = fieldSmul 0 s := by
  have key : ∀ f : ι → ℝ, ∑ i ∈ I, f i = 0 → vsum I (fun i => f i • w) = 0 := by
    intro f hf
    ext <;> simp [vsum, ← Finset.sum_mul, hf]
  simp only [surface, fieldSmul]
  congr 1
  · funext k
    rw [key _ (h.grad k)]; ext <;> simp
  · rw [key _ (h.hess 0)]; ext <;> simp
  · rw [key _ (h.hess 1)]; ext <;> simp
  · rw [key _ (h.hess 2)]; ext <;> simp

/-! ## Rotations -/

theorem measure_move (R : Rotation) (s : Surf) : Variation.measure (R.move s) = Variation.measure s := by
  unfold Variation.measure V3.norm
  have e : cross ((R.move s).a 0) ((R.move s).a 1) = R.act (cross (s.a 0) (s.a 1)) :=
    R.cross_act _ _
  rw [e, R.dot_act]

theorem act_sub (R : Rotation) (u v : V3) : R.act (u - v) = R.act u - R.act v := by
  ext <;> simp [Rotation.act] <;> ring

theorem act_add (R : Rotation) (u v : V3) : R.act (u + v) = R.act u + R.act v := by
  ext <;> simp [Rotation.act] <;> ring

theorem act_smul (R : Rotation) (c : ℝ) (u : V3) : R.act (c • u) = c • R.act u := by
  ext <;> simp [Rotation.act] <;> ring

theorem mvec_move (R : Rotation) (s u : Surf) : mvec (R.move s) (R.move u) = R.act (mvec s u) := by
  unfold mvec
  rw [measure_move]
  simp only [Rotation.move, R.cross_act, act_smul, act_sub]

theorem muv_move (R : Rotation) (s u v : Surf) :
    muv (R.move s) (R.move u) (R.move v) = R.act (muv s u v) := by
  unfold muv
  rw [measure_move]
  simp only [Rotation.move, R.cross_act, act_smul, act_add]

theorem var1_move (R : Rotation) (s u : Surf) : var1 (R.move s) (R.move u) = R.act (var1 s u) := by
  unfold var1
  rw [mvec_move, R.normal_move, R.dot_act, act_sub, act_smul]

theorem var2_move (R : Rotation) (s u v : Surf) :
    var2 (R.move s) (R.move u) (R.move v) = R.act (var2 s u v) := by
  unfold var2 var2From
  simp only [muv_move, mvec_move, var1_move, R.normal_move, R.dot_act, act_sub, act_smul]
  rw [← act_smul, ← act_sub, R.dot_act]

theorem EmDer_move (R : Rotation) (s u : Surf) : EmDer (R.move s) (R.move u) = EmDer s u := by
  unfold EmDer; simp only [Rotation.move, R.dot_act]

theorem deriv2dot_move (R : Rotation) (s : Surf) (w : V3) :
    deriv2dot (R.move s) (R.act w) = deriv2dot s w := by
  unfold deriv2dot; simp only [Rotation.move, R.dot_act]

theorem EfDer_move (R : Rotation) (s u : Surf) : EfDer (R.move s) (R.move u) = EfDer s u := by
  unfold EfDer
  rw [R.normal_move, var1_move]
  simp only [deriv2dot_move]

theorem EmDer2_move (R : Rotation) (u v : Surf) (N : Voigt) :
    EmDer2 (R.move u) (R.move v) N = EmDer2 u v N := by
  unfold EmDer2; simp only [Rotation.move, R.dot_act]

theorem EfDer2_move (R : Rotation) (s u v : Surf) (M : Voigt) :
    EfDer2 (R.move s) (R.move u) (R.move v) M = EfDer2 s u v M := by
  unfold EfDer2 var2deriv2 flatdot2
  simp only [var1_move, var2_move, deriv2dot_move]

theorem move_dirField (R : Rotation) (φ : Shape) (w : V3) :
    R.move (dirField φ w) = dirField φ (R.act w) := by
  unfold dirField Rotation.move
  simp only [act_smul]

theorem eq_of_act {R : Rotation} {u v : V3} (h : ∀ w, dot (R.act w) u = dot (R.act w) v) : u = v := by
  have k : ∀ c : V3, (c = R.c0 ∨ c = R.c1 ∨ c = R.c2) → dot c u = dot c v := by
    have e0 := h ⟨1, 0, 0⟩
    have e1 := h ⟨0, 1, 0⟩
    have e2 := h ⟨0, 0, 1⟩
    have a0 : R.act ⟨1, 0, 0⟩ = R.c0 := by ext <;> simp [Rotation.act]
    have a1 : R.act ⟨0, 1, 0⟩ = R.c1 := by ext <;> simp [Rotation.act]
    have a2 : R.act ⟨0, 0, 1⟩ = R.c2 := by ext <;> simp [Rotation.act]
    rw [a0] at e0; rw [a1] at e1; rw [a2] at e2
    rintro c (rfl | rfl | rfl)
    · exact e0
    · exact e1
    · exact e2
  have k0 := k R.c0 (Or.inl rfl)
  have k1 := k R.c1 (Or.inr (Or.inl rfl))
  have k2 := k R.c2 (Or.inr (Or.inr rfl))
  -- the difference is orthogonal to the orthonormal frame; expand it in cross products
  have hw : ∀ w : V3, dot R.c0 w = 0 → dot R.c1 w = 0 → dot R.c2 w = 0 → w = 0 := by
    intro w g0 g1 g2
    have hx : w = dot (cross R.c1 R.c2) w • R.c0 + dot (cross R.c2 R.c0) w • R.c1
        + dot (cross R.c0 R.c1) w • R.c2 := by
      have hdet : dot (cross R.c0 R.c1) R.c2 = 1 := R.right_handed
      simp only [dot, cross] at hdet
      ext
      · simp [dot, cross]; linear_combination (-w.x) * hdet
      · simp [dot, cross]; linear_combination (-w.y) * hdet
      · simp [dot, cross]; linear_combination (-w.z) * hdet
    rw [R.cross12, R.cross20, R.cross01, g0, g1, g2] at hx
    rw [hx]; ext <;> simp
  have : u - v = 0 := hw _ (by rw [dot_sub_right]; linarith) (by rw [dot_sub_right]; linarith)
    (by rw [dot_sub_right]; linarith)
  ext
  · have := congrArg V3.x this; simp at this; linarith
  · have := congrArg V3.y this; simp at this; linarith
  · have := congrArg V3.z this; simp at this; linarith

theorem voigtMembrane_move (R : Rotation) (ori s : Surf) :
    voigtMembrane ori (R.move s) = voigtMembrane ori s := by
  unfold voigtMembrane; simp only [Rotation.move, R.dot_act]

theorem voigtBending_move (R : Rotation) (ori s : Surf) :
    voigtBending ori (R.move s) = voigtBending ori s := by
  have e : ∀ s : Surf, unitNormal (s.a 0) (s.a 1) = normal s := fun _ => rfl
  unfold voigtBending
  simp only [e, R.normal_move]
  simp only [Rotation.move, R.dot_act]

/-! ## Infinitesimal rotations -/

theorem mvec_spin (s : Surf) (ω : V3) : mvec s (spin ω s) = cross ω (normal s) := by
  unfold mvec normal normalized Variation.measure spin
  generalize 1 / V3.norm (cross (s.a 0) (s.a 1)) = k
  ext <;> simp [cross] <;> ring

theorem dot_cross_same (ω n : V3) : dot (cross ω n) n = 0 := by simp [dot, cross]; ring

theorem var1_spin (s : Surf) (ω : V3) : var1 s (spin ω s) = cross ω (normal s) := by
  unfold var1
  rw [mvec_spin, dot_cross_same]
  ext <;> simp

theorem mvec_spin_arg (s u : Surf) (ω : V3) :
    mvec s (spin ω u) = cross ω (mvec s u) - muv s u (spin ω s) := by
  unfold mvec muv spin
  generalize 1 / Variation.measure s = k
  ext <;> simp [cross] <;> ring

/-- Second variation of the normal along a rotation. -/
theorem var2_spin (s u : Surf) (ω : V3) :
    var2 s u (spin ω s) = cross ω (var1 s u) - var1 s (spin ω u) := by
  have h1 : dot (normal s) (mvec s (spin ω s)) = 0 := by
    rw [mvec_spin, dot_comm, dot_cross_same]
  have h2 : dot (mvec s u) (cross ω (normal s)) = -dot (cross ω (mvec s u)) (normal s) := by
    simp [dot, cross]; ring
  unfold var2 var2From
  simp only [h1, var1_spin]
  unfold var1
  rw [mvec_spin_arg, dot_sub_left]
  have h3 : (0 : ℝ) • mvec s u = 0 := by ext <;> simp
  rw [h3, h2, dot_sub_right]
  have h4 : dot (normal s) 0 = 0 := by simp [dot]
  rw [h4, dot_comm (normal s) (muv s u (spin ω s)), dot_comm (normal s) (mvec s u)]
  generalize muv s u (spin ω s) = w
  generalize mvec s u = m
  generalize normal s = n
  ext <;> simp [dot, cross] <;> ring

/-- The virtual work of the stress along an infinitesimal rotation of the surface. -/
theorem second_spin (s u : Surf) (ω : V3) (N M : Voigt) :
    EmDer2 u (spin ω s) N + EfDer2 s u (spin ω s) M = internalForce s (spin ω u) N M := by
  simp only [internalForce, EfDer2, flatdot2, var2deriv2, var2_spin, var1_spin, dotV,
    Fin.sum_univ_three, EfDer]
  simp only [dbl3, deriv2dot, vec3_zero, vec3_one, vec3_two, EmDer2, EmDer, dot_sub_right]
  generalize var1 s (spin ω u) = x
  generalize var1 s u = y
  simp only [spin, dot, cross]
  ring

/-! ## Shapes -/

theorem vsum_congr {I : Finset ι} {f g : ι → V3} (h : ∀ i ∈ I, f i = g i) : vsum I f = vsum I g := by
  unfold vsum
  rw [Finset.sum_congr rfl fun i hi => by rw [h i hi],
    Finset.sum_congr (f := fun i => (f i).y) rfl fun i hi => by rw [h i hi],
    Finset.sum_congr (f := fun i => (f i).z) rfl fun i hi => by rw [h i hi]]

theorem vsum_comm (I : Finset ι) (Q : Finset κ) (f : ι → κ → V3) :
    vsum I (fun i => vsum Q (f i)) = vsum Q fun q => vsum I fun i => f i q := by
  unfold vsum
  ext
  · exact Finset.sum_comm
  · exact Finset.sum_comm
  · exact Finset.sum_comm

theorem smul_vsum (c : ℝ) (I : Finset ι) (f : ι → V3) : c • vsum I f = vsum I fun i => c • f i := by
  ext <;> simp [vsum, Finset.mul_sum]

theorem vsum_smul (I : Finset ι) (c : ι → ℝ) (w : V3) :
    (vsum I fun i => c i • w) = (∑ i ∈ I, c i) • w := by
  ext <;> simp [vsum, Finset.sum_mul]

theorem vsum_cross (I : Finset ι) (f : ι → V3) (w : V3) :
    cross (vsum I f) w = vsum I fun i => cross (f i) w := by
  ext <;> simp [cross, vsum, Finset.sum_mul, Finset.sum_sub_distrib]

end Verif.Balance
