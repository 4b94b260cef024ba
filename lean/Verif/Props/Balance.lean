import Verif.Lemmas.Balance
import Verif.Props.Material

/-!
# Balance of the assembled system

C106: internal forces are objective and in equilibrium.  C107: mixed-integration-point stiffness.
C108: mass matrix.  C109: resultants of the loads.
-/

namespace Verif.Balance

open V3 Verif.Geometry Verif.Variation

variable {ι κ : Type}

/-- Linear shape functions of a triangle at its centre. -/
noncomputable def tri : Fin 3 → Shape :=
  vec3 ⟨1 / 3, ![1, 0], fun _ => 0⟩ ⟨1 / 3, ![0, 1], fun _ => 0⟩ ⟨1 / 3, ![-1, -1], fun _ => 0⟩

/-- Control points of the triangle. -/
def triP : Fin 3 → V3 := vec3 ⟨1, 0, 0⟩ ⟨0, 1, 0⟩ ⟨0, 0, 0⟩

theorem tri_unity : PartitionOfUnity Finset.univ tri where
  val := by simp [tri, Fin.sum_univ_three]; norm_num
  grad k := by rcases fin2_cases k with rfl | rfl <;> simp [tri, Fin.sum_univ_three]
  hess k := by simp [tri, Fin.sum_univ_three]

theorem tri_indep : Indep ((surface Finset.univ triP tri).a 0) ((surface Finset.univ triP tri).a 1) := by
  intro c d h
  have hx := congrArg V3.x h
  have hy := congrArg V3.y h
  simp [surface, vsum, tri, triP, Fin.sum_univ_three] at hx hy
  exact ⟨hx, hy⟩

/-! ## C106 -/

/-- **C106** (objectivity of the residual) For every material whose resultants are functions of the
two strains, rotating the deformed shell rotates the internal force of every basis function. -/
theorem C106_force (R : Rotation) (Q : Finset κ) (μ : κ → ℝ) (ori s : κ → Surf) (φ : κ → Shape)
    (N M : κ → Voigt → Voigt → Voigt) :
    forceRows Q μ (fun q => R.move (s q)) φ
      (fun q => N q (voigtMembrane (ori q) (R.move (s q))) (voigtBending (ori q) (R.move (s q))))
      (fun q => M q (voigtMembrane (ori q) (R.move (s q))) (voigtBending (ori q) (R.move (s q))))
    = R.act (forceRows Q μ s φ
      (fun q => N q (voigtMembrane (ori q) (s q)) (voigtBending (ori q) (s q)))
      (fun q => M q (voigtMembrane (ori q) (s q)) (voigtBending (ori q) (s q)))) := by
  simp only [voigtMembrane_move, voigtBending_move]
  refine eq_of_act (R := R) (fun w => ?_)
  rw [R.dot_act, dot_forceRows, dot_forceRows]
  refine Finset.sum_congr rfl (fun q _ => ?_)
  rw [← move_dirField, internalForce, internalForce, EmDer_move, EfDer_move]

/-- **C106** (objectivity of the tangent) Rotating the deformed shell rotates the tangent stiffness:
the entry for the rotated fields is unchanged. -/
theorem C106_tangent (R : Rotation) (ori s u v : Surf) (law : Voigt → Voigt → Section) :
    let S := law (voigtMembrane ori s) (voigtBending ori s)
    let S' := law (voigtMembrane ori (R.move s)) (voigtBending ori (R.move s))
    stiffness (R.move s) (R.move u) (R.move v) S'.A S'.B S'.C S'.D S'.N S'.M
      = stiffness s u v S.A S.B S.C S.D S.N S.M := by
  intro S S'
  have e : S' = S := by
    simp only [S, S', voigtMembrane_move, voigtBending_move]
  rw [e]
  unfold stiffness
  rw [EmDer_move, EmDer_move, EfDer_move, EfDer_move, EmDer2_move, EfDer2_move]

/-- Non-vacuity: the rotation by a quarter turn about the third axis. -/
example : ∃ R : Rotation, R.act ⟨1, 0, 0⟩ = ⟨0, 1, 0⟩ :=
  ⟨⟨⟨0, 1, 0⟩, ⟨-1, 0, 0⟩, ⟨0, 0, 1⟩, by simp [dot], by simp [dot], by simp [dot], by simp [dot],
    by simp [dot], by simp [dot], by simp [dot, cross]⟩, by ext <;> simp [Rotation.act]⟩

/-- **C106** (infinitesimal version, at every stressed state) The tangent applied to an
infinitesimal rotation of the deformed shell turns the internal force: the stress stiffness is the
right one for rotations. -/
theorem C106_rotation (s u : Surf) (h : Indep (s.a 0) (s.a 1)) (ω : V3) (A B C D : T3)
    (N M : Voigt) :
    stiffness s u (spin ω s) A B C D N M = internalForce s (spin ω u) N M := by
  obtain ⟨h1, h2, -⟩ := C66_rigid s h ω u A B C D
  have h1' : ∀ k, EmDer s (spin ω s) k = 0 := h1
  have h2' : ∀ k, EfDer s (spin ω s) k = 0 := h2
  have e : ∀ r : Voigt, dotV r (EmDer s (spin ω s)) = 0 := by intro r; simp [dotV, h1']
  have e' : ∀ r : Voigt, dotV r (EfDer s (spin ω s)) = 0 := by intro r; simp [dotV, h2']
  unfold stiffness
  rw [e, e', ← second_spin]
  ring

/-- Non-vacuity: a regular surface with stress; the entry is not zero. -/
example : ∃ (s u : Surf) (N : Voigt), Indep (s.a 0) (s.a 1) ∧
    internalForce s (spin ⟨0, 0, 1⟩ u) N (fun _ => 0) ≠ 0 := by
  refine ⟨surface Finset.univ triP tri, ⟨fun i => if i = 0 then ⟨0, 1, 0⟩ else 0, 0, 0, 0⟩,
    vec3 1 0 0, tri_indep, ?_⟩
  simp [internalForce, dotV, EmDer, Fin.sum_univ_three, surface, spin, vsum, tri, triP, dot, cross]

/-- **C106** (equilibrium of forces) The internal forces of all basis functions add up to zero,
for every state and all resultants. -/
theorem C106_resultant (I : Finset ι) (Q : Finset κ) (μ : κ → ℝ) (s : κ → Surf)
    (φ : ι → κ → Shape) (h : ∀ q ∈ Q, PartitionOfUnity I fun i => φ i q) (N M : κ → Voigt) :
    (vsum I fun i => forceRows Q μ s (φ i) N M) = 0 := by
  refine eq_of_dot (fun w => ?_)
  rw [dot_vsum]
  simp only [dot_forceRows]
  rw [Finset.sum_comm]
  have : dot w 0 = 0 := by simp [dot]
  rw [this]
  refine Finset.sum_eq_zero (fun q hq => ?_)
  rw [← Finset.mul_sum, force_sum (s q) (N q) (M q) I (fun i => φ i q) (fun _ => w),
    const_surface w I _ (h q hq) (s q), force_smul]
  ring

/-- **C106** (equilibrium of moments) The moments of the internal forces, acting at the control
points of the deformed shell, add up to zero, for every regular state and all resultants. -/
theorem C106_moment (I : Finset ι) (Q : Finset κ) (μ : κ → ℝ) (P : ι → V3) (φ : ι → κ → Shape)
    (h : ∀ q ∈ Q, Indep ((surface I P fun i => φ i q).a 0) ((surface I P fun i => φ i q).a 1))
    (N M : κ → Voigt) :
    (vsum I fun i => cross (P i)
      (forceRows Q μ (fun q => surface I P fun j => φ j q) (φ i) N M)) = 0 := by
  refine eq_of_dot (fun w => ?_)
  rw [dot_vsum]
  have : dot w 0 = 0 := by simp [dot]
  rw [this]
  have e : ∀ a b : V3, dot w (cross a b) = dot (cross w a) b := by
    intro a b; simp [dot, cross]; ring
  simp only [e, dot_forceRows]
  rw [Finset.sum_comm]
  refine Finset.sum_eq_zero (fun q hq => ?_)
  rw [← Finset.mul_sum, force_sum _ (N q) (M q) I (fun i => φ i q) (fun i => cross w (P i)),
    spin_surface]
  obtain ⟨h1, h2, -⟩ := C66_rigid (surface I P fun i => φ i q) (h q hq) w (spin w (surface I P fun i => φ i q))
    (fun _ _ => 0) (fun _ _ => 0) (fun _ _ => 0) (fun _ _ => 0)
  have h1' : ∀ k, EmDer (surface I P fun i => φ i q) (spin w (surface I P fun i => φ i q)) k = 0 := h1
  have h2' : ∀ k, EfDer (surface I P fun i => φ i q) (spin w (surface I P fun i => φ i q)) k = 0 := h2
  simp [internalForce, dotV, h1', h2']

/-- Non-vacuity of both: a triangle under tension; the force on its first corner is not zero. -/
example : (∀ q ∈ (Finset.univ : Finset Unit), PartitionOfUnity Finset.univ fun i => tri i) ∧
    Indep ((surface Finset.univ triP tri).a 0) ((surface Finset.univ triP tri).a 1) ∧
    (forceRows (Finset.univ : Finset Unit) (fun _ => 1) (fun _ => surface Finset.univ triP tri)
      (fun _ => tri 0) (fun _ => vec3 1 0 0) (fun _ _ => 0)).x = -1 := by
  refine ⟨fun _ _ => tri_unity, tri_indep, ?_⟩
  simp [forceRows, vsum, forceRow, internalForce, dotV, EmDer, Fin.sum_univ_three, surface,
    basisField, vecFun, tri, triP, dot]

/-! ## C107 -/

/-- **C107** (consistency) If the previous state is the current one and the update is zero, the
assembled matrix is the standard tangent, for every material, whatever it held before. -/
theorem C107_start {F : Type} (law : Option Surf → Section) (w : Material.World Surf F) (m : Nat)
    (s u v z : Surf) (hz : z = fieldSmul 0 s) :
    mipAssembled law w m s s z u v
      = stiffness s u v (law (some s)).A (law (some s)).B (law (some s)).C (law (some s)).D
        (law (some s)).N (law (some s)).M := by
  have he := Material.C10_mip_violated w m s s ⟨m, s⟩ (by simp [Material.mipEvaluators])
  have h1 : ∀ k, EmDer s z k = 0 := by
    intro k; subst hz
    rcases fin3_cases k with rfl | rfl | rfl <;> simp [EmDer, fieldSmul, dot]
  have h2 : ∀ k, EfDer s z k = 0 := by
    intro k; subst hz
    unfold EfDer
    rw [var1_smul]
    rcases fin3_cases k with rfl | rfl | rfl <;> simp [dbl3, deriv2dot, fieldSmul, dot]
  have hN : ∀ p : Section, mipN s z p = p.N := by
    intro p; funext j; simp [mipN, rowMul, h1, h2]
  have hM : ∀ p : Section, mipM s z p = p.M := by
    intro p; funext j; simp [mipM, rowMul, h1, h2]
  simp only [mipAssembled, mipStiffness, evaluated, he, hN, hM]

/-- **C107** (predictor) For symmetric moduli the increment added to the resultants of the previous
state is their exact first derivative along the update. -/
theorem C107_predict_partial (prev du : Surf) (p : Section) (N M : ℝ → Voigt)
    (hA : ∀ i j, p.A i j = p.A j i) (hD : ∀ i j, p.D i j = p.D j i) (hB : ∀ i j, p.C i j = p.B j i)
    (h0 : N 0 = p.N) (h0' : M 0 = p.M)
    (hN : ∀ i, HasDerivAt (fun t => N t i)
      (∑ j, (p.A i j * EmDer prev du j + p.C i j * EfDer prev du j)) 0)
    (hM : ∀ i, HasDerivAt (fun t => M t i)
      (∑ j, (p.B i j * EmDer prev du j + p.D i j * EfDer prev du j)) 0) (i : Fin 3) :
    HasDerivAt (fun t => N t i) (mipN prev du p i - N 0 i) 0 ∧
    HasDerivAt (fun t => M t i) (mipM prev du p i - M 0 i) 0 := by
  constructor
  · refine (hN i).congr_deriv ?_
    rw [h0]
    simp only [mipN, rowMul, Fin.sum_univ_three, hA i, hB i]
    ring
  · refine (hM i).congr_deriv ?_
    rw [h0']
    simp only [mipM, rowMul, Fin.sum_univ_three, hD i, ← hB _ i]
    ring

/-- Non-vacuity: identity moduli, the resultants linear in the strain. -/
example (E : Voigt) (i : Fin 3) : HasDerivAt (fun t => t * E i)
    (∑ j, (((if i = j then 1 else 0 : ℝ)) * E j + 0 * E j)) 0 := by
  refine ((hasDerivAt_id' (0 : ℝ)).mul_const (E i)).congr_deriv ?_
  simp

/-- **C107** (error of the predictor) For the linear membrane law the predicted membrane resultant
differs from the one of the updated surface by the second-order part of the strain increment,
exactly. -/
theorem C107_error (ori prev du : Surf) (A : T3) (hA : ∀ i j, A i j = A j i) (C D : T3)
    (M : Voigt) (i : Fin 3) :
    let p : Section := ⟨A, fun _ _ => 0, C, D, fun i => ∑ j, A i j * voigtMembrane ori prev j, M⟩
    (∑ j, A i j * voigtMembrane ori (shift prev du 1) j) - mipN prev du p i
      = ∑ j, A i j * halfSquare du j := by
  intro p
  simp only [p, mipN, rowMul, Fin.sum_univ_three, voigtMembrane, halfSquare, EmDer, vec3_zero,
    vec3_one, vec3_two, hA 0 i, hA 1 i, hA 2 i]
  simp only [shift, dot, add_x, add_y, add_z, smul_x, smul_y, smul_z]
  ring

/-- **C107** (partial: moduli independent of the deformation, as for the linear material) The matrix
is the one intended: moduli of the current state, resultants predicted from the previous one. -/
theorem C107_moduli_partial {F : Type} (law : Option Surf → Section) (w : Material.World Surf F)
    (m : Nat) (s prev du u v : Surf)
    (h : (law (some prev)).A = (law (some s)).A ∧ (law (some prev)).B = (law (some s)).B ∧
      (law (some prev)).C = (law (some s)).C ∧ (law (some prev)).D = (law (some s)).D) :
    mipAssembled law w m s prev du u v
      = mipStiffness s prev du u v (law (some s)) (law (some prev)) := by
  have h1 := Material.C10_mip_violated w m s prev ⟨m, s⟩ (by simp [Material.mipEvaluators])
  have h2 := Material.C10_mip_violated w m s prev ⟨m, prev⟩ (by simp [Material.mipEvaluators])
  simp only [mipAssembled, mipStiffness, evaluated, h1, h2, h.1, h.2.1, h.2.2.1, h.2.2.2]

/-- Non-vacuity: a law with constant moduli. -/
example (I : T3) (f : Option Surf → Voigt) (s prev : Surf) :
    let law : Option Surf → Section := fun g => ⟨I, I, I, I, f g, f g⟩
    (law (some prev)).A = (law (some s)).A := rfl

/-- **C107** is violated: for every material all moduli are those of the previous state; with moduli
that change with the deformation the matrix is not the intended one. -/
theorem C107_moduli_violated :
    (∀ (F : Type) (law : Option Surf → Section) (w : Material.World Surf F) (m : Nat)
      (s prev du u v : Surf), mipAssembled law w m s prev du u v
        = mipStiffness s prev du u v (law (some prev)) (law (some prev))) ∧
    (∀ (F : Type) (w : Material.World Surf F) (m : Nat), ∃ (law : Option Surf → Section)
      (s prev du u v : Surf), mipAssembled law w m s prev du u v
        ≠ mipStiffness s prev du u v (law (some s)) (law (some prev))) := by
  have key : ∀ (F : Type) (law : Option Surf → Section) (w : Material.World Surf F) (m : Nat)
      (s prev du u v : Surf), mipAssembled law w m s prev du u v
        = mipStiffness s prev du u v (law (some prev)) (law (some prev)) := by
    intro F law w m s prev du u v
    have h1 := Material.C10_mip_violated w m s prev ⟨m, s⟩ (by simp [Material.mipEvaluators])
    have h2 := Material.C10_mip_violated w m s prev ⟨m, prev⟩ (by simp [Material.mipEvaluators])
    simp only [mipAssembled, evaluated, h1, h2]
  refine ⟨key, fun F w m => ?_⟩
  let law : Option Surf → Section := fun g =>
    ⟨fun _ _ => match g with | none => 0 | some g => (g.a 0).x, fun _ _ => 0, fun _ _ => 0,
      fun _ _ => 0, fun _ => 0, fun _ => 0⟩
  let e : ℝ → Surf := fun c => ⟨fun i => if i = 0 then ⟨c, 0, 0⟩ else ⟨0, 1, 0⟩, 0, 0, 0⟩
  let u : Surf := ⟨fun i => if i = 0 then ⟨1, 0, 0⟩ else 0, 0, 0, 0⟩
  refine ⟨law, e 2, e 1, ⟨fun _ => 0, 0, 0, 0⟩, u, u, ?_⟩
  rw [key]
  simp only [mipStiffness, stiffness]
  have h0 : mipN (e 1) ⟨fun _ => 0, 0, 0, 0⟩ (law (some (e 1))) = fun _ => 0 := by
    funext j; simp [mipN, rowMul, law, EmDer, dot, Fin.sum_univ_three]
  have h0' : mipM (e 1) ⟨fun _ => 0, 0, 0, 0⟩ (law (some (e 1))) = fun _ => 0 := by
    funext j; simp [mipM, rowMul, law]
  rw [h0, h0']
  simp [dotV, rowMul, law, Fin.sum_univ_three, EmDer, e, u, dot, EmDer2, EfDer2, flatdot2,
    var2deriv2]

/-! ## C108 -/

/-- **C108** (partial: not lumped) The mass matrix gives the kinetic energy: for all nodal
velocities, `V·M V` is the integral of the mass per area times the squared speed. -/
theorem C108_kinetic_partial (I : Finset ι) (Q : Finset κ) (μ ρ : κ → ℝ) (φ : ι → κ → Shape)
    (V : ι → V3) :
    (∑ i ∈ I, ∑ d, ∑ j ∈ I, ∑ e, comp (V i) d * massMatrix false Q μ ρ φ i d j e * comp (V j) e)
      = ∑ q ∈ Q, ρ q * dot (position I V fun i => φ i q) (position I V fun i => φ i q) * μ q := by
  have h : ∀ i j, (∑ d, ∑ e, comp (V i) d * massMatrix false Q μ ρ φ i d j e * comp (V j) e)
      = ∑ q ∈ Q, ρ q * dot ((φ i q).val • V i) ((φ j q).val • V j) * μ q := by
    intro i j
    simp only [massMatrix, massEntry, Bool.false_eq_true, if_false, Finset.mul_sum, Finset.sum_mul]
    rw [Finset.sum_congr rfl fun d _ => Finset.sum_comm, Finset.sum_comm]
    refine Finset.sum_congr rfl (fun q _ => ?_)
    simp [Fin.sum_univ_three, comp, dot, vecFun]
    ring
  calc _ = ∑ i ∈ I, ∑ j ∈ I, ∑ d, ∑ e,
        comp (V i) d * massMatrix false Q μ ρ φ i d j e * comp (V j) e :=
        Finset.sum_congr rfl fun i _ => Finset.sum_comm
    _ = ∑ i ∈ I, ∑ j ∈ I, ∑ q ∈ Q, ρ q * dot ((φ i q).val • V i) ((φ j q).val • V j) * μ q :=
        Finset.sum_congr rfl fun i _ => Finset.sum_congr rfl fun j _ => h i j
    _ = ∑ q ∈ Q, ∑ i ∈ I, ∑ j ∈ I, ρ q * dot ((φ i q).val • V i) ((φ j q).val • V j) * μ q := by
        rw [Finset.sum_congr rfl fun i _ => Finset.sum_comm, Finset.sum_comm]
    _ = _ := by
        refine Finset.sum_congr rfl (fun q _ => ?_)
        unfold position
        rw [vsum_dot, Finset.mul_sum, Finset.sum_mul]
        refine Finset.sum_congr rfl (fun i _ => ?_)
        rw [dot_vsum, Finset.mul_sum, Finset.sum_mul]

/-- **C108** (partial: not lumped) It is symmetric, and positive semi-definite for non-negative
densities. -/
theorem C108_symmetric_partial (I : Finset ι) (Q : Finset κ) (μ ρ : κ → ℝ) (φ : ι → κ → Shape) :
    (∀ i d j e, massMatrix false Q μ ρ φ i d j e = massMatrix false Q μ ρ φ j e i d) ∧
    ((∀ q ∈ Q, 0 ≤ ρ q) → (∀ q ∈ Q, 0 ≤ μ q) → ∀ V : ι → V3,
      0 ≤ ∑ i ∈ I, ∑ d, ∑ j ∈ I, ∑ e,
        comp (V i) d * massMatrix false Q μ ρ φ i d j e * comp (V j) e) := by
  refine ⟨fun i d j e => ?_, fun hρ hμ V => ?_⟩
  · simp only [massMatrix, massEntry, Bool.false_eq_true, if_false]
    exact Finset.sum_congr rfl fun q _ => by rw [dot_comm]
  · rw [C108_kinetic_partial]
    exact Finset.sum_nonneg fun q hq => mul_nonneg (mul_nonneg (hρ q hq) (dot_self_nonneg _)) (hμ q hq)

/-- **C108** (partial: not lumped) The entries of each component add up to the total mass, those of
different components to zero. -/
theorem C108_total_partial (I : Finset ι) (Q : Finset κ) (μ ρ : κ → ℝ) (φ : ι → κ → Shape)
    (h : ∀ q ∈ Q, ∑ i ∈ I, (φ i q).val = 1) (d e : Fin 3) :
    (∑ i ∈ I, ∑ j ∈ I, massMatrix false Q μ ρ φ i d j e)
      = if d = e then ∑ q ∈ Q, ρ q * μ q else 0 := by
  have hd : ∀ a b : ℝ, dot (vecFun d a) (vecFun e b) = if d = e then a * b else 0 := by
    intro a b
    rcases fin3_cases d with rfl | rfl | rfl <;> rcases fin3_cases e with rfl | rfl | rfl <;>
      simp [vecFun, dot]
  simp only [massMatrix, massEntry, Bool.false_eq_true, if_false, hd]
  rw [Finset.sum_congr rfl fun i _ => Finset.sum_comm, Finset.sum_comm]
  by_cases hde : d = e
  · simp only [hde, if_true]
    refine Finset.sum_congr rfl (fun q hq => ?_)
    have : ∀ i ∈ I, (∑ j ∈ I, ρ q * ((φ i q).val * (φ j q).val) * μ q)
        = (φ i q).val * (ρ q * μ q) := by
      intro i _
      have e1 : ∀ j ∈ I, ρ q * ((φ i q).val * (φ j q).val) * μ q
          = (φ j q).val * ((φ i q).val * (ρ q * μ q)) := fun j _ => by ring
      rw [Finset.sum_congr rfl e1, ← Finset.sum_mul, h q hq, one_mul]
    rw [Finset.sum_congr rfl this, ← Finset.sum_mul, h q hq, one_mul]
  · simp [hde]

/-- Non-vacuity: the triangle with mass per area 6 and area ½. -/
example : (∑ i : Fin 3, ∑ j : Fin 3, massMatrix false (Finset.univ : Finset Unit) (fun _ => 1 / 2)
    (fun _ => 6) (fun i _ => tri i) i 0 j 0) = 3 := by
  rw [C108_total_partial Finset.univ Finset.univ _ _ _ (fun _ _ => tri_unity.val)]
  simp; norm_num

/-- **C108** is violated by the lumped mass matrix: it is zero for every shell, so it loses the whole
mass. -/
theorem C108_lumped_violated (I : Finset ι) (Q : Finset κ) (μ ρ : κ → ℝ) (φ : ι → κ → Shape)
    (hm : 0 < ∑ q ∈ Q, ρ q * μ q) (d : Fin 3) :
    (∀ i d j e, massMatrix true Q μ ρ φ i d j e = 0) ∧
    (∑ i ∈ I, ∑ j ∈ I, massMatrix true Q μ ρ φ i d j d) ≠ ∑ q ∈ Q, ρ q * μ q := by
  refine ⟨fun i d j e => rfl, ?_⟩
  have : (∑ i ∈ I, ∑ j ∈ I, massMatrix true Q μ ρ φ i d j d) = 0 :=
    Finset.sum_eq_zero fun i _ => Finset.sum_eq_zero fun j _ => rfl
  rw [this]
  exact hm.ne

/-- Non-vacuity: mass per area 6 on an area of ½. -/
example : 0 < ∑ q ∈ (Finset.univ : Finset Unit), (fun _ : Unit => (6 : ℝ)) q * (fun _ => 1 / 2) q := by
  simp

/-! ## C109 -/

/-- **C109** The rows of a dead load (body force on the surface, traction on a boundary) add up to
its resultant. -/
theorem C109_force (I : Finset ι) (Q : Finset κ) (μ : κ → ℝ) (φ : ι → κ → Shape)
    (h : ∀ q ∈ Q, ∑ i ∈ I, (φ i q).val = 1) (f : κ → V3) :
    (vsum I fun i => loadRows Q μ (φ i) f) = vsum Q fun q => μ q • f q := by
  unfold loadRows
  rw [vsum_comm]
  refine vsum_congr (fun q hq => ?_)
  simp only [loadRow_eq]
  rw [← smul_vsum, vsum_smul, h q hq]
  ext <;> simp

/-- **C109** Their moments, acting at the control points of the reference shell, add up to the
moment of the load. -/
theorem C109_moment (I : Finset ι) (Q : Finset κ) (μ : κ → ℝ) (P : ι → V3) (φ : ι → κ → Shape)
    (f : κ → V3) :
    (vsum I fun i => cross (P i) (loadRows Q μ (φ i) f))
      = vsum Q fun q => μ q • cross (position I P fun i => φ i q) (f q) := by
  unfold loadRows position
  simp only [cross_vsum]
  rw [vsum_comm]
  refine vsum_congr (fun q _ => ?_)
  rw [vsum_cross, smul_vsum]
  refine vsum_congr (fun i _ => ?_)
  rw [loadRow_eq]
  ext <;> simp [cross] <;> ring

/-- Non-vacuity: the triangle under its weight. -/
example : (vsum Finset.univ fun i : Fin 3 => loadRows (Finset.univ : Finset Unit) (fun _ => 1 / 2)
    (fun _ => tri i) fun _ => ⟨0, 0, -6⟩).z = -3 := by
  rw [C109_force Finset.univ Finset.univ _ (fun i _ => tri i) (fun _ _ => tri_unity.val)]
  simp [vsum]; norm_num

/-- **C109** (partial: deformations that preserve the area) The rows of the pressure add up to the
pressure force on the deformed surface; they turn with the surface. -/
theorem C109_pressure_partial (I : Finset ι) (Q : Finset κ) (wt p : κ → ℝ) (ori s : κ → Surf)
    (φ : ι → κ → Shape) (h : ∀ q ∈ Q, ∑ i ∈ I, (φ i q).val = 1)
    (ha : ∀ q ∈ Q, areaOf (s q) = areaOf (ori q)) (R : Rotation) :
    (vsum I fun i => loadRows Q (fun q => wt q * areaOf (ori q)) (φ i)
      fun q => pressureLoad (p q) (s q))
      = (vsum Q fun q => (wt q * areaOf (s q)) • p q • unitNormal ((s q).a 0) ((s q).a 1)) ∧
    ∀ μ i, loadRows Q μ (φ i) (fun q => pressureLoad (p q) (R.move (s q)))
      = R.act (loadRows Q μ (φ i) fun q => pressureLoad (p q) (s q)) := by
  constructor
  · rw [C109_force I Q _ φ h]
    refine vsum_congr (fun q hq => ?_)
    rw [ha q hq]; rfl
  · intro μ i
    unfold loadRows
    rw [act_vsum]
    refine vsum_congr (fun q _ => ?_)
    simp only [loadRow_eq, pressureLoad, R.normal_move, act_smul]

/-- **C109** is violated by the pressure on a shell that changes its area: the load keeps the area
of the reference surface.  A unit square stretched to twice its size in both directions gets a
quarter of the pressure force. -/
theorem C109_pressure_violated :
    ∃ (ori s : Surf), areaOf ori = 1 ∧ areaOf s = 4 ∧ Indep (s.a 0) (s.a 1) ∧
      (vsum Finset.univ fun i : Fin 3 => loadRows (Finset.univ : Finset Unit)
        (fun _ => areaOf ori) (fun _ => tri i) fun _ => pressureLoad 1 s) = ⟨0, 0, 1⟩ ∧
      areaOf s • (1 : ℝ) • unitNormal (s.a 0) (s.a 1) = (⟨0, 0, 4⟩ : V3) := by
  let e : ℝ → Surf := fun c => ⟨fun i => if i = 0 then ⟨c, 0, 0⟩ else ⟨0, c, 0⟩, 0, 0, 0⟩
  have ha : ∀ c : ℝ, 0 < c → areaOf (e c) = c * c := by
    intro c hc
    have : dot (cross ((e c).a 0) ((e c).a 1)) (cross ((e c).a 0) ((e c).a 1)) = (c * c) ^ 2 := by
      simp [e, dot, cross]; ring
    unfold areaOf
    rw [this, Real.sqrt_sq (by positivity)]
  have hn : ∀ c : ℝ, 0 < c → unitNormal ((e c).a 0) ((e c).a 1) = ⟨0, 0, 1⟩ := by
    intro c hc
    have h1 := ha c hc
    unfold areaOf at h1
    unfold unitNormal
    rw [h1]
    ext
    · simp [e, cross]
    · simp [e, cross]
    · simp [e, cross]; field_simp
  have h1 : areaOf (e 1) = 1 := by rw [ha 1 one_pos]; norm_num
  have h2 : areaOf (e 2) = 4 := by rw [ha 2 two_pos]; norm_num
  refine ⟨e 1, e 2, h1, h2, ?_, ?_, ?_⟩
  · intro c d h
    have hx := congrArg V3.x h
    have hy := congrArg V3.y h
    simp [e] at hx hy
    exact ⟨hx, hy⟩
  · rw [C109_force Finset.univ Finset.univ _ (fun i _ => tri i) (fun _ _ => tri_unity.val)]
    have : normal (e 2) = ⟨0, 0, 1⟩ := hn 2 two_pos
    simp only [pressureLoad, this, h1]
    ext <;> simp [vsum]
  · rw [hn 2 two_pos, h2]
    ext <;> simp

end Verif.Balance
