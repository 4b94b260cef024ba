import Verif.Lemmas.JoinedShell
import Verif.Lemmas.LoadedShell
import Verif.Props.HyperShell

/-!
# C155: the nonlinear system of patches joined by penalties

Shells of several patches of linear material with weak C0 and weak C1 interfaces, as a whole: potential,
tangent, linear problem, Newton's method.
-/

namespace Verif.JoinedShell

open V3 Verif.Geometry Verif.Variation Verif.WeakForms Verif.Integrate Spec.JoinedShell Spec.Solve
open Verif.ShellSystem (Problem Law deformed VSmooth SSmooth deformed_zero fderiv_of_lines Constants linear
  linear_plain' sheet sheet_admissible sheet_constants)
open Verif.LoadedShell (ofEntries ofEntries_apply ofEntries_inj symmetric_of_conservative)
open Spec.ShellSystem (Solver)
open Filter Topology RealInnerProductSpace

variable {J κ ι : Type} [Fintype J]

section General

variable (P : Problem J κ) (G : Joins J ι) (r : Rule) (E ν t : κ → ℝ)

theorem residual_split (law : Law κ) (x : EuclideanSpace ℝ J) :
    residual P G law x = ShellSystem.residual P law x + WithLp.toLp 2 (joint G x) := by
  ext j
  exact add_assoc _ _ _

theorem entry_split (law : Law κ) (x : EuclideanSpace ℝ J) (j j' : J) :
    entry P G law x j j' = ShellSystem.entry P law x j j' + jointEntry G x j j' := by
  rw [entry, jointEntry, add_assoc]

theorem tangent_split (law : Law κ) (x : EuclideanSpace ℝ J) :
    tangent P G law x = ShellSystem.tangent P law x + ofEntries (jointEntry G x) := by
  ext v j
  rw [_root_.add_apply, PiLp.add_apply, tangent, ofEntries_apply, ofEntries_apply, ShellSystem.tangent_apply,
    ← Finset.sum_add_distrib]
  exact Finset.sum_congr rfl fun j' _ => by rw [entry_split]; ring

variable {P G} {x : EuclideanSpace ℝ J}

theorem joint_vec_smooth (hg : Signs G) (hx : x ∈ Spec.JoinedShell.Admissible P G) :
    ContDiffAt ℝ 2 (fun y => (WithLp.toLp 2 (joint G y) : EuclideanSpace ℝ J)) x :=
  (contDiffAt_euclidean (𝕜 := ℝ)).2 fun j => joint_smooth hg hx j

theorem residual_smooth (hg : Signs G) (hx : x ∈ Spec.JoinedShell.Admissible P G) :
    ContDiffAt ℝ 2 (residual P G (linear P r E ν t)) x := by
  have h := (ShellSystem.near P r E ν t hx.1).2.add (joint_vec_smooth hg hx)
  exact h.congr_of_eventuallyEq (Eventually.of_forall fun y => residual_split P G _ y)

theorem joint_deriv [DecidableEq J] (hg : Signs G) (hx : x ∈ Spec.JoinedShell.Admissible P G)
    (hu : ∀ q ∈ G.Q1, Unfolded G q (G.L.surf x q) (G.R.surf x q)) :
    HasFDerivAt (fun y => (WithLp.toLp 2 (joint G y) : EuclideanSpace ℝ J)) (-ofEntries (jointEntry G x)) x := by
  refine fderiv_of_lines ((joint_vec_smooth hg hx).differentiableAt (by norm_num)) fun j' => ?_
  have h : ∀ j, HasDerivAt (fun τ : ℝ => joint G (x + τ • EuclideanSpace.single j' (1 : ℝ)) j)
      ((-ofEntries (jointEntry G x)) (EuclideanSpace.single j' 1) j) 0 := fun j => by
    refine (joint_line hg hx hu j j').congr_deriv ?_
    simp [ofEntries_apply, PiLp.single_apply]
  rw [hasDerivAt_iff_hasFDerivAt, ← hasFDerivWithinAt_univ, hasFDerivWithinAt_euclidean]
  intro j
  rw [hasFDerivWithinAt_univ]
  refine (h j).hasFDerivAt.congr_fderiv ?_
  ext; simp

variable (P G)

/-! ## Potential -/

/-- **C155** The assembled residual of the joined shell is minus the gradient of the potential of the patches,
the springs of the joints and the loads, at all regular states. -/
theorem C155_gradient (hc : Constants P.Q E ν t) (hg : Signs G) {x : EuclideanSpace ℝ J}
    (hx : x ∈ Spec.JoinedShell.Admissible P G) :
    HasGradientAt (Spec.JoinedShell.potential P G E ν t) (-residual P G (linear P r E ν t) x) x := by
  classical
  have h1 := (ShellSystem.C149_gradient P r E ν t hc hx.1).hasFDerivAt
  have h2 : HasFDerivAt (springs G)
      (InnerProductSpace.toDual ℝ (EuclideanSpace ℝ J) (-(WithLp.toLp 2 (joint G x) : EuclideanSpace ℝ J))) x := by
    refine fderiv_of_lines ((springs_smooth hg hx).differentiableAt (by norm_num)) fun j =>
      (springs_line hg hx j).congr_deriv ?_
    simp [InnerProductSpace.toDual_apply_apply, EuclideanSpace.inner_single_right]
  have h := h1.add h2
  rw [← map_add, ← neg_add, ← residual_split] at h
  exact HasFDerivAt.congr_of_eventuallyEq h (Eventually.of_forall fun y => add_assoc _ _ _)

/-- **C155** (partial: states in which the angles between outer normals and normals at the weak C1 interfaces
are those of the undeformed shell, in particular all states if there are no weak C1 interfaces) The assembled
tangent is minus the derivative of the residual, and symmetric. -/
theorem C155_tangent_partial (hc : Constants P.Q E ν t) (hg : Signs G) {x : EuclideanSpace ℝ J}
    (hx : x ∈ Spec.JoinedShell.Admissible P G)
    (hu : ∀ q ∈ G.Q1, Unfolded G q (G.L.surf x q) (G.R.surf x q)) :
    HasFDerivAt (residual P G (linear P r E ν t)) (-tangent P G (linear P r E ν t) x) x ∧
    ∀ j j', entry P G (linear P r E ν t) x j j' = entry P G (linear P r E ν t) x j' j := by
  classical
  have h := (ShellSystem.C149_tangent P r E ν t hx.1).1.add (joint_deriv hg hx hu)
  rw [← neg_add, ← tangent_split] at h
  have hd : HasFDerivAt (residual P G (linear P r E ν t)) (-tangent P G (linear P r E ν t) x) x :=
    h.congr_of_eventuallyEq (Eventually.of_forall fun y => residual_split P G _ y)
  refine ⟨hd, fun j j' => symmetric_of_conservative hd
    ⟨Spec.JoinedShell.potential P G E ν t, ?_⟩ j j'⟩
  exact Filter.mem_of_superset (admissible_nhds hx) fun y hy => C155_gradient P G r E ν t hc hg hy

theorem rest_unfolded (hL : G.L.pre = G.L.ori) (hR : G.R.pre = G.R.ori) (q : ι) :
    Unfolded G q (G.L.surf 0 q) (G.R.surf 0 q) := by
  rw [surf_zero, surf_zero, hL, hR]
  exact ⟨rfl, rfl⟩

/-- **C155** Without prescribed displacements the undeformed state carries no forces, neither in the patches
nor in the joints, and the matrix of the linear problem is the tangent there, which is minus the derivative of
the residual. -/
theorem C155_linear (hp : P.pre = P.ori) (hL : G.L.pre = G.L.ori) (hR : G.R.pre = G.R.ori)
    (h0 : ∀ q ∈ G.Q0, G.gL q = 0 ∧ G.gR q = 0) :
    (∀ j, residual P G (linear P r E ν t) 0 j = P.F j) ∧
    (∀ j j', entry P G (linear P r E ν t) 0 j j' = linearEntry P G (linear P r E ν t) j j') ∧
    (Constants P.Q E ν t → Signs G → (0 : EuclideanSpace ℝ J) ∈ Spec.JoinedShell.Admissible P G →
      HasFDerivAt (residual P G (linear P r E ν t)) (-tangent P G (linear P r E ν t) 0) 0) := by
  have hsL : ∀ q, G.L.side 0 q = G.L.rest q := fun q => by rw [Edge.side, surf_zero, hL]; rfl
  have hsR : ∀ q, G.R.side 0 q = G.R.rest q := fun q => by rw [Edge.side, surf_zero, hR]; rfl
  refine ⟨fun j => ?_, fun j j' => ?_, fun hc hg hx =>
    (C155_tangent_partial P G r E ν t hc hg hx fun q _ => rest_unfolded G hL hR q).1⟩
  · show ShellSystem.residual P (linear P r E ν t) 0 j + _ + _ = _
    rw [(ShellSystem.C149_linear P r E ν t hp j j).1]
    have e0 : quad G.Q0 G.w0 (fun q => c0Vec3 (G.a0 q) (G.μ0 q) (disp (G.uL q) (G.gL q) 0)
        (disp (G.uR q) (G.gR q) 0) (G.uL q j) (G.uR q j)) = 0 := by
      refine Finset.sum_eq_zero fun q hq => ?_
      simp [disp, h0 q hq, c0Vec3, dotd]
    have e1 : quad G.Q1 G.w1 (c1Vec G 0 j) = 0 := by
      refine Finset.sum_eq_zero fun q _ => ?_
      simp only [c1Vec, hsL, hsR, c1VecOut, c1VecIn, dN, dnN]
      rw [dot_comm (G.R.rest q).n (G.L.rest q).n]; ring
    rw [e0, e1, add_zero, add_zero]
  · rw [entry, linearEntry, (ShellSystem.C149_linear P r E ν t hp j j').2]
    congr 1
    refine Finset.sum_congr rfl fun q _ => ?_
    have h := C73_reference (G.a1 q) (G.μ1 q) (G.L.rest q) (G.R.rest q) (G.L.field q j) (G.R.field q j)
      (G.L.field q j') (G.R.field q j')
    simp only [c1Mat, c1MatLin, hsL, hsR, h.1, h.2]
    ring

/-! ## Newton's method -/

/-- What the tangent lacks. -/
noncomputable def lack (x : EuclideanSpace ℝ J) : EuclideanSpace ℝ J →L[ℝ] EuclideanSpace ℝ J :=
  -fderiv ℝ (residual P G (linear P r E ν t)) x - tangent P G (linear P r E ν t) x

variable {P G} in
theorem lack_near (hg : Signs G) (hx : x ∈ Spec.JoinedShell.Admissible P G) :
    (∀ᶠ y in 𝓝 x, HasFDerivAt (residual P G (linear P r E ν t))
      (-(tangent P G (linear P r E ν t) y + lack P G r E ν t y)) y) ∧
    ContDiffAt ℝ 1 (lack P G r E ν t) x := by
  classical
  refine ⟨Filter.mem_of_superset (admissible_nhds hx) fun y hy => ?_, ?_⟩
  · have := ((residual_smooth r E ν t hg hy).differentiableAt (by norm_num)).hasFDerivAt
    refine this.congr_fderiv ?_
    rw [lack]; abel
  · have h1 := ((residual_smooth r E ν t hg hx).fderiv_right (m := 1) (by norm_num)).neg
    have h2 := ((ShellSystem.near P r E ν t hx.1).2.fderiv_right (m := 1) (by norm_num)).neg
    have h3 : ContDiffAt ℝ 1 (fun y => ofEntries (jointEntry G y)) x :=
      HyperShell.entries_smooth fun j j' => (jointEntry_smooth hg hx j j').of_le (by norm_num)
    refine (h1.sub (h2.add h3)).congr_of_eventuallyEq ((ShellSystem.near P r E ν t hx.1).1.mono fun y hy => ?_)
    show _ - tangent P G (linear P r E ν t) y = _ - (_ + _)
    rw [tangent_split, hy.fderiv, neg_neg]

variable {P G} in
theorem lack_unfolded (hc : Constants P.Q E ν t) (hg : Signs G) (hx : x ∈ Spec.JoinedShell.Admissible P G)
    (hu : ∀ q ∈ G.Q1, Unfolded G q (G.L.surf x q) (G.R.surf x q)) : lack P G r E ν t x = 0 := by
  rw [lack, (C155_tangent_partial P G r E ν t hc hg hx hu).1.fderiv]; abel

/-- **C155** (partial: equilibria in which the angles at the weak C1 interfaces are those of the undeformed
shell) Around such an equilibrium with a regular tangent there is a ball such that the programs, started with
a linear solution in this ball, stop by themselves with a solution that is right up to a constant times the
tolerance; if there are no weak C1 interfaces, up to a constant times the square of the tolerance. -/
theorem C155_newton_partial (hc : Constants P.Q E ν t) (hg : Signs G) {xs : EuclideanSpace ℝ J}
    (hx : xs ∈ Spec.JoinedShell.Admissible P G) (hu : ∀ q ∈ G.Q1, Unfolded G q (G.L.surf xs q) (G.R.surf xs q))
    (h0 : residual P G (linear P r E ν t) xs = 0)
    (hi : Function.Injective (tangent P G (linear P r E ν t) xs)) :
    ∃ ρ C : ℝ, 0 < ρ ∧ ∀ (s : Solve.Sys (EuclideanSpace ℝ J)) (solve : _ → EuclideanSpace ℝ J → EuclideanSpace ℝ J),
      Assembles s (residual P G (linear P r E ν t)) (tangent P G (linear P r E ν t))
        (Spec.JoinedShell.Admissible P G) →
      Solver solve → ‖solve s.K0 s.F - xs‖ ≤ ρ →
      ∃ res, Solve.program s solve = .ok res ∧ res.broke = true ∧ ‖res.x - xs‖ ≤ C * (1 / 10 ^ 6) ∧
        (G.Q1 = ∅ → ‖res.x - xs‖ ≤ C * (1 / 10 ^ 6) ^ 2) := by
  obtain ⟨hd, hs⟩ := lack_near r E ν t hg hx
  by_cases hQ : G.Q1 = ∅
  · have hd' : ∀ᶠ y in 𝓝 xs, HasFDerivAt (residual P G (linear P r E ν t)) (-tangent P G (linear P r E ν t) y) y :=
      Filter.mem_of_superset (admissible_nhds hx) fun y hy =>
        (C155_tangent_partial P G r E ν t hc hg hy (by simp [hQ])).1
    obtain ⟨ρ, C, hρ, h⟩ := Solve.local_newton (residual_smooth r E ν t hg hx) hd' hi h0 (admissible_nhds hx)
    refine ⟨ρ, |C|, hρ, fun s solve ha hsol hst => ?_⟩
    obtain ⟨res, e1, e2, e3⟩ := h s solve ha hsol hst
    have e4 : ‖res.x - xs‖ ≤ |C| * (1 / 10 ^ 6) ^ 2 :=
      e3.trans (mul_le_mul_of_nonneg_right (le_abs_self C) (by positivity))
    exact ⟨res, e1, e2, e4.trans (mul_le_mul_of_nonneg_left (by norm_num) (abs_nonneg C)), fun _ => e4⟩
  · obtain ⟨c, hcp, hanti⟩ := (tangent P G (linear P r E ν t) xs : EuclideanSpace ℝ J →ₗ[ℝ] EuclideanSpace ℝ J).exists_antilipschitzWith
      (LinearMap.ker_eq_bot.2 hi)
    have hb : ∀ v, ‖v‖ ≤ c * ‖tangent P G (linear P r E ν t) xs v‖ := fun v => by
      have := hanti.le_mul_dist v 0
      simpa [dist_eq_norm] using this
    obtain ⟨ρ, C, hρ, h⟩ := Solve.local_varying (residual_smooth r E ν t hg hx) hd hs.continuousAt h0
      (show (0 : ℝ) < c from hcp) hb (by rw [lack_unfolded r E ν t hc hg hx hu]; simp) (admissible_nhds hx)
    refine ⟨ρ, C, hρ, fun s solve ha hsol hst => ?_⟩
    obtain ⟨res, e1, e2, e3⟩ := h s solve ha hsol hst
    exact ⟨res, e1, e2, e3, fun h => absurd h hQ⟩

/-- **C155** For small loads on a joined shell whose linear problem is regular there is exactly one solution
close to the undeformed state; it differs from the linear solution by the square of the load, and the programs
stop by themselves, with an error that is at most a constant times the tolerance times load plus tolerance.
The folding of the joints makes the tangent inexact, but only by the order of the load. -/
theorem C155_small (hc : Constants P.Q E ν t) (hg : Signs G) (hp : P.pre = P.ori) (hL : G.L.pre = G.L.ori)
    (hR : G.R.pre = G.R.ori) (h0 : ∀ q ∈ G.Q0, G.gL q = 0 ∧ G.gR q = 0)
    (hx : (0 : EuclideanSpace ℝ J) ∈ Spec.JoinedShell.Admissible P G)
    (hi : ∀ v : EuclideanSpace ℝ J, (∀ j, ∑ j', linearEntry P G (linear P r E ν t) j j' * v j' = 0) → v = 0) :
    ∃ l₀ ρ C : ℝ, 0 < l₀ ∧ 0 < ρ ∧ ∀ l : ℝ, |l| ≤ l₀ →
      ∃ xs ∈ Spec.JoinedShell.Admissible P G, residual (P.scale l) G (linear P r E ν t) xs = 0 ∧
      (∀ x, ‖x‖ ≤ ρ → residual (P.scale l) G (linear P r E ν t) x = 0 → x = xs) ∧
      (∃ xl : EuclideanSpace ℝ J,
        (∀ j, ∑ j', linearEntry P G (linear P r E ν t) j j' * xl j' = l * P.F j) ∧ ‖xs - xl‖ ≤ C * l ^ 2) ∧
      ∀ (s : Solve.Sys (EuclideanSpace ℝ J)) (solve : _ → _ → EuclideanSpace ℝ J),
        Assembles s (residual (P.scale l) G (linear P r E ν t)) (tangent P G (linear P r E ν t))
          (Spec.JoinedShell.Admissible P G) →
        (∀ v j, s.K0 v j = ∑ j', linearEntry P G (linear P r E ν t) j j' * v j') →
        (∀ j, s.F j = l * P.F j) → Solver solve →
        ∃ res, Solve.program s solve = .ok res ∧ res.broke = true ∧
          ‖res.x - xs‖ ≤ C * (|l| + 1 / 10 ^ 6) * (1 / 10 ^ 6) := by
  classical
  let Fv : EuclideanSpace ℝ J := WithLp.toLp 2 P.F
  have hres : ∀ l x, residual (P.scale l) G (linear P r E ν t) x
      = residual (P.scale 0) G (linear P r E ν t) x + l • Fv := by
    intro l x
    ext j
    show ((∑ q ∈ P.Q, _) + l * P.F j) + _ + _ = (((∑ q ∈ P.Q, _) + 0 * P.F j) + _ + _) + l * P.F j
    rw [zero_mul, add_zero]
    have : ∀ a b c d : ℝ, a + b + c + d = a + c + d + b := fun a b c d => by ring
    exact this _ _ _ _
  have hlin : ∀ (v : EuclideanSpace ℝ J) j, (tangent P G (linear P r E ν t) 0 v) j
      = ∑ j', linearEntry P G (linear P r E ν t) j j' * v j' := by
    intro v j
    rw [tangent, ofEntries_apply]
    exact Finset.sum_congr rfl fun j' _ => by rw [(C155_linear P G r E ν t hp hL hR h0).2.1 j j']
  have hinj : Function.Injective (tangent P G (linear P r E ν t) 0) := by
    refine (injective_iff_map_eq_zero _).2 fun v hv => hi v fun j => ?_
    rw [← hlin, hv]; rfl
  obtain ⟨h1, h2⟩ := lack_near (P := P.scale 0) (G := G) r E ν t (x := 0) hg hx
  have h3 : lack (P.scale 0) G r E ν t 0 = 0 :=
    lack_unfolded (P := P.scale 0) r E ν t hc hg hx fun q _ => rest_unfolded G hL hR q
  have h4 : residual (P.scale 0) G (linear P r E ν t) 0 = 0 := by
    ext j
    have := (C155_linear (P.scale 0) G r E ν t hp hL hR h0).1 j
    rw [show residual (P.scale 0) G (linear P r E ν t) 0 j = (P.scale 0).F j from this]
    exact zero_mul _
  obtain ⟨xl, hxl⟩ : ∃ xl, tangent P G (linear P r E ν t) 0 xl = Fv :=
    (LinearMap.injective_iff_surjective (f := (tangent P G (linear P r E ν t) 0 :
      EuclideanSpace ℝ J →ₗ[ℝ] EuclideanSpace ℝ J))).1 hinj Fv
  obtain ⟨l₀, ρ, C, hl0, hρ, hall⟩ := Solve.small_inexact (R := residual (P.scale 0) G (linear P r E ν t))
    (K := tangent P G (linear P r E ν t)) (residual_smooth (P := P.scale 0) r E ν t hg hx) h1 h2 h3 hinj h4
    (admissible_nhds (P := P) hx) Fv xl hxl
  refine ⟨l₀, ρ, C, hl0, hρ, fun l hl => ?_⟩
  obtain ⟨xs, hxs, e1, e2, e3, e4⟩ := hall l hl
  refine ⟨xs, hxs, (hres l xs).trans e1, fun x hx h => e3 x hx ((hres l x).symm.trans h), ⟨l • xl, fun j => ?_, e2⟩,
    fun s solve ha hk hb hsol => ?_⟩
  · rw [← hlin, map_smul, hxl]; rfl
  · refine e4 s solve ⟨fun x hx => ?_, ha.jacobian⟩ hsol ?_ ?_
    · rw [ha.residual x hx]; exact congrArg some (hres l x)
    · ext v j
      rw [hk v j]; exact (hlin v j).symm
    · ext j
      rw [hb j]; rfl

end General

/-! ## A hinge -/

/-- Two patches that are flat when undeformed and folded about the interface by the prescribed displacements;
the first unknown tilts the left patch, the second shears the right one.  No C0 coupling. -/
noncomputable def hinge : Joins (Fin 2) Unit where
  Q0 := ∅
  w0 := fun _ => 1
  a0 := fun _ => 1
  μ0 := fun _ => 1
  uL := fun _ _ => 0
  uR := fun _ _ => 0
  gL := fun _ => 0
  gR := fun _ => 0
  Q1 := {()}
  w1 := fun _ => 1
  a1 := fun _ => 1
  μ1 := fun _ => 1
  L := ⟨fun _ => flatL, fun _ => flatL, fun _ => ![tiltL, still], fun _ => 1, fun _ => 1⟩
  R := ⟨fun _ => flatL, fun _ => foldR, fun _ => ![still, shearR], fun _ => 1, fun _ => -1⟩

theorem hinge_signs : Signs hinge := fun _ _ => ⟨.inl rfl, .inr rfl⟩

theorem hinge_left (q : Unit) : hinge.L.side 0 q = witL := by
  rw [Edge.side, surf_zero]; rfl

theorem hinge_right (q : Unit) : hinge.R.side 0 q = witR := by
  rw [Edge.side, surf_zero]; rfl

theorem hinge_regular (P : Problem (Fin 2) κ) (hx : (0 : EuclideanSpace ℝ (Fin 2)) ∈ Spec.ShellSystem.Admissible P) :
    (0 : EuclideanSpace ℝ (Fin 2)) ∈ Spec.JoinedShell.Admissible P hinge :=
  ⟨hx, fun q _ => by rw [surf_zero, surf_zero]; exact ⟨flatL_indep, foldR_indep⟩⟩

theorem flat_rest : (hinge.L.rest ()).n = ⟨0, 0, 1⟩ ∧ (hinge.R.rest ()).n = ⟨0, 0, 1⟩ ∧
    (hinge.L.rest ()).o = ⟨1, 0, 0⟩ ∧ (hinge.R.rest ()).o = ⟨-1, 0, 0⟩ := by
  refine ⟨flatL_normal, flatL_normal, ?_, ?_⟩
  · exact witL_o
  · show cross (normalized ((-1 : ℝ) • flatL.a 1)) (normal flatL) = _
    have : (-1 : ℝ) • flatL.a 1 = ⟨0, -1, 0⟩ := by ext <;> simp [flatL]
    rw [this, unit_ney, flatL_normal]
    ext <;> simp [cross]

/-- **C155** is violated for the tangent: whatever the shell, with the hinge the assembled tangent is not
symmetric and not minus the derivative of the residual. -/
theorem C155_tangent_violated (P : Problem (Fin 2) κ) (r : Rule) (E ν t : κ → ℝ) (hc : Constants P.Q E ν t)
    (hx : (0 : EuclideanSpace ℝ (Fin 2)) ∈ Spec.ShellSystem.Admissible P) :
    entry P hinge (linear P r E ν t) 0 0 1 ≠ entry P hinge (linear P r E ν t) 0 1 0 ∧
    ¬ HasFDerivAt (residual P hinge (linear P r E ν t)) (-tangent P hinge (linear P r E ν t) 0) 0 := by
  have hne : entry P hinge (linear P r E ν t) 0 0 1 ≠ entry P hinge (linear P r E ν t) 0 1 0 := by
    intro h
    rw [entry_split, entry_split, (ShellSystem.C149_tangent P r E ν t hx).2.1 0 1] at h
    have h' := add_left_cancel h
    have e : ∀ j j', jointEntry hinge 0 j j' = c1Mat hinge 0 j j' () := by
      intro j j'
      show quad ∅ _ _ + ∑ q ∈ {()}, (1 : ℝ) * _ = _
      simp [quad]
    rw [e, e, c1Mat, c1Mat, hinge_left, hinge_right, flat_rest.1, flat_rest.2.1, flat_rest.2.2.1, flat_rest.2.2.2] at h'
    have f : hinge.L.field () 0 = tiltL ∧ hinge.L.field () 1 = still ∧ hinge.R.field () 0 = still ∧
      hinge.R.field () 1 = shearR := ⟨rfl, rfl, rfl, rfl⟩
    rw [f.1, f.2.1, f.2.2.1, f.2.2.2] at h'
    simp only [c1MatOut1, c1MatOut2, c1MatIn1, c1MatIn2, dN, dnN, witL_n, witR_n, witL_o, witR_o, witL_n1_tilt,
      witL_n1_still, witR_n1_shear, witR_n1_still, witL_o1_tilt, witL_o1_still, witR_o1_shear, witR_o1_still,
      witL_n2.1, witL_n2.2, witR_n2.1, witR_n2.2, witL_o2_zero.1, witL_o2_zero.2, witR_o2_zero.1, witR_o2_zero.2,
      show hinge.a1 () = 1 from rfl, show hinge.μ1 () = 1 from rfl] at h'
    norm_num [dot] at h'
  refine ⟨hne, fun hd => hne ?_⟩
  refine symmetric_of_conservative hd ⟨Spec.JoinedShell.potential P hinge E ν t, ?_⟩ 0 1
  exact Filter.mem_of_superset (admissible_nhds (hinge_regular P hx)) fun y hy =>
    C155_gradient P hinge r E ν t hc hinge_signs hy

/-- Non-vacuity of `C155_gradient` and `C155_tangent_violated`: two patches folded by an angle, and a flat
sheet as the shell. -/
example : (0 : EuclideanSpace ℝ (Fin 2)) ∈ Spec.JoinedShell.Admissible
    (⟨{()}, fun _ => 1, fun _ => flatL, fun _ => flatL, fun _ => ![tiltL, still], fun _ => 0⟩ : Problem (Fin 2) Unit)
    hinge ∧ Signs hinge :=
  ⟨hinge_regular _ fun q _ => by rw [deformed_zero]; exact flatL_indep, hinge_signs⟩

/-! ## A seam -/

/-- The sheet of `Props/ShellSystem` with a joint: the unknown pulls the left side away from the right one and
tilts it. -/
noncomputable def seam : Joins Unit Unit where
  Q0 := {()}
  w0 := fun _ => 1
  a0 := fun _ => 1
  μ0 := fun _ => 1
  uL := fun _ _ => ![1, 0, 0]
  uR := fun _ _ => 0
  gL := fun _ => 0
  gR := fun _ => 0
  Q1 := {()}
  w1 := fun _ => 1
  a1 := fun _ => 1
  μ1 := fun _ => 1
  L := ⟨fun _ => flatL, fun _ => flatL, fun _ _ => tiltL, fun _ => 1, fun _ => 1⟩
  R := ⟨fun _ => foldR, fun _ => foldR, fun _ _ => still, fun _ => 1, fun _ => -1⟩

theorem seam_regular : (0 : EuclideanSpace ℝ Unit) ∈ Spec.JoinedShell.Admissible sheet seam :=
  ⟨sheet_admissible, fun q _ => by rw [surf_zero, surf_zero]; exact ⟨flatL_indep, foldR_indep⟩⟩

theorem seam_entry : 0 < linearEntry sheet seam (linear sheet ⟨1, fun _ => 0, fun _ => 2⟩ (fun _ => 1) (fun _ => 0)
    fun _ => 1) () () := by
  have h1 : ShellSystem.linearEntry sheet (linear sheet ⟨1, fun _ => 0, fun _ => 2⟩ (fun _ => 1) (fun _ => 0)
      fun _ => 1) () () = 1 := by
    rw [← (ShellSystem.C149_linear sheet _ _ _ _ rfl () ()).2, ShellSystem.sheet_entry]
  have h2 : quad seam.Q1 seam.w1 (c1MatLin seam () ()) = c1MatLin seam () () () := by
    show ∑ q ∈ {()}, (1 : ℝ) * _ = _
    simp
  have h3 : 0 ≤ c1MatLin seam () () () := (C73_linear 1 1 zero_le_one zero_le_one _ _ _ _ tiltL still).2
  have h4 : quad seam.Q0 seam.w0 (fun q => c0Mat (seam.a0 q) (seam.μ0 q) (seam.uL q ()) (seam.uR q ()) (seam.uL q ())
      (seam.uR q ())) = 1 := by
    simp [quad, seam, c0Mat, dotd, Fin.sum_univ_three]
  rw [linearEntry, h1, h2, h4]
  linarith

/-- Non-vacuity of `C155_tangent_partial`, `C155_linear`, `C155_newton_partial` and `C155_small`: the seam at rest
satisfies all hypotheses. -/
example : Constants sheet.Q (fun _ => 1) (fun _ => 0) (fun _ => 1) ∧ Signs seam ∧
    (0 : EuclideanSpace ℝ Unit) ∈ Spec.JoinedShell.Admissible sheet seam ∧
    (∀ q ∈ seam.Q1, Unfolded seam q (seam.L.surf 0 q) (seam.R.surf 0 q)) ∧
    residual sheet seam (linear sheet ⟨1, fun _ => 0, fun _ => 2⟩ (fun _ => 1) (fun _ => 0) fun _ => 1) 0 = 0 ∧
    Function.Injective (tangent sheet seam
      (linear sheet ⟨1, fun _ => 0, fun _ => 2⟩ (fun _ => 1) (fun _ => 0) fun _ => 1) 0) ∧
    ∀ v : EuclideanSpace ℝ Unit, (∀ j, ∑ j', linearEntry sheet seam
      (linear sheet ⟨1, fun _ => 0, fun _ => 2⟩ (fun _ => 1) (fun _ => 0) fun _ => 1) j j' * v j' = 0) → v = 0 := by
  have hlin := C155_linear sheet seam ⟨1, fun _ => 0, fun _ => 2⟩ (fun _ => 1) (fun _ => 0) (fun _ => 1) rfl rfl rfl
    fun _ _ => ⟨rfl, rfl⟩
  have hz : ∀ v : EuclideanSpace ℝ Unit, (∀ j, ∑ j', linearEntry sheet seam
      (linear sheet ⟨1, fun _ => 0, fun _ => 2⟩ (fun _ => 1) (fun _ => 0) fun _ => 1) j j' * v j' = 0) → v = 0 := by
    intro v hv
    have := hv ()
    rw [Fintype.sum_unique] at this
    ext j
    exact (mul_eq_zero.1 this).resolve_left seam_entry.ne'
  refine ⟨sheet_constants, fun _ _ => ⟨.inl rfl, .inr rfl⟩, seam_regular, fun q _ => rest_unfolded seam rfl rfl q, ?_,
    (injective_iff_map_eq_zero _).2 fun v hv => hz v fun j => ?_, hz⟩
  · ext j; exact hlin.1 j
  · have := congrArg (fun w : EuclideanSpace ℝ Unit => w j) hv
    rw [tangent] at this
    simp only [ofEntries_apply, hlin.2.1] at this
    exact this

end Verif.JoinedShell
