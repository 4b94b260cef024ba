import Verif.Props.BucklingProgram
import Verif.Lemmas.ModalProgram

/-! # Property C167: which solver applies under which load, and the first critical load -/

namespace Verif.BucklingProgram

open RealInnerProductSpace Spec.BucklingProgram

section Pencil

variable {V : Type} [NormedAddCommGroup V] [InnerProductSpace ℝ V] [FiniteDimensional ℝ V] {n : ℕ}
  {K0 Kd : V →L[ℝ] V} {vec : Fin n → V} {val : Fin n → ℝ}

/-- **C167** For symmetric matrices and a stiff structure Eigen's solver has something to return under every load;
Spectra's has exactly under the loads that stiffen every displacement. -/
theorem C167_exists (h0 : ∀ x y, ⟪K0 x, y⟫ = ⟪K0 y, x⟫) (hd : ∀ x y, ⟪Kd x, y⟫ = ⟪Kd y, x⟫) (hK : Stiff K0)
    (hn : Module.finrank ℝ V = n) (m : Fin n) :
    (∃ lam, Returns false K0 Kd m lam) ∧ ((∃ lam, Returns true K0 Kd m lam) ↔ Stiff Kd) := by
  refine ⟨?_, ?_, fun hs => ?_⟩
  · obtain ⟨vec, val, h⟩ := ModalProgram.exists_dense hd h0 hK hn
    exact ⟨val m, vec, val, by simpa using h, rfl⟩
  · rintro ⟨lam, vec, val, h, -⟩
    simp only [if_true] at h
    exact stiff_of h.dim h.orth
  · obtain ⟨vec, val, h⟩ := ModalProgram.exists_dense h0 hd hs hn
    have hp : ∀ i, 0 < val i := fun i => by
      have hv : vec i ≠ 0 := fun e => by
        have := h.orth i i
        rw [e] at this
        simp at this
      have := hK _ hv
      rw [h.pair, real_inner_smul_left, h.orth] at this
      simpa using this
    refine ⟨val m, vec, val, ?_, rfl⟩
    simp only [if_true]
    exact ⟨h.dim, h.pair, h.orth, fun i j hij => by
      rw [abs_of_pos (hp i), abs_of_pos (hp j)]
      exact h.sorted hij⟩

/-- **C167** Spectra's solver is called in the mode that needs a positive definite second matrix.  So under no load
that makes the stiff structure lose its stiffness at a positive factor is there anything that it promises to return. -/
theorem C167_compression (hK : Stiff K0) {s : ℝ} (hs : 0 < s) (hc : ¬Stable K0 Kd s) (m : Fin n) (lam : ℝ) :
    ¬Returns true K0 Kd m lam := by
  rintro ⟨vec, val, h, -⟩
  simp only [if_true] at h
  refine hc fun v hv => ?_
  have h1 := stiff_of h.dim h.orth v hv
  rw [inner_add_left, real_inner_smul_left]
  exact add_pos (hK v hv) (mul_pos hs h1)

/-- **C167** What can be read off the values of Eigen's solver: the first critical factor is minus the reciprocal of
the first value if that is negative, and otherwise the structure resists at every positive factor. -/
theorem C167_first (h : Dense Kd K0 vec val) (hn : 0 < n) :
    (val ⟨0, hn⟩ < 0 → Critical K0 Kd (-1 / val ⟨0, hn⟩) ∧
      ∀ s, 0 ≤ s → (Stable K0 Kd s ↔ s < -1 / val ⟨0, hn⟩)) ∧
    (0 ≤ val ⟨0, hn⟩ → ∀ s, 0 ≤ s → Stable K0 Kd s) := by
  have hle : ∀ i, val ⟨0, hn⟩ ≤ val i := fun i => h.sorted (Nat.zero_le _)
  refine ⟨fun hneg => ⟨(dense_critical h _).2 ⟨⟨0, hn⟩, ?_⟩, fun s hs => ?_⟩, fun hnn s hs => ?_⟩
  · rw [div_mul_cancel₀ _ hneg.ne]
    norm_num
  · have key : 0 < 1 + s * val ⟨0, hn⟩ ↔ s < -1 / val ⟨0, hn⟩ := by
      rw [lt_div_iff_of_neg hneg]
      constructor <;> intro g <;> linarith
    rw [dense_stable h, ← key]
    refine ⟨fun g => g _, fun g i => ?_⟩
    have := mul_le_mul_of_nonneg_left (hle i) hs
    linarith
  · refine (dense_stable h s).2 fun i => ?_
    have := mul_nonneg hs (hnn.trans (hle i))
    linarith

end Pencil

/-! ## A sheet under compression -/

open ShellSystem Spec.ShellSystem

/-- The displacement by minus one quarter. -/
noncomputable def push : EuclideanSpace ℝ Unit := WithLp.toLp 2 fun _ => -1 / 4

theorem sheet_pushed : push ∈ Admissible sheet := by
  intro q _
  refine indep_iff.2 ?_
  norm_num [deformed, sheet, Balance.vsum, Plate.flatS, V3.cross, V3.ext_iff, push]

theorem sheet_push {solve : (EuclideanSpace ℝ Unit →L[ℝ] EuclideanSpace ℝ Unit) → EuclideanSpace ℝ Unit → EuclideanSpace ℝ Unit}
    (hs : Solver solve) (v : EuclideanSpace ℝ Unit) :
    kdiff solve (tangent sheet sheetLaw 0) push (tangent sheet sheetLaw) v = (-21 / 32 : ℝ) • v := by
  have h1 : solve (tangent sheet sheetLaw 0) push = push := by
    have := hs (tangent sheet sheetLaw 0) (fun u w h => by simpa only [sheet_start] using h) push
    rwa [sheet_start] at this
  rw [kdiff, h1, sub_apply, sheet_start, sheet_stretched (x := push) sheet_pushed]
  have : push () = -1 / 4 := rfl
  rw [this]
  module

/-- **C167** The sheet that is pushed together with the load 1/4 loses its stiffness at 32/21 times the load.  With
Spectra nothing is promised, and without Spectra the program returns -21/32. -/
theorem C167_compression_violated
    {solve : (EuclideanSpace ℝ Unit →L[ℝ] EuclideanSpace ℝ Unit) → EuclideanSpace ℝ Unit → EuclideanSpace ℝ Unit}
    (hs : Solver solve) {K0 Kd : EuclideanSpace ℝ Unit →L[ℝ] EuclideanSpace ℝ Unit} (h0 : K0 = tangent sheet sheetLaw 0)
    (hd : Kd = kdiff solve K0 push (tangent sheet sheetLaw)) :
    (∀ s, Critical K0 Kd s ↔ s = 32 / 21) ∧ (∀ s, 0 ≤ s → (Stable K0 Kd s ↔ s < 32 / 21)) ∧
    (∀ lam, ¬Returns true K0 Kd (0 : Fin 1) lam) ∧
    ∀ lam, Returns false K0 Kd (0 : Fin 1) lam ↔ lam = -21 / 32 := by
  have hK : Stiff K0 := h0 ▸ sheet_stiff
  have a0 : ∀ v, K0 v = v := fun v => by rw [h0, sheet_start]
  have ad : ∀ v, Kd v = (-21 / 32 : ℝ) • v := fun v => by rw [hd, h0, sheet_push hs]
  have hD := line_dense a0 ad
  have hF := (C167_first hD Nat.one_pos).1 (by norm_num)
  have hst : ∀ s, 0 ≤ s → (Stable K0 Kd s ↔ s < 32 / 21) := fun s hs0 => by
    rw [hF.2 s hs0]; norm_num
  have r1 : Returns false K0 Kd (0 : Fin 1) (-21 / 32) := ⟨_, _, by simpa using hD, rfl⟩
  refine ⟨fun s => ?_, hst, fun lam => C167_compression hK (s := 2) (by norm_num)
    (fun g => absurd ((hst 2 (by norm_num)).1 g) (by norm_num)) 0 lam,
    fun lam => ⟨fun h => C167_unique hK h r1, fun h => h ▸ r1⟩⟩
  rw [(C167_dense_partial hD).1]
  constructor
  · rintro ⟨_, h⟩; linarith
  · rintro rfl; exact ⟨0, by norm_num⟩

/-- Non-vacuity: the pushed sheet has symmetric matrices, is stiff at the start and not stable at twice the load; the
first value is negative. -/
example (solve : (EuclideanSpace ℝ Unit →L[ℝ] EuclideanSpace ℝ Unit) → EuclideanSpace ℝ Unit → EuclideanSpace ℝ Unit)
    (hs : Solver solve) {K0 Kd : EuclideanSpace ℝ Unit →L[ℝ] EuclideanSpace ℝ Unit} (h0 : K0 = tangent sheet sheetLaw 0)
    (hd : Kd = kdiff solve K0 push (tangent sheet sheetLaw)) :
    (∀ x y, ⟪K0 x, y⟫ = ⟪K0 y, x⟫) ∧ (∀ x y, ⟪Kd x, y⟫ = ⟪Kd y, x⟫) ∧ Stiff K0 ∧ ¬Stable K0 Kd 2 ∧
    Dense Kd K0 (fun _ : Fin 1 => pull) fun _ => -21 / 32 := by
  have a0 : ∀ v, K0 v = v := fun v => by rw [h0, sheet_start]
  have ad : ∀ v, Kd v = (-21 / 32 : ℝ) • v := fun v => by rw [hd, h0, sheet_push hs]
  refine ⟨fun x y => ?_, fun x y => ?_, h0 ▸ sheet_stiff, fun g => ?_, line_dense a0 ad⟩
  · rw [a0, a0, real_inner_comm]
  · rw [ad, ad, real_inner_smul_left, real_inner_smul_left, real_inner_comm]
  · exact absurd (((C167_compression_violated hs h0 hd).2.1 2 (by norm_num)).1 g) (by norm_num)

end Verif.BucklingProgram
