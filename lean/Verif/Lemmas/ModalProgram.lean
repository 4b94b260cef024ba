import Verif.Spec.ModalProgram
import Verif.Lemmas.BucklingProgram
import Verif.Lemmas.LoadedShell
import Verif.Lemmas.System
import Verif.Lemmas.DWREigen
import Mathlib.Analysis.InnerProductSpace.Spectrum
import Mathlib.LinearAlgebra.BilinearForm.Properties

/-! # Helper lemmas: modes of a discretised shell -/

namespace Verif.ModalProgram

open V3 Verif.Geometry Verif.Variation Verif.DWR RealInnerProductSpace Spec.ModalProgram Spec.BucklingProgram
open Verif.Balance (vsum)
open Verif.BucklingProgram

/-! ## Pencils -/

/-- A vector with `n - 1` conditions. -/
theorem avoid {V : Type} [AddCommGroup V] [Module ℝ V] [FiniteDimensional ℝ V] {n : ℕ} (hd : Module.finrank ℝ V = n)
    (f g : Fin n → V →ₗ[ℝ] ℝ) (i : Fin n) : ∃ v : V, v ≠ 0 ∧ (∀ j, j < i → f j v = 0) ∧ ∀ j, i < j → g j v = 0 := by
  let Φ : V →ₗ[ℝ] (Fin n → ℝ) := LinearMap.pi fun j => if j < i then f j else if i < j then g j else 0
  have hn : ¬ Function.Injective Φ := by
    intro h
    obtain ⟨v, hv⟩ := (LinearMap.injective_iff_surjective_of_finrank_eq_finrank (by simp [hd])).1 h (Pi.single i 1)
    have := congrFun hv i
    simp [Φ] at this
  rw [injective_iff_map_eq_zero] at hn
  push Not at hn
  obtain ⟨v, h0, hv⟩ := hn
  refine ⟨v, hv, fun j hj => ?_, fun j hj => ?_⟩
  · have := congrFun h0 j
    simpa [Φ, hj] using this
  · have := congrFun h0 j
    simpa [Φ, hj, not_lt.2 hj.le] using this

section Pencil

variable {V W : Type} [NormedAddCommGroup V] [InnerProductSpace ℝ V] [NormedAddCommGroup W] [InnerProductSpace ℝ W]
  {n N : ℕ} {A B : V →L[ℝ] V} {A' B' : W →L[ℝ] W} {vec : Fin n → V} {val : Fin n → ℝ} {vec' : Fin N → W}
  {val' : Fin N → ℝ}

/-- `v ↦ ⟪B v, w⟫`. -/
noncomputable def against (B : V →L[ℝ] V) (w : V) : V →ₗ[ℝ] ℝ where
  toFun v := ⟪B v, w⟫
  map_add' u v := by simp [inner_add_left]
  map_smul' c v := by simp [inner_smul_left]

theorem vec_ne (ho : ∀ i j, ⟪B (vec i), vec j⟫ = if i = j then (1 : ℝ) else 0) (i : Fin n) : vec i ≠ 0 := fun h0 => by
  have := ho i i
  rw [h0] at this
  simp at this

variable [FiniteDimensional ℝ V]

theorem low_bound (h : Dense A B vec val) {v : V} {i : Fin n} (hv : ∀ j, j < i → ⟪B v, vec j⟫ = 0) :
    val i * ⟪B v, v⟫ ≤ ⟪A v, v⟫ := by
  rw [form_A h.dim h.pair h.orth, form_B h.dim h.orth, Finset.mul_sum]
  refine Finset.sum_le_sum fun j _ => ?_
  rcases lt_or_ge j i with g | g
  · rw [hv j g]; simp
  · exact mul_le_mul_of_nonneg_right (h.sorted g) (sq_nonneg _)

theorem high_bound (h : Dense A B vec val) {v : V} {i : Fin n} (hv : ∀ j, i < j → ⟪B v, vec j⟫ = 0) :
    ⟪A v, v⟫ ≤ val i * ⟪B v, v⟫ := by
  rw [form_A h.dim h.pair h.orth, form_B h.dim h.orth, Finset.mul_sum]
  refine Finset.sum_le_sum fun j _ => ?_
  rcases lt_or_ge i j with g | g
  · rw [hv j g]; simp
  · exact mul_le_mul_of_nonneg_right (h.sorted g) (sq_nonneg _)

/-- More fields, lower values. -/
theorem nested_le [FiniteDimensional ℝ W] (h : Dense A B vec val) (h' : Dense A' B' vec' val') (J : V →ₗ[ℝ] W)
    (hA : ∀ v, ⟪A' (J v), J v⟫ = ⟪A v, v⟫) (hB : ∀ v, ⟪B' (J v), J v⟫ = ⟪B v, v⟫) {i : Fin n} {i' : Fin N}
    (hi : i'.val = i.val) : val' i' ≤ val i := by
  obtain ⟨v, hv, h1, h2⟩ := avoid h.dim
    (fun j => if hj : j.val < N then (against B' (vec' ⟨j.val, hj⟩)).comp J else 0) (fun j => against B (vec j)) i
  have l1 := low_bound h' (v := J v) (i := i') fun j hj => by
    have hj' : j.val < i.val := hi ▸ hj
    have := h1 ⟨j.val, hj'.trans i.isLt⟩ hj'
    simpa [against] using this
  have l2 := high_bound h (v := v) (i := i) h2
  rw [hA, hB] at l1
  exact le_of_mul_le_mul_right (l1.trans l2) (stiff_of h.dim h.orth v hv)

theorem min_max (h : Dense A B vec val) (i : Fin n) : MinMax (fun v => ⟪A v, v⟫) (fun v => ⟪B v, v⟫) i.val (val i) := by
  have hli : LinearIndependent ℝ vec := by
    rw [Fintype.linearIndependent_iff]
    intro g hg j
    have := congrArg (fun w => ⟪B w, vec j⟫) hg
    simpa [sum_inner, inner_smul_left, h.orth] using this
  let f : Fin (i.val + 1) → V := fun j => vec (Fin.castLE i.isLt j)
  refine ⟨⟨Submodule.span ℝ (Set.range f), ?_, fun v hv => high_bound h fun j hj => ?_⟩, fun S hS => ?_⟩
  · have hf : LinearIndependent ℝ f := hli.comp _ (Fin.castLE_injective _)
    rw [finrank_span_eq_card hf]
    simp
  · induction hv using Submodule.span_induction with
    | mem x hx =>
      obtain ⟨k, rfl⟩ := hx
      rw [h.orth, if_neg]
      intro e
      have := congrArg Fin.val e
      simp only [Fin.val_castLE] at this
      have : i.val < j.val := hj
      have := k.isLt
      omega
    | zero => simp
    | add x y _ _ hx hy => rw [map_add, inner_add_left, hx, hy, add_zero]
    | smul c x _ hx => rw [map_smul, real_inner_smul_left, hx, mul_zero]
  · let Φ : S →ₗ[ℝ] (Fin i.val → ℝ) :=
      (LinearMap.pi fun j => against B (vec (Fin.castLE i.isLt.le j))).comp S.subtype
    have hk : LinearMap.ker Φ ≠ ⊥ := LinearMap.ker_ne_bot_of_finrank_lt (by simp [hS])
    obtain ⟨v, hv, h0⟩ := (Submodule.ne_bot_iff _).1 hk
    refine ⟨v, v.2, fun e => h0 (Subtype.ext e), low_bound h fun j hj => ?_⟩
    exact congrFun (LinearMap.mem_ker.1 hv) ⟨j.val, hj⟩

theorem min_max_unique {X : Type} [AddCommGroup X] [Module ℝ X] {a b : X → ℝ} {i : ℕ} {l l' : ℝ}
    (hb : ∀ v, v ≠ 0 → 0 < b v) (h : MinMax a b i l) (h' : MinMax a b i l') : l = l' := by
  have key : ∀ {l l' : ℝ}, MinMax a b i l → MinMax a b i l' → l ≤ l' := by
    rintro l l' h ⟨⟨S, hS, h1⟩, -⟩
    obtain ⟨v, hv, h0, h2⟩ := h.2 S hS
    exact le_of_mul_le_mul_right (h2.trans (h1 v hv)) (hb v h0)
  exact le_antisymm (key h h') (key h' h)

theorem dense_positive (h : Dense A B vec val) : (∀ i, 0 < val i) ↔ Stiff A := by
  constructor
  · intro hp v hv
    rw [form_A h.dim h.pair h.orth]
    refine (Finset.sum_nonneg fun j _ => mul_nonneg (hp j).le (sq_nonneg _)).lt_of_ne' fun h0 => hv ?_
    rw [Finset.sum_eq_zero_iff_of_nonneg fun j _ => mul_nonneg (hp j).le (sq_nonneg _)] at h0
    refine coords_zero h.dim h.orth fun j => ?_
    simpa using (mul_eq_zero.1 (h0 j (Finset.mem_univ j))).resolve_left (hp j).ne'
  · intro hA i
    have := hA _ (vec_ne h.orth i)
    rw [h.pair, real_inner_smul_left, h.orth] at this
    simpa using this

omit [FiniteDimensional ℝ V] in
theorem shifted_is_dense (h : Shifted A B vec val) (hA : Stiff A) : Dense A B vec val :=
  ⟨h.dim, h.pair, h.orth, fun i j hij => by
    have := h.sorted i j hij
    rwa [abs_of_pos (shifted_pos h hA i), abs_of_pos (shifted_pos h hA j)] at this⟩

end Pencil

/-- The spectral theorem for two forms. -/
theorem exists_pairs {X : Type} [AddCommGroup X] [Module ℝ X] [FiniteDimensional ℝ X] (a b : X →ₗ[ℝ] X →ₗ[ℝ] ℝ)
    (ha : ∀ x y, a x y = a y x) (hb : ∀ x y, b x y = b y x) (hp : ∀ x, x ≠ 0 → 0 < b x x) {n : ℕ}
    (hn : Module.finrank ℝ X = n) : ∃ (vec : Fin n → X) (val : Fin n → ℝ),
      (∀ i y, a (vec i) y = val i * b (vec i) y) ∧ (∀ i j, b (vec i) (vec j) = if i = j then 1 else 0) ∧
      Monotone val := by
  let core : InnerProductSpace.Core ℝ X :=
    { inner := fun x y => b x y
      conj_inner_symm := fun x y => hb y x
      re_inner_nonneg := fun x => by
        by_cases h : x = 0
        · simp [h]
        · exact (hp x h).le
      add_left := fun x y z => by simp
      smul_left := fun x y c => by simp
      definite := fun x h => by_contra fun h0 => (hp x h0).ne' h }
  let _ : NormedAddCommGroup X := core.toNormedAddCommGroup
  let _ : InnerProductSpace ℝ X := InnerProductSpace.ofCore core.toCore
  have hin : ∀ x y : X, ⟪x, y⟫ = b x y := fun _ _ => rfl
  let T : X →ₗ[ℝ] X :=
    { toFun := fun x => (InnerProductSpace.toDual ℝ X).symm (LinearMap.toContinuousLinearMap (a x))
      map_add' := fun x y => by simp
      map_smul' := fun c x => by simp }
  have hT : ∀ x y, ⟪T x, y⟫ = a x y := fun x y => by simp [T]
  have hs : T.IsSymmetric := fun x y => by rw [hT, ha, ← hT, real_inner_comm]
  refine ⟨fun i => hs.eigenvectorBasis hn (Fin.rev i), fun i => hs.eigenvalues hn (Fin.rev i), fun i y => ?_,
    fun i j => ?_, fun i j hij => hs.eigenvalues_antitone hn (Fin.rev_le_rev.2 hij)⟩
  · rw [← hT, hs.apply_eigenvectorBasis, ← hin, inner_smul_left]
    simp
  · rw [← hin, orthonormal_iff_ite.1 (hs.eigenvectorBasis hn).orthonormal]
    simp [Fin.rev_inj]

theorem exists_dense {V : Type} [NormedAddCommGroup V] [InnerProductSpace ℝ V] [FiniteDimensional ℝ V]
    {A B : V →L[ℝ] V} (hA : ∀ x y, ⟪A x, y⟫ = ⟪A y, x⟫) (hB : ∀ x y, ⟪B x, y⟫ = ⟪B y, x⟫) (hp : Stiff B) {n : ℕ}
    (hn : Module.finrank ℝ V = n) : ∃ (vec : Fin n → V) (val : Fin n → ℝ), Dense A B vec val := by
  obtain ⟨vec, val, h1, h2, h3⟩ := exists_pairs ((innerₗ V).comp A.toLinearMap) ((innerₗ V).comp B.toLinearMap)
    hA hB hp hn
  refine ⟨vec, val, hn, fun i => ext_inner_right ℝ fun w => ?_, h2, h3⟩
  rw [real_inner_smul_left]
  exact h1 i w

/-! ## Fields of coefficients -/

section Fields

variable {α : Type} {n N : ℕ} {D : EigSetup α}

/-- Part of a combination. -/
noncomputable def part {J : Type} (I : Finset J) (c : J → ℝ) (u : J → Surf) : Surf :=
  ⟨fun k => vsum I fun i => c i • (u i).a k, vsum I fun i => c i • (u i).d11, vsum I fun i => c i • (u i).d22,
    vsum I fun i => c i • (u i).d12⟩

theorem force_part {J : Type} (I : Finset J) (c : J → ℝ) (u : J → Surf) (s : Surf) (F M : Voigt) :
    internalForce s (part I c u) F M = ∑ i ∈ I, c i * internalForce s (u i) F M := by
  classical
  induction I using Finset.induction_on with
  | empty =>
    have e : part ∅ c u = fieldSmul 0 s := by
      unfold part fieldSmul
      congr 1
      · funext k; ext <;> simp [vsum]
      all_goals ext <;> simp [vsum]
    rw [e, Balance.force_smul]; simp
  | insert i I hi ih =>
    have e : part (insert i I) c u = fieldAdd (fieldSmul (c i) (u i)) (part I c u) := by
      unfold part fieldAdd fieldSmul
      congr 1
      · funext k; ext <;> simp [vsum, Finset.sum_insert hi]
      all_goals ext <;> simp [vsum, Finset.sum_insert hi]
    rw [e, Balance.force_add, Balance.force_smul, ih, Finset.sum_insert hi]

theorem lin_part_left {J : Type} [Fintype J] (c : J → ℝ) (u : J → Surf) (s v : Surf) (A B C D : T3) :
    linStiffness s (part Finset.univ c u) v A B C D = ∑ i, c i * linStiffness s (u i) v A B C D := by
  have h := fun w => System.lin_left s w v ⟨A, B, C, D, 0, 0⟩
  simp only at h
  rw [h, force_part, ← Finset.sum_neg_distrib]
  exact Finset.sum_congr rfl fun i _ => by rw [h]; ring

theorem lin_part_right {J : Type} [Fintype J] (c : J → ℝ) (u : J → Surf) (s v : Surf) (A B C D : T3) :
    linStiffness s v (part Finset.univ c u) A B C D = ∑ i, c i * linStiffness s v (u i) A B C D := by
  have h := fun w => System.lin_right s v w ⟨A, B, C, D, 0, 0⟩
  simp only at h
  rw [h, force_part, ← Finset.sum_neg_distrib]
  exact Finset.sum_congr rfl fun i _ => by rw [h]; ring

theorem integral_eq (f : α → ℝ) : integral D f = eigTotal D f := by
  rw [integral, sum_flatten, eigTotal]
  congr 1
  exact List.map_congr_left fun q _ => by rw [measure_area]; ring

theorem total_sum {J : Type} [Fintype J] (c : J → ℝ) (f : J → α → ℝ) :
    eigTotal D (fun q => ∑ i, c i * f i q) = ∑ i, c i * eigTotal D (f i) := by
  unfold eigTotal
  induction D.elems.flatten with
  | nil => simp
  | cons q l ih =>
    simp only [List.map_cons, List.sum_cons, ih, mul_add, Finset.sum_add_distrib]
    congr 1
    rw [Finset.mul_sum, Finset.sum_mul]
    exact Finset.sum_congr rfl fun i _ => by ring

theorem formA_left (φ : Fin n → α → EigFld) (c : EuclideanSpace ℝ (Fin n)) (u : α → EigFld) :
    formA D (comb φ c) u = ∑ i, c i * formA D (φ i) u := by
  rw [formA]
  simp only [formA]
  rw [← total_sum]
  congr 1
  funext q
  exact lin_part_left (fun i => c i) (fun i => (φ i q).d) _ _ _ _ _ _

theorem formA_right (φ : Fin n → α → EigFld) (c : EuclideanSpace ℝ (Fin n)) (u : α → EigFld) :
    formA D u (comb φ c) = ∑ i, c i * formA D u (φ i) := by
  rw [formA]
  simp only [formA]
  rw [← total_sum]
  congr 1
  funext q
  exact lin_part_right (fun i => c i) (fun i => (φ i q).d) _ _ _ _ _ _

theorem formM_right (φ : Fin n → α → EigFld) (c : EuclideanSpace ℝ (Fin n)) (u : α → EigFld) :
    formM D u (comb φ c) = ∑ i, c i * formM D u (φ i) := by
  rw [formM]
  simp only [formM]
  rw [← total_sum]
  congr 1
  funext q
  simp only [comb, vsum, smul_x, smul_y, smul_z, Finset.mul_sum, ← Finset.sum_add_distrib]
  exact Finset.sum_congr rfl fun i _ => by ring

theorem formM_symm (u v : α → EigFld) : formM D u v = formM D v u := by
  rw [formM, formM]
  congr 1
  funext q
  ring

theorem formM_left (φ : Fin n → α → EigFld) (c : EuclideanSpace ℝ (Fin n)) (u : α → EigFld) :
    formM D (comb φ c) u = ∑ i, c i * formM D (φ i) u := by
  rw [formM_symm, formM_right]
  exact Finset.sum_congr rfl fun i _ => by rw [formM_symm]

theorem stiff_form (φ : Fin n → α → EigFld) (c d : EuclideanSpace ℝ (Fin n)) :
    ⟪stiff D φ c, d⟫ = formA D (comb φ d) (comb φ c) := by
  rw [formA_left]
  simp only [formA_right, PiLp.inner_apply, stiff, LoadedShell.ofEntries_apply, integral_eq]
  refine Finset.sum_congr rfl fun i _ => ?_
  simp only [RCLike.inner_apply, conj_trivial, Finset.mul_sum]
  exact Finset.sum_congr rfl fun j _ => by rw [formA]; ring

theorem mass_form (φ : Fin n → α → EigFld) (c d : EuclideanSpace ℝ (Fin n)) :
    ⟪mass D φ c, d⟫ = formM D (comb φ d) (comb φ c) := by
  rw [formM_left]
  simp only [formM_right, PiLp.inner_apply, mass, LoadedShell.ofEntries_apply, integral_eq]
  refine Finset.sum_congr rfl fun i _ => ?_
  simp only [RCLike.inner_apply, conj_trivial, Finset.mul_sum]
  exact Finset.sum_congr rfl fun j _ => by simp only [formM, dot]; ring

theorem vsum_comb {J : Type} [Fintype J] {x : J → V3} (c : Fin n → ℝ) (d : Fin n → J → ℝ) :
    (vsum Finset.univ fun k => c k • vsum Finset.univ fun i => d k i • x i)
      = vsum Finset.univ fun i => (∑ k, c k * d k i) • x i := by
  ext <;>
  · simp only [vsum, smul_x, smul_y, smul_z, Finset.mul_sum, Finset.sum_mul]
    rw [Finset.sum_comm]
    exact Finset.sum_congr rfl fun i _ => Finset.sum_congr rfl fun k _ => by ring

/-- Coefficients in the finer basis. -/
theorem nested_map {ψ : Fin n → α → EigFld} {φ : Fin N → α → EigFld} (h : Nested ψ φ) :
    ∃ J : EuclideanSpace ℝ (Fin n) →ₗ[ℝ] EuclideanSpace ℝ (Fin N), ∀ c, comb ψ c = comb φ (J c) := by
  choose d hd using h
  refine ⟨{ toFun := fun c => WithLp.toLp 2 fun i => ∑ k, c k * d k i, map_add' := ?_, map_smul' := ?_ }, fun c => ?_⟩
  · intro x y; ext i; simp [add_mul, Finset.sum_add_distrib]
  · intro t x; ext i; simp [Finset.mul_sum, mul_assoc]
  · funext q
    unfold comb
    simp only [hd, comb, vsum_comb]
    rfl

theorem comb_smul (φ : Fin n → α → EigFld) (t : ℝ) (c : EuclideanSpace ℝ (Fin n)) (u : α → EigFld) :
    formM D (comb φ (t • c)) u = t * formM D (comb φ c) u := by
  rw [formM_left, formM_left, Finset.mul_sum]
  exact Finset.sum_congr rfl fun i _ => by simp [mul_assoc]

end Fields

end Verif.ModalProgram
