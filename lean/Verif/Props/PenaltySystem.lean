import Verif.Lemmas.PenaltySystem
import Verif.Props.System

/-!
# C147: linear systems with weak conditions

With weakly clamped sides and weakly coupled interfaces alone the system is semi-definite, is uniquely
solvable exactly if no strain-free displacement meets the conditions, and its solutions tend to the
solution with exact conditions like one over the options.  Weak Dirichlet conditions have the wrong
sign: only for large options does the same hold, some option makes a solvable system singular, and a
shell held by them alone has an indefinite matrix.
-/

namespace Verif.PenaltySystem

open V3 Verif.Geometry Verif.Variation Verif.Balance Verif.WeakForms Verif.System
open Verif.Spec.System Verif.Spec.PenaltySystem

variable {ι κ : Type} [Fintype ι]

section Shell

variable {Q : Finset κ} {μ : κ → ℝ} {s : κ → Surf} {φ : κ → ι → Shape} {S : κ → Section}
  (hμ : ∀ q ∈ Q, 0 < μ q) (hs : ∀ q ∈ Q, Indep ((s q).a 0) ((s q).a 1))
  (hS : ∀ q ∈ Q, Definite (S q)) {W : Weak ι κ} (hW : Proper W) (free : ι × Fin 3 → Prop)

include hμ hs hS hW

/-- **C147** Without weak Dirichlet conditions the matrix is symmetric and semi-definite, the form
vanishes exactly for strain-free displacements that meet the conditions, and the system has exactly one
solution for every load iff none of these but zero uses only free degrees of freedom. -/
theorem C147_coupling (o : Options) (ho : Positive o) (hD : W.dir.Q = ∅) :
    (∀ p p', systemMatrix (matrix true Q μ s φ S) o W p p'
      = systemMatrix (matrix true Q μ s φ S) o W p' p) ∧
    (∀ x, 0 ≤ form (systemMatrix (matrix true Q μ s φ S) o W) x) ∧
    (∀ x, form (systemMatrix (matrix true Q μ s φ S) o W) x = 0 ↔
      StrainFree Q s φ x ∧ Coupled W x) ∧
    (WellPosed (systemMatrix (matrix true Q μ s φ S) o W) free ↔
      ∀ x, Supported free x → StrainFree Q s φ x → Coupled W x → x = 0) := by
  have e : systemMatrix (matrix true Q μ s φ S) o W
      = fun p p' => matrix true Q μ s φ S p p' + couple o W p p' := by
    rw [system_eq]; funext p p'; simp [held, squares, hD]
  rw [e]
  have hz : ∀ x, form (fun p p' => matrix true Q μ s φ S p p' + couple o W p p') x = 0 ↔
      StrainFree Q s φ x ∧ Coupled W x := fun x => by
    rw [← bil_form]
    constructor
    · intro h
      by_contra hc
      exact (base_pos hμ hs hS hW ho.2.1 ho.2.2 x hc).ne' h
    · exact fun h => base_zero hμ hs hS hW ho.2.1 ho.2.2 x h x
  refine ⟨fun p p' => by
      show _ + _ = _ + _
      rw [elastic_symm hS, couple_symm], fun x => ?_, hz, ?_⟩
  · rw [← bil_form, bil_sum]
    exact add_nonneg (elastic_nonneg hμ hS x) (couple_nonneg hW ho.2.1 ho.2.2 x)
  · rw [wellPosed_bil]
    constructor
    · exact fun h x hx h1 h2 => h x hx fun v _ => base_zero hμ hs hS hW ho.2.1 ho.2.2 x ⟨h1, h2⟩ v
    · intro h x hx hv
      have := (hz x).1 (by rw [← bil_form]; exact hv x hx)
      exact h x hx this.1 this.2

/-- **C147** If the system has exactly one solution, there is exactly one solution of the problem with
exact conditions, and the solution of the system with all options times `τ` differs from it by at most
`C / τ`. -/
theorem C147_limit (o : Options) (ho : Positive o) (hD : W.dir.Q = ∅)
    (hu : ∀ x, Supported free x → StrainFree Q s φ x → Coupled W x → x = 0)
    (F : ι × Fin 3 → ℝ) :
    ∃ u, Constrained (matrix true Q μ s φ S) free F (Coupled W) (Coupled W) u ∧
      (∀ w, Constrained (matrix true Q μ s φ S) free F (Coupled W) (Coupled W) w → w = u) ∧
      ∃ C τ₀ : ℝ, 0 < τ₀ ∧ ∀ τ, τ₀ ≤ τ →
        WellPosed (systemMatrix (matrix true Q μ s φ S) (o.scale τ) W) free ∧
        ∀ x, Solves (systemMatrix (matrix true Q μ s φ S) (o.scale τ) W) free
          (systemRhs F (o.scale τ) W) x → ∀ p, |x p - u p| ≤ C / τ := by
  have zc : ∀ x, bil (couple o W) x x = 0 ↔ Coupled W x := couple_zero hW ho.2.1 ho.2.2
  obtain ⟨τ₀, h0, hwp, h⟩ := core (matrix true Q μ s φ S) (couple o W) free (couple_symm o W)
    (couple_nonneg hW ho.2.1 ho.2.2) (fun n hn hc hne =>
      lt_of_le_of_ne (elastic_nonneg hμ hS n) fun he =>
        hne (hu n hn ((elastic_zero hμ hs hS n).1 he.symm) ((zc n).1 hc)))
  obtain ⟨u, hu1, hu2, hu3, hu4, C, hC⟩ := h F 0 (fun _ _ => rfl)
  rw [sub_zero] at hu2
  have e : ∀ τ, systemMatrix (matrix true Q μ s φ S) (o.scale τ) W
      = fun p p' => matrix true Q μ s φ S p p' + τ * couple o W p p' := by
    intro τ
    rw [system_eq]; funext p p'
    simp only [held, squares, hD, Finset.sum_empty, couple, clampMatrix_eq, jointMatrix_eq,
      hingeMatrix_eq, Options.scale]
    ring
  refine ⟨u, ⟨hu1, (zc u).1 hu2, fun v hv hc => hu3 v hv ((zc v).2 hc)⟩, ?_, C, τ₀, h0, ?_⟩
  · rintro w ⟨hw1, hw2, hw3⟩
    refine hu4 w hw1 ?_ fun v hv hc => hw3 v hv ((zc v).1 hc)
    rw [sub_zero]; exact (zc w).2 hw2
  · intro τ hτ
    have ha : |τ| = τ := abs_of_pos (h0.trans_le hτ)
    rw [e]
    refine ⟨hwp τ (by rwa [ha]), fun x hx p => ?_⟩
    have hx' := (solves_iff _ _ _ _).1 hx
    have := hC τ (by rwa [ha]) x hx'.1 (fun v hv => by
      have h1 := hx'.2 v hv
      rw [bil_add] at h1
      rw [h1]
      have hr : systemRhs F (o.scale τ) W = F := by
        funext p; simp [systemRhs, dirRhs, WeakForms.quad, hD]
      rw [hr]; simp) p
    rwa [ha] at this

omit hμ hs hS in
/-- **C147** A solution of the system meets the conditions exactly iff it solves the system without them: unless no
reaction acts at the interfaces and sides, the solution for any options has a jump, a kink or a tilt. -/
theorem C147_exact (o : Options) (ho : Positive o) (hD : W.dir.Q = ∅) (F x : ι × Fin 3 → ℝ)
    (hx : Solves (systemMatrix (matrix true Q μ s φ S) o W) free (systemRhs F o W) x) :
    Coupled W x ↔ Solves (matrix true Q μ s φ S) free F x := by
  have e : systemMatrix (matrix true Q μ s φ S) o W
      = fun p p' => matrix true Q μ s φ S p p' + couple o W p p' := by
    rw [system_eq]; funext p p'; simp [held, squares, hD]
  have hr : systemRhs F o W = F := by
    funext p; simp [systemRhs, dirRhs, WeakForms.quad, hD]
  rw [e, hr, solves_iff] at hx
  rw [solves_iff]
  constructor
  · intro hc
    refine ⟨hx.1, fun v hv => ?_⟩
    have h := hx.2 v hv
    rw [bil_sum, PenaltyLimit.null (bil_symm (couple_symm o W)) (couple_nonneg hW ho.2.1 ho.2.2)
      ((couple_zero hW ho.2.1 ho.2.2 x).2 hc) v, add_zero] at h
    exact h
  · rintro ⟨-, h⟩
    have h1 := hx.2 x hx.1
    rw [bil_sum, h x hx.1] at h1
    exact (couple_zero hW ho.2.1 ho.2.2 x).1 (by linarith)

/-- **C147** (large options only) If some displacement of the free degrees of freedom has the
prescribed values and none but zero is strain-free, meets the other conditions and vanishes at the
points, the problem with exactly prescribed values has one solution, and for large `WeakDirichlet` the
system has exactly one solution, which differs from it by at most `C / WeakDirichlet`. -/
theorem C147_dirichlet_partial (o : Options) (hr : 0 < o.rBc) (hi : 0 < o.ifc)
    (hu : ∀ x, Supported free x → StrainFree Q s φ x → Coupled W x →
      Prescribed W.dir (fun _ _ => 0) x → x = 0)
    (x₀ : ι × Fin 3 → ℝ) (hx₀ : Supported free x₀) (hg : Prescribed W.dir W.dir.g x₀)
    (F : ι × Fin 3 → ℝ) :
    ∃ u, Constrained (systemMatrix (matrix true Q μ s φ S) { o with dBc := 0 } W) free F
        (Prescribed W.dir W.dir.g) (Prescribed W.dir fun _ _ => 0) u ∧
      (∀ w, Constrained (systemMatrix (matrix true Q μ s φ S) { o with dBc := 0 } W) free F
        (Prescribed W.dir W.dir.g) (Prescribed W.dir fun _ _ => 0) w → w = u) ∧
      ∃ C τ₀ : ℝ, 0 < τ₀ ∧ ∀ τ, τ₀ ≤ τ →
        WellPosed (systemMatrix (matrix true Q μ s φ S) { o with dBc := τ } W) free ∧
        ∀ x, Solves (systemMatrix (matrix true Q μ s φ S) { o with dBc := τ } W) free
          (systemRhs F { o with dBc := τ } W) x → ∀ p, |x p - u p| ≤ C / τ := by
  let A := fun p p' => matrix true Q μ s φ S p p' + couple o W p p'
  have e : ∀ τ, systemMatrix (matrix true Q μ s φ S) { o with dBc := τ } W
      = fun p p' => A p p' + -τ * held W.dir p p' := fun τ => system_eq _ _ _
  have eA : systemMatrix (matrix true Q μ s φ S) { o with dBc := 0 } W = A := by
    rw [e]; funext p p'; simp
  have zd : ∀ x : Coef ι, bil (held W.dir) x x = 0 ↔ Prescribed W.dir (fun _ _ => 0) x :=
    held_zero hW
  have zg : ∀ x : Coef ι, bil (held W.dir) (x - x₀) (x - x₀) = 0 ↔ Prescribed W.dir W.dir.g x := by
    intro x
    rw [zd]
    refine forall₂_congr fun q hq => ?_
    rw [← hg q hq, funext_iff, funext_iff]
    refine forall_congr' fun j => ?_
    simp only [value, Pi.sub_apply, mul_sub, Finset.sum_sub_distrib, sub_eq_zero]
  obtain ⟨τ₀, h0, hwp, h⟩ := core A (held W.dir) free (held_symm W.dir) (held_nonneg hW)
    (fun n hn hc hne => base_pos hμ hs hS hW hr hi n fun h =>
      hne (hu n hn h.1 h.2 ((zd n).1 hc)))
  obtain ⟨u, hu1, hu2, hu3, hu4, C, hC⟩ := h F x₀ hx₀
  rw [eA]
  refine ⟨u, ⟨hu1, (zg u).1 hu2, fun v hv hc => hu3 v hv ((zd v).2 hc)⟩, ?_, C, τ₀, h0, ?_⟩
  · rintro w ⟨hw1, hw2, hw3⟩
    exact hu4 w hw1 ((zg w).2 hw2) fun v hv hc => hw3 v hv ((zd v).1 hc)
  · intro τ hτ
    have ha : |-τ| = τ := by rw [abs_neg, abs_of_pos (h0.trans_le hτ)]
    rw [e]
    refine ⟨hwp (-τ) (by rwa [ha]), fun x hx p => ?_⟩
    have hx' := (solves_iff _ _ _ _).1 hx
    have := hC (-τ) (by rwa [ha]) x hx'.1 (fun v hv => by
      have h1 := hx'.2 v hv
      rw [bil_add] at h1
      rw [h1]
      show load (fun p => F p + dirRhs τ W.dir p) v = _
      rw [load_held τ W.dir F v x₀ hg]; ring) p
    rwa [ha] at this

/-- **C147** is violated by weak Dirichlet conditions: every system that is solvable without them and
has one at a point where a free basis function is not zero becomes singular for some positive value of
the option, and indefinite for every larger one. -/
theorem C147_singular_violated (o : Options) (hr : 0 < o.rBc) (hi : 0 < o.ifc)
    (hu : ∀ x, Supported free x → StrainFree Q s φ x → Coupled W x → x = 0)
    {q : κ} (hq : q ∈ W.dir.Q) {p : ι × Fin 3} (hp : free p) (hN : W.dir.N q p.1 ≠ 0) :
    ∃ τ, 0 < τ ∧ ¬ WellPosed (systemMatrix (matrix true Q μ s φ S) { o with dBc := τ } W) free ∧
      ∀ σ, τ < σ → ∃ x, Supported free x ∧
        form (systemMatrix (matrix true Q μ s φ S) { o with dBc := σ } W) x < 0 := by
  classical
  let A := fun p p' => matrix true Q μ s φ S p p' + couple o W p p'
  have e : ∀ τ, systemMatrix (matrix true Q μ s φ S) { o with dBc := τ } W
      = fun p p' => A p p' + -τ * held W.dir p p' := fun τ => system_eq _ _ _
  have sA : ∀ x y : Coef ι, bil A x y = bil A y x := bil_symm fun p p' => by
    show _ + _ = _ + _
    rw [elastic_symm hS, couple_symm]
  let V := space free
  let A' : V →ₗ[ℝ] V →ₗ[ℝ] ℝ := (bil A).domRestrict₁₂ V V
  let P' : V →ₗ[ℝ] V →ₗ[ℝ] ℝ := (bil (held W.dir)).domRestrict₁₂ V V
  have hx₀ : Supported free (Pi.single p 1 : Coef ι) := fun r hr' => by
    rw [Pi.single_apply, if_neg]; rintro rfl; exact hr' hp
  have h₀ : P' ⟨_, hx₀⟩ ⟨_, hx₀⟩ ≠ 0 := by
    intro hc
    have h1 := (held_zero hW (Pi.single p 1)).1 hc q hq
    have h2 := congrFun h1 p.2
    rw [value_eq, Finset.sum_eq_single p (fun r _ hr' => by simp [hr'])
      (fun h => absurd (Finset.mem_univ p) h)] at h2
    simp [dofValue] at h2
    exact hN h2
  obtain ⟨τ, ht, -, ⟨x, hx, hx0⟩, hlt⟩ := PenaltyLimit.singular (K := A') (P := P')
    (fun x y => sA x y)
    (fun x hx => base_pos hμ hs hS hW hr hi x fun h => hx (Subtype.ext (hu x x.2 h.1 h.2)))
    (fun x y => bil_symm (held_symm W.dir) x y) (fun x => held_nonneg hW x) h₀
  refine ⟨τ, ht, fun hw => ?_, fun σ hσ => ?_⟩
  · rw [e, wellPosed_bil] at hw
    refine hx (Subtype.ext (hw x x.2 fun v hv => ?_))
    rw [bil_add]
    have h1 : bil A x v - τ * bil (held W.dir) x v = 0 := hx0 ⟨v, hv⟩
    linarith
  · obtain ⟨y, hy⟩ := hlt σ hσ
    refine ⟨y, y.2, ?_⟩
    rw [e, ← bil_form, bil_add]
    have h1 : bil A y y - σ * bil (held W.dir) y y < 0 := hy
    linarith

/-- **C147** is violated by shells that are held by weak Dirichlet conditions: a strain-free
displacement that meets the other conditions and moves a point with a weak Dirichlet condition has
negative energy, for every positive value of the option. -/
theorem C147_indefinite_violated (o : Options) (ho : Positive o) {x : ι × Fin 3 → ℝ}
    (hx : StrainFree Q s φ x) (hc : Coupled W x) {q : κ} (hq : q ∈ W.dir.Q)
    (hv : value (W.dir.N q) x ≠ 0) : form (systemMatrix (matrix true Q μ s φ S) o W) x < 0 := by
  rw [system_eq, ← bil_form, bil_add, base_zero hμ hs hS hW ho.2.1 ho.2.2 x ⟨hx, hc⟩ x]
  have h1 : 0 < bil (held W.dir) x x := lt_of_le_of_ne (held_nonneg hW x) fun h =>
    hv ((held_zero hW x).1 h.symm q hq)
  have := mul_pos ho.1 h1
  linarith

end Shell

/-! ## Non-vacuity: a strip with a patch coupled to it -/

/-- Basis functions: the first has a slope on the flat point, the second lives on the other patch. -/
def shapes (i : Fin 2) : Shape := if i = 0 then System.slope else ⟨0, fun _ => 0, fun _ => 0⟩

/-- A clamped side, a C0 interface between the two basis functions and a C1 interface at a fold; the
points `D` have a weak Dirichlet condition for the first function. -/
noncomputable def exWeak (D : Finset Unit) : Weak (Fin 2) Unit where
  dir := ⟨⟨D, fun _ => 1, fun _ => 1, fun _ => 1⟩, fun _ => ![1, 0], fun _ => ![1, 0, 0]⟩
  clamp := ⟨⟨{()}, fun _ => 1, fun _ => 1, fun _ => 1⟩, fun _ => flatPoint, fun _ => shapes,
    fun _ => ⟨1, 0, 0⟩⟩
  joint := ⟨⟨{()}, fun _ => 1, fun _ => 1, fun _ => 1⟩, fun _ => ![1, 0], fun _ => ![0, 1]⟩
  hinge := ⟨⟨{()}, fun _ => 1, fun _ => 1, fun _ => 1⟩, fun _ => flatL, fun _ => foldR, fun _ => 1,
    fun _ => 1, fun _ => 1, fun _ => -1, fun _ => shapes, fun _ => shapes⟩

theorem exWeak_proper (D : Finset Unit) : Proper (exWeak D) :=
  ⟨fun _ _ => ⟨one_pos, one_pos, one_pos⟩, fun _ _ => ⟨one_pos, one_pos, one_pos, flatPoint_indep⟩,
    fun _ _ => ⟨one_pos, one_pos, one_pos⟩, fun _ _ => ⟨one_pos, one_pos, one_pos, flatL_indep,
      foldR_indep, .inl rfl, .inr rfl⟩⟩

theorem exWeak_unique (D : Finset Unit) (x : Fin 2 × Fin 3 → ℝ)
    (hx : Supported (fun p => p.2 = 0) x)
    (hf : StrainFree {()} (fun _ : Unit => flatPoint) (fun _ => shapes) x)
    (hc : Coupled (exWeak D) x) : x = 0 := by
  have h := ((free_iff (fun _ _ => flatPoint_indep) x).1 hf () (by simp)).1
  have h0 : x (0, 0) = 0 := by
    have := congrFun h 0
    simpa [EmDer, displacement, surface, vsum, nodal, shapes, System.slope, flatPoint, dot,
      Fin.sum_univ_two] using this
  have h1 : x (1, 0) = 0 := by
    have := congrFun (hc.2.1 () (by simp [exWeak])) 0
    simp [exWeak, value, Fin.sum_univ_two, h0] at this
    exact this.symm
  funext ⟨i, d⟩
  rcases fin2_cases i with rfl | rfl <;> rcases fin3_cases d with rfl | rfl | rfl
  exacts [h0, hx _ (by simp), hx _ (by simp), h1, hx _ (by simp), hx _ (by simp)]

theorem ex_definite : Definite (linearModuli ⟨1, fun _ => 0, fun _ => 1⟩ 1 1 0 flatPoint) :=
  linear_definite _ 1 1 0 one_pos one_pos (by norm_num) (by norm_num) _ flatPoint_indep

/-- Solvable with the weak interface; neither patch alone would be. -/
example : WellPosed (systemMatrix (matrix true {()} (fun _ => 1) (fun _ => flatPoint)
    (fun _ => shapes) (fun _ => linearModuli ⟨1, fun _ => 0, fun _ => 1⟩ 1 1 0 flatPoint))
    ⟨1, 1, 1⟩ (exWeak ∅)) (fun p => p.2 = 0) :=
  (C147_coupling (fun _ _ => one_pos) (fun _ _ => flatPoint_indep) (fun _ _ => ex_definite)
    (exWeak_proper ∅) _ ⟨1, 1, 1⟩ ⟨one_pos, one_pos, one_pos⟩ rfl).2.2.2.2
    (exWeak_unique ∅)

/-- Some value of the option makes it singular. -/
example : ∃ τ, 0 < τ ∧ ¬ WellPosed (systemMatrix (matrix true {()} (fun _ => 1)
    (fun _ => flatPoint) (fun _ => shapes)
    (fun _ => linearModuli ⟨1, fun _ => 0, fun _ => 1⟩ 1 1 0 flatPoint))
    ⟨τ, 1, 1⟩ (exWeak {()})) (fun p => p.2 = 0) := by
  obtain ⟨τ, h1, h2, -⟩ := C147_singular_violated (Q := {()}) (μ := fun _ => 1)
    (s := fun _ => flatPoint) (φ := fun _ => shapes)
    (fun _ _ => one_pos) (fun _ _ => flatPoint_indep)
    (fun _ _ => ex_definite) (exWeak_proper {()}) (fun p => p.2 = 0) ⟨1, 1, 1⟩ one_pos one_pos
    (exWeak_unique {()}) (q := ()) (by simp [exWeak]) (p := (0, 0)) rfl (by simp [exWeak])
  exact ⟨τ, h1, h2⟩

/-- Prescribed values that a displacement of the free degrees of freedom has. -/
example : ∃ x₀, Supported (fun p : Fin 2 × Fin 3 => p.2 = 0) x₀ ∧
    Prescribed (exWeak {()}).dir (exWeak {()}).dir.g x₀ := by
  refine ⟨fun p => if p.2 = 0 then 1 else 0, fun p hp => by simp [hp], fun q _ => ?_⟩
  funext j
  rcases fin3_cases j with rfl | rfl | rfl <;> simp [exWeak, value, Fin.sum_univ_two]

/-- A strain-free displacement that moves a point. -/
example : ∃ (W : Weak (Fin 2) Unit) (x : Fin 2 × Fin 3 → ℝ), Proper W ∧ Coupled W x ∧
    StrainFree ({()} : Finset Unit) (fun _ => flatPoint) (fun _ => shapes) x ∧
    ∃ q ∈ W.dir.Q, value (W.dir.N q) x ≠ 0 := by
  let W : Weak (Fin 2) Unit := ⟨(exWeak {()}).dir,
    ⟨⟨∅, fun _ => 1, fun _ => 1, fun _ => 1⟩, fun _ => flatPoint, fun _ => shapes, fun _ => 0⟩,
    (exWeak {()}).joint, ⟨⟨∅, fun _ => 1, fun _ => 1, fun _ => 1⟩, fun _ => flatL, fun _ => foldR,
      fun _ => 1, fun _ => 1, fun _ => 1, fun _ => -1, fun _ => shapes, fun _ => shapes⟩⟩
  refine ⟨W, fun p => if p.2 = 2 then 1 else 0, ?_, ⟨by simp [W], ?_, by simp [W]⟩, ?_, (),
    by simp [W, exWeak], ?_⟩
  · exact ⟨(exWeak_proper {()}).1, by simp [W], (exWeak_proper {()}).2.2.1, by simp [W]⟩
  · intro q _; funext j; simp [W, exWeak, value, Fin.sum_univ_two]
  · rw [free_iff (fun _ _ => flatPoint_indep)]
    intro q _
    constructor
    · funext k
      rcases fin3_cases k with rfl | rfl | rfl <;>
        simp [EmDer, displacement, surface, vsum, nodal, shapes, System.slope, flatPoint, dot]
    · funext k
      rcases fin3_cases k with rfl | rfl | rfl <;>
        simp [EfDer, deriv2dot, dbl3, displacement, surface, vsum, nodal, shapes, System.slope,
          flatPoint, dot]
  · intro h; have := congrFun h 2; simp [W, exWeak, value, Fin.sum_univ_two] at this

end Verif.PenaltySystem
