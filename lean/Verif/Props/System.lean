import Verif.Lemmas.SystemModuli
import Verif.Lemmas.Boundary
import Verif.Props.Balance

/-!
# C131: the matrix of the linear problem

Energy, symmetry and definiteness of the stiffness matrix; its null vectors are the strain-free
displacements; when the equations of the free degrees of freedom have exactly one solution.
-/

namespace Verif.System

open V3 Verif.Geometry Verif.Variation Verif.Balance Verif.Integrate Spec.System Spec.PosDef

variable {ι κ : Type}

/-! ## The matrix -/

/-- **C131** For all coefficients `x` the form `x·K x` is the integral of the energy density of the
linearised membrane and bending strains of the displacement with these coefficients; the strains are
the derivatives of the nonlinear ones. -/
theorem C131_energy [Fintype ι] (Q : Finset κ) (μ : κ → ℝ) (s : κ → Surf) (φ : κ → ι → Shape) (S : κ → Section)
    (hs : ∀ q ∈ Q, Indep ((s q).a 0) ((s q).a 1)) (x : ι × Fin 3 → ℝ) :
    ∑ p, ∑ p', x p * matrix true Q μ s φ S p p' * x p'
      = ∑ q ∈ Q, density (S q) (rateM (s q) (displacement (φ q) x))
          (rateB (s q) (displacement (φ q) x)) * μ q := by
  rw [bilinear]
  refine Finset.sum_congr rfl fun q hq => ?_
  rw [integrand_self, rateM_eq, rateB_eq _ _ (hs q hq)]

/-- **C131** The matrix is symmetric for symmetric moduli. -/
theorem C131_symmetric (Q : Finset κ) (μ : κ → ℝ) (s : κ → Surf) (φ : κ → ι → Shape)
    (S : κ → Section) (hS : ∀ q ∈ Q, Symmetric (S q)) (p p' : ι × Fin 3) :
    matrix true Q μ s φ S p p' = matrix true Q μ s φ S p' p :=
  Finset.sum_congr rfl fun q hq => by rw [integrand_symm _ _ _ _ (hS q hq)]

/-- **C131** For definite moduli the matrix is positive semi-definite, and its null vectors are
exactly the displacements without linearised strains at the quadrature points. -/
theorem C131_kernel [Fintype ι] (Q : Finset κ) (μ : κ → ℝ) (s : κ → Surf) (φ : κ → ι → Shape) (S : κ → Section)
    (hμ : ∀ q ∈ Q, 0 < μ q) (hs : ∀ q ∈ Q, Indep ((s q).a 0) ((s q).a 1))
    (hS : ∀ q ∈ Q, Definite (S q)) (x : ι × Fin 3 → ℝ) :
    0 ≤ ∑ p, ∑ p', x p * matrix true Q μ s φ S p p' * x p' ∧
    (∑ p, ∑ p', x p * matrix true Q μ s φ S p p' * x p' = 0 ↔ StrainFree Q s φ x) ∧
    ((∀ p, ∑ p', matrix true Q μ s φ S p p' * x p' = 0) ↔ StrainFree Q s φ x) := by
  refine ⟨?_, form_zero hμ hs hS x, ⟨fun h => (form_zero hμ hs hS x).1 ?_, fun h p => row_zero hs h p⟩⟩
  · rw [bilinear]
    refine Finset.sum_nonneg fun q hq => ?_
    rw [integrand_self]
    exact mul_nonneg (density_nonneg (hS q hq) _ _) (hμ q hq).le
  · refine Finset.sum_eq_zero fun p _ => ?_
    have : ∑ p', x p * matrix true Q μ s φ S p p' * x p'
        = x p * ∑ p', matrix true Q μ s φ S p p' * x p' := by
      rw [Finset.mul_sum]; exact Finset.sum_congr rfl fun _ _ => by ring
    rw [this, h p, mul_zero]

/-- **C131** Rigid motions are strain-free: if the surface is the one of the nodal points `P` and
the basis functions sum to one, moving `P` by `c + ω × P` gives a null vector, for all moduli. -/
theorem C131_rigid [Fintype ι] (Q : Finset κ) (μ : κ → ℝ) (P : ι → V3) (φ : κ → ι → Shape) (S : κ → Section)
    (h1 : ∀ q ∈ Q, PartitionOfUnity Finset.univ (φ q))
    (hs : ∀ q ∈ Q, Indep ((surface Finset.univ P (φ q)).a 0) ((surface Finset.univ P (φ q)).a 1))
    (c ω : V3) :
    StrainFree Q (fun q => surface Finset.univ P (φ q)) φ (rigid P c ω) ∧
    ∀ p, ∑ p', matrix true Q μ (fun q => surface Finset.univ P (φ q)) φ S p p' * rigid P c ω p' = 0 := by
  have key : StrainFree Q (fun q => surface Finset.univ P (φ q)) φ (rigid P c ω) := by
    rw [free_iff hs]
    intro q hq
    have hd : displacement (φ q) (rigid P c ω)
        = fieldAdd (fieldSmul 0 (surface Finset.univ P (φ q))) (spin ω (surface Finset.univ P (φ q))) := by
      rw [← const_surface c Finset.univ (φ q) (h1 q hq), ← spin_surface]
      have hc : nodal (rigid P c ω) = fun i => c + cross ω (P i) := by
        funext i; ext <;> simp [nodal, rigid, comp]
      simp only [displacement, hc, surface, fieldAdd]
      have e : ∀ (f : ι → ℝ), vsum Finset.univ (fun i => f i • (c + cross ω (P i)))
          = vsum Finset.univ (fun i => f i • c) + vsum Finset.univ (fun i => f i • cross ω (P i)) := by
        intro f; ext <;> simp [vsum, mul_add, Finset.sum_add_distrib]
      simp only [e]
    obtain ⟨g1, g2, -⟩ := C66_rigid (surface Finset.univ P (φ q)) (hs q hq) ω
      (surface Finset.univ P (φ q)) (fun _ _ => 0) (fun _ _ => 0) (fun _ _ => 0) (fun _ _ => 0)
    have f1 : ∀ k, EmDer (surface Finset.univ P (φ q)) (spin ω (surface Finset.univ P (φ q))) k = 0 := g1
    have f2 : ∀ k, EfDer (surface Finset.univ P (φ q)) (spin ω (surface Finset.univ P (φ q))) k = 0 := g2
    have force : ∀ N M : Voigt, internalForce (surface Finset.univ P (φ q))
        (displacement (φ q) (rigid P c ω)) N M = 0 := by
      intro N M
      rw [hd, force_add, force_smul]
      simp [internalForce, dotV, f1, f2]
    constructor
    · funext k
      have := force (fun j => if j = k then 1 else 0) (fun _ => 0)
      simpa [internalForce, dotV] using this
    · funext k
      have := force (fun _ => 0) (fun j => if j = k then 1 else 0)
      simpa [internalForce, dotV] using this
  exact ⟨key, fun p => row_zero hs key p⟩

/-- **C131** The equations of the free degrees of freedom have exactly one solution for every load if
and only if no displacement of the free degrees of freedom other than zero is strain-free at the
quadrature points. -/
theorem C131_solvable [Fintype ι] (Q : Finset κ) (μ : κ → ℝ) (s : κ → Surf) (φ : κ → ι → Shape) (S : κ → Section)
    (hμ : ∀ q ∈ Q, 0 < μ q) (hs : ∀ q ∈ Q, Indep ((s q).a 0) ((s q).a 1))
    (hS : ∀ q ∈ Q, Definite (S q)) (free : ι × Fin 3 → Prop) :
    WellPosed (matrix true Q μ s φ S) free ↔
      ∀ x, Supported free x → StrainFree Q s φ x → x = 0 := by
  rw [wellPosed_iff]
  constructor
  · intro h x hx hf
    exact h x hx fun p _ => row_zero hs hf p
  · intro h x hx h0
    refine h x hx ((form_zero hμ hs hS x).1 ?_)
    refine Finset.sum_eq_zero fun p _ => ?_
    have : ∑ p', x p * matrix true Q μ s φ S p p' * x p'
        = x p * ∑ p', matrix true Q μ s φ S p p' * x p' := by
      rw [Finset.mul_sum]; exact Finset.sum_congr rfl fun _ _ => by ring
    rw [this]
    by_cases hp : free p
    · rw [h0 p hp, mul_zero]
    · rw [hx p hp, zero_mul]

/-- **C131** A system with more than six free degrees of freedom per quadrature point is singular,
whatever the moduli. -/
theorem C131_underintegrated [Fintype ι] (Q : Finset κ) (μ : κ → ℝ) (s : κ → Surf) (φ : κ → ι → Shape)
    (S : κ → Section) (free : ι × Fin 3 → Prop) (hn : 6 * Q.card < Nat.card {p // free p}) :
    ¬ WellPosed (matrix true Q μ s φ S) free := by
  classical
  rw [wellPosed_iff]
  intro h
  have hker : LinearMap.ker (strains Q s φ free) ≠ ⊥ := by
    apply LinearMap.ker_ne_bot_of_finrank_lt
    rw [Module.finrank_fintype_fun_eq_card, Module.finrank_fintype_fun_eq_card,
      Fintype.card_prod, Fintype.card_coe, Fintype.card_sum, Fintype.card_fin]
    rw [Nat.card_eq_fintype_card] at hn
    omega
  obtain ⟨y, hy, hy0⟩ := (Submodule.ne_bot_iff _).1 hker
  apply hy0
  have hFy : strains Q s φ free y = 0 := hy
  have zero : extend free y = 0 := by
    refine h _ (extend_supported free y) fun p _ => ?_
    rw [row]
    refine Finset.sum_eq_zero fun q hq => ?_
    have e1 : EmDer (s q) (displacement (φ q) (extend free y)) = 0 := by
      funext k; exact congrFun hFy (⟨q, hq⟩, .inl k)
    have e2 : EfDer (s q) (displacement (φ q) (extend free y)) = 0 := by
      funext k; exact congrFun hFy (⟨q, hq⟩, .inr k)
    simp [integrand, linStiffness, dotV, e1, e2]
  funext p
  rw [← extend_apply free y p, zero]; rfl

/-! ## Non-vacuity: one basis function on a flat point -/

/-- A flat point. -/
def flatPoint : Surf := ⟨![⟨1, 0, 0⟩, ⟨0, 1, 0⟩], 0, 0, 0⟩

/-- A basis function with slope in the first direction. -/
def slope : Shape := ⟨0, ![1, 0], fun _ => 0⟩

theorem flatPoint_indep : Indep (flatPoint.a 0) (flatPoint.a 1) := by
  apply indep_of_cross
  intro h
  have := congrArg V3.z h
  simp [flatPoint, cross] at this

theorem example_form (x : Unit × Fin 3 → ℝ) : EmDer flatPoint (displacement (fun _ : Unit => slope) x)
    = vec3 (x ((), 0)) 0 (x ((), 1)) := by
  funext k
  rcases fin3_cases k with rfl | rfl | rfl <;>
    simp [EmDer, displacement, surface, vsum, nodal, slope, flatPoint, dot]

/-- Non-vacuity of all hypotheses: the linear material at one point, the first component free: the
system has exactly one solution for every load. -/
example : WellPosed (matrix true {()} (fun _ => 1) (fun _ => flatPoint) (fun _ _ => slope)
    (fun _ => linearModuli ⟨1, fun _ => 0, fun _ => 1⟩ 1 1 0 flatPoint)) (fun p : Unit × Fin 3 => p.2 = 0) := by
  rw [C131_solvable _ _ _ _ _ (fun _ _ => one_pos) (fun _ _ => flatPoint_indep) (fun _ _ =>
    linear_definite _ 1 1 0 one_pos one_pos (by norm_num) (by norm_num) _ flatPoint_indep)]
  intro x hx hf
  have h := ((free_iff (fun _ _ => flatPoint_indep) x).1 hf () (by simp)).1
  rw [example_form] at h
  have h0 := congrFun h 0
  simp at h0
  funext ⟨_, d⟩
  rcases fin3_cases d with rfl | rfl | rfl
  · exact h0
  · exact hx _ (by simp)
  · exact hx _ (by simp)

/-- Non-vacuity of the count: no quadrature point, three free degrees of freedom. -/
example : 6 * (∅ : Finset Unit).card < Nat.card {_p : Unit × Fin 3 // True} := by
  simp [Nat.card_eq_fintype_card]

/-- Non-vacuity of the hypotheses on rigid motions: the triangle of `Props/Balance`. -/
example : ∃ (φ : Fin 3 → Shape) (P : Fin 3 → V3), PartitionOfUnity Finset.univ φ ∧
    Indep ((surface Finset.univ P φ).a 0) ((surface Finset.univ P φ).a 1) :=
  ⟨Balance.tri, Balance.triP, Balance.tri_unity, Balance.tri_indep⟩

/-! ## The moduli -/

/-- **C131** The moduli of the linear material are definite, and twice the energy is
`t ε:C:ε + t³/12 κ:C:κ` with the plane-stress tensor. -/
theorem C131_linear (r : Rule) (t E ν : ℝ) (ht : 0 < t) (hE : 0 < E) (h1 : -1 < ν) (h2 : ν < 1 / 2)
    (s : Surf) (h : Indep (s.a 0) (s.a 1)) :
    Definite (linearModuli r t E ν s) ∧ ∀ e k, density (linearModuli r t E ν s) e k
      = t * form (Linear.Cval E ν (Acon s)) (tens e) + t ^ 3 / 12 * form (Linear.Cval E ν (Acon s)) (tens k) := by
  refine ⟨linear_definite r t E ν ht hE h1 h2 s h, fun e k => ?_⟩
  obtain ⟨hA, -, -⟩ := Linear.C20_surface_metric s h
  have key : ∀ v, quad (Linear.matrix E ν (Acon s)) v = form (Linear.Cval E ν (Acon s)) (tens v) := by
    intro v
    have e : vec3 (tens v 0 0) (tens v 1 1) (2 * tens v 0 1) = v := by
      funext k
      rcases fin3_cases k with rfl | rfl | rfl <;> simp [tens]; ring
    unfold form
    rw [← Linear.C20_matrix_form E ν (Acon s) (tens v) hA rfl, e]
    simp only [quad, dotV, mulVec3, Fin.sum_univ_three]; ring
  rw [linear_density, key, key]

/-- **C131** So are the moduli that a rule with positive weights and at least two different nodes
gives for a material whose matrix is symmetric and positive definite at the nodes. -/
theorem C131_integrated (r : Rule) (t : ℝ) (M : ℝ → T3) (ht : 0 < t) (hw : ∀ j, 0 < r.w j)
    (hsym : ∀ j a b, M (r.ξ j) a b = M (r.ξ j) b a) (hM : ∀ j, PosMat (M (r.ξ j)))
    (h2 : ∃ i j, r.ξ i ≠ r.ξ j) : Definite (moduli .notIntegrated r t (fun _ => M)) :=
  gauss_definite r t M ht hw hsym hM h2

/-- **C131** (orthogonal tangents) So are those of a laminate of layers with symmetric positive
definite stiffness and positive thickness. -/
theorem C131_laminate_partial (r : Rule) (t : ℝ) (ls : List Composite.Layer) (s : Surf) (hls : ls ≠ [])
    (ht : ∀ l ∈ ls, 0 < l.t) (hs : ∀ l ∈ ls, ∀ i j, l.G i j = l.G j i) (hG : ∀ l ∈ ls, PosMat l.G)
    (h1 : s.a 0 ≠ 0) (h2 : s.a 1 ≠ 0) (h : dot (s.a 0) (s.a 1) = 0) :
    Definite (laminateModuli r t ls s) :=
  laminate_definite r t ls s hls ht hs hG h1 h2 h

/-- Non-vacuity: two nodes, two layers of isotropic stiffness, orthogonal tangents. -/
example : (∃ r : Rule, (∀ j, 0 < r.w j) ∧ ∃ i j, r.ξ i ≠ r.ξ j) ∧ PosMat (mk3 1 0 0 0 1 0 0 0 (1 / 2)) ∧
    dot (flatPoint.a 0) (flatPoint.a 1) = 0 := by
  refine ⟨⟨⟨2, ![-1, 1], fun _ => 1⟩, fun _ => one_pos, 0, 1, ?_⟩, ?_, by simp [flatPoint, dot]⟩
  · show (-1 : ℝ) ≠ 1; norm_num
  · intro v hv
    simp only [Fin.sum_univ_three, mk3_zero, mk3_one, mk3_two]
    by_contra hc
    push Not at hc
    simp at hc
    apply hv
    have h0 : v 0 = 0 := by nlinarith [sq_nonneg (v 0), sq_nonneg (v 1), sq_nonneg (v 2)]
    have h1 : v 1 = 0 := by nlinarith [sq_nonneg (v 0), sq_nonneg (v 1), sq_nonneg (v 2)]
    have h2 : v 2 = 0 := by nlinarith [sq_nonneg (v 0), sq_nonneg (v 1), sq_nonneg (v 2)]
    funext k
    rcases fin3_cases k with rfl | rfl | rfl
    · exact h0
    · exact h1
    · exact h2

/-! ## Violations -/

/-- **C131** is violated by the one-point rule through the thickness (`NumGauss = 1`): bending costs
no energy, for every material, thickness and curvature. -/
theorem C131_onepoint_violated (w t : ℝ) (M : ℝ → T3) (k : Voigt) :
    density (moduli .notIntegrated ⟨1, fun _ => 0, fun _ => w⟩ t (fun _ => M)) (fun _ => 0) k = 0 ∧
    ¬ Definite (moduli .notIntegrated ⟨1, fun _ => 0, fun _ => w⟩ t (fun _ => M)) := by
  have key : ∀ k : Voigt,
      density (moduli .notIntegrated ⟨1, fun _ => 0, fun _ => w⟩ t (fun _ => M)) (fun _ => 0) k = 0 := by
    intro k
    rw [gauss_density']
    simp [quad]
  refine ⟨key k, fun h => ?_⟩
  have := h.2 (fun _ => 0) (fun _ => 1) (fun h0 => by
    have := congrFun h0.2 0
    simp at this)
  rw [key] at this
  exact lt_irrefl _ this

/-- A point with skew tangents. -/
def skewPoint : Surf := ⟨![⟨1, 0, 0⟩, ⟨2, 1, 0⟩], 0, 0, 0⟩

/-- A layer of isotropic stiffness. -/
noncomputable def isoLayer : Composite.Layer := ⟨1, mk3 1 0 0 0 1 0 0 0 (1 / 2), 0, 1⟩

theorem skew_entries (r : Rule) (t : ℝ) :
    (laminateModuli r t [isoLayer] skewPoint).A 0 2 ≠ (laminateModuli r t [isoLayer] skewPoint).A 2 0 := by
  have e1 : normalized (⟨1, 0, 0⟩ : V3) = ⟨1, 0, 0⟩ := by
    unfold normalized V3.norm dot; ext <;> simp
  have e2 : normalized (⟨0, 1, 0⟩ : V3) = ⟨0, 1, 0⟩ := by
    unfold normalized V3.norm dot; ext <;> simp
  have c0 : acon skewPoint 0 = ⟨1, -2, 0⟩ := by
    ext <;> simp [acon, Acon, inv2, Acov, skewPoint, dot, det2]
  have c1 : acon skewPoint 1 = ⟨0, 1, 0⟩ := by
    ext <;> simp [acon, Acon, inv2, Acov, skewPoint, dot, det2]
  have hD : Composite.abd .A [isoLayer] = mk3 1 0 0 0 1 0 0 0 (1 / 2) := by
    funext i j
    rw [Composite.abd_eq]
    rcases fin3_cases i with rfl | rfl | rfl <;> rcases fin3_cases j with rfl | rfl | rfl <;>
      simp [Composite.acc, Composite.plyD, isoLayer, Composite.rot, mul3, transpose3, Fin.sum_univ_three,
        Composite.factor]
  show Composite.toSurface (skewPoint.a 0) (skewPoint.a 1) (acon skewPoint 0) (acon skewPoint 1)
      (Composite.abd .A [isoLayer]) 0 2 ≠ Composite.toSurface (skewPoint.a 0) (skewPoint.a 1)
      (acon skewPoint 0) (acon skewPoint 1) (Composite.abd .A [isoLayer]) 2 0
  rw [hD, c0, c1]
  show Composite.toSurface ⟨1, 0, 0⟩ ⟨2, 1, 0⟩ _ _ _ 0 2 ≠ Composite.toSurface ⟨1, 0, 0⟩ ⟨2, 1, 0⟩ _ _ _ 2 0
  simp only [Composite.toSurface, e1, e2]
  simp [Composite.cart2cov, Composite.cart2covRaw, Composite.con2cart, mul3, inv3, det3,
    Fin.sum_univ_three, dot]
  norm_num

/-- **C131** is violated by laminates in skew bases: the stiffness matrix of one isotropic layer is
not symmetric. -/
theorem C131_laminate_violated (r : Rule) (t : ℝ) :
    ∃ (ls : List Composite.Layer) (s : Surf) (φ : Shape), Indep (s.a 0) (s.a 1) ∧
      (∀ l ∈ ls, 0 < l.t ∧ ∀ i j, l.G i j = l.G j i) ∧ ∃ p p' : Unit × Fin 3,
      matrix true {()} (fun _ => 1) (fun _ => s) (fun _ _ => φ) (fun _ => laminateModuli r t ls s) p p'
        ≠ matrix true {()} (fun _ => 1) (fun _ => s) (fun _ _ => φ) (fun _ => laminateModuli r t ls s) p' p := by
  refine ⟨[isoLayer], skewPoint, slope, ?_, ?_, ((), 0), ((), 1), ?_⟩
  · apply indep_of_cross
    intro h
    have := congrArg V3.z h
    simp [skewPoint, cross] at this
  · intro l hl
    obtain rfl := List.mem_singleton.1 hl
    refine ⟨by simp [isoLayer], fun i j => ?_⟩
    rcases fin3_cases i with rfl | rfl | rfl <;> rcases fin3_cases j with rfl | rfl | rfl <;>
      simp [isoLayer]
  · have hne := skew_entries r t
    have hm0 : EmDer skewPoint (dofField (fun _ : Unit => slope) ((), 0)) = vec3 1 0 2 := by
      funext k
      rcases fin3_cases k with rfl | rfl | rfl <;>
        simp [EmDer, dofField, basisField, vecFun, slope, skewPoint, dot]
    have hm1 : EmDer skewPoint (dofField (fun _ : Unit => slope) ((), 1)) = vec3 0 0 1 := by
      funext k
      rcases fin3_cases k with rfl | rfl | rfl <;>
        simp [EmDer, dofField, basisField, vecFun, slope, skewPoint, dot]
    have hf : ∀ p, EfDer skewPoint (dofField (fun _ : Unit => slope) p) = fun _ => 0 := by
      intro p
      funext k
      have hz : ∀ d, vecFun d 0 = 0 := by intro d; ext <;> simp [vecFun]
      have hd0 : ∀ v : V3, dot (0 : V3) v = 0 := by intro v; simp [dot]
      rcases fin3_cases k with rfl | rfl | rfl <;>
        simp [EfDer, dbl3, deriv2dot, dofField, basisField, slope, skewPoint, hz, hd0]
    generalize laminateModuli r t [isoLayer] skewPoint = S at hne ⊢
    simp only [matrix, Finset.sum_singleton, integrand, if_true, linStiffness, hm0, hm1, hf]
    simp [dotV, rowMul, Fin.sum_univ_three]
    intro h
    apply hne
    linarith

/-- **C131** is violated by the assembler without bending on flat shells: with one free normal
component the linear system is singular, for all moduli, boundary conditions and quadrature rules. -/
theorem C131_membrane_violated [Fintype ι] (Q : Finset κ) (μ : κ → ℝ) (s : κ → Surf)
    (φ : κ → ι → Shape) (S : κ → Section) (hz : ∀ q ∈ Q, ∀ k, ((s q).a k).z = 0)
    (free : ι × Fin 3 → Prop) (i : ι) (hi : free (i, 2)) :
    ¬ WellPosed (matrix false Q μ s φ S) free := by
  classical
  rw [wellPosed_iff]
  intro h
  have := h (fun p => if p = (i, 2) then 1 else 0) (fun p hp => by
    have : p ≠ (i, 2) := fun e => hp (e ▸ hi)
    simp [this]) (fun p _ => by
    rw [row]
    refine Finset.sum_eq_zero fun q hq => ?_
    have e : EmDer (s q) (displacement (φ q) (fun p => if p = (i, 2) then 1 else 0)) = 0 := by
      funext k
      rw [EmDer_disp]
      refine Finset.sum_eq_zero fun p' _ => ?_
      by_cases hp : p' = (i, 2)
      · subst hp
        rcases fin3_cases k with rfl | rfl | rfl <;>
          simp [EmDer, dofField, basisField, vecFun, dot, hz q hq]
      · simp [hp]
    simp [integrand, dotV, e])
  have h1 := congrFun this (i, 2)
  simp at h1

/-- Non-vacuity: the flat point. -/
example : ∀ k, (flatPoint.a k).z = 0 := by
  intro k; rcases fin2_cases k with rfl | rfl <;> simp [flatPoint]

end Verif.System
