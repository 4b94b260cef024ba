import Verif.Lemmas.DWREigen

/-!
# Error estimates for eigenvalues

C99: modal analysis.  C100: buckling.
-/

namespace Verif.DWR

open V3 Verif.Geometry Verif.Variation

variable {α : Type}

/-! ## C99 -/

/-- **C99** If the coarse eigenpair `(lL, u)` is tested with the coarse dual, the fine eigenpair
`(lH, zH)` with the primal mode shape (nested spaces), and the primal mode shape is normalised, then
the modal estimate is the difference of the eigenvalues times the correlation of the two mode shapes;
for mode shapes with unit correlation it is exact. -/
theorem C99_exact_partial (D : EigSetup α) (u zL zH : α → EigFld) (lL lH : ℝ) (r : Result)
    (hL : formA D zL u = lL * formM D zL u) (hH : formA D zH u = lH * formM D zH u)
    (hn : formM D u u = 1) :
    (eigEstimate .total .modal lL lL lH D u zL zH r).error = (lH - lL) * formM D zH u := by
  show (D.elems.map (eigElem .modal lL lL lH D u zL zH)).sum - (lH - lL) = _
  rw [eig_sum .modal D (fun h => by cases h)]
  simp only [formB, hL, hH, hn]
  ring

/-- Non-vacuity: one point, the mode shapes `(0,0,1)` with tilt; stiffness 4, density 1. -/
example : let p : EigPt := ⟨bent 0, bent 0, (fun i j => 4 * one11 i j, fun _ _ => 0, fun _ _ => 0,
      fun _ _ => 0), mm0, fun _ => 0, fun _ => 0, 1⟩
    let u : Unit → EigFld := fun _ => ⟨⟨0, 0, 1⟩, ⟨![⟨1, 0, 0⟩, 0], 0, 0, 0⟩, bent 0⟩
    let zL : Unit → EigFld := fun _ => ⟨0, ⟨![0, 0], 0, 0, 0⟩, bent 0⟩
    (eigEstimate .total .modal 3 3 4 (eig1 p) u zL u ⟨0, []⟩).error = 1 := by
  intro p u zL
  have h0 : area p.ori = 1 := bent_area 0
  have hm : formM (eig1 p) u u = 1 := by
    rw [formM, eig1_total p h0]; simp [eig1, p, u]
  have h := C99_exact_partial (eig1 p) u zL u 3 4 ⟨0, []⟩
    (by
      rw [formA, formM, eig1_total p h0, eig1_total p h0]
      simp [eig1, p, u, zL, linStiffness, rowMul, dotV, EmDer, dot, Fin.sum_univ_three])
    (by
      rw [hm, formA, eig1_total p h0]
      simp [eig1, p, u, linStiffness, rowMul, dotV, EmDer, dot, bent, one11, mk3,
        Fin.sum_univ_three])
    hm
  rw [h, hm]; norm_num

/-- **C99** The estimate in general: the residual of the coarse eigenpair, for any fields and
numbers. -/
theorem C99_residual_partial (D : EigSetup α) (u zL zH : α → EigFld) (lP lL lH : ℝ) (r : Result) :
    (eigEstimate .total .modal lP lL lH D u zL zH r).error
      = (formA D zH u - lP * formM D zH u) - (formA D zL u - lP * formM D zL u)
        + (lH - lL) * (formM D u u - 1) := by
  show (D.elems.map (eigElem .modal lP lL lH D u zL zH)).sum - (lH - lL) = _
  rw [eig_sum .modal D (fun h => by cases h)]
  simp only [formB]
  ring

/-- **C99** The modal `matrixNorm` is the mass form: symmetric, and not negative for non-negative
weights and densities. -/
theorem C99_norm (D : EigSetup α) (u z : α → EigFld) :
    normModal D u z = formM D u z ∧ normModal D u z = normModal D z u ∧
      ((∀ q, 0 ≤ D.wt q ∧ 0 ≤ (D.pt q).rho) → 0 ≤ normModal D u u) := by
  have h : ∀ u z : α → EigFld, normModal D u z = formM D u z := by
    intro u z
    rw [formM, eigTotal, normModal, sum_flatten]
    congr 1
    apply List.map_congr_left
    intro q _
    simp only [measure_area, dot]
    ring
  refine ⟨h u z, ?_, fun hq => ?_⟩
  · rw [h, h, formM, formM]
    congr 1
    funext q
    ring
  · rw [h, formM, eigTotal]
    apply List.sum_nonneg
    intro x hx
    obtain ⟨q, -, rfl⟩ := List.mem_map.1 hx
    have h1 : 0 ≤ (u q).w.x * (u q).w.x + (u q).w.y * (u q).w.y + (u q).w.z * (u q).w.z := by
      nlinarith [mul_self_nonneg (u q).w.x, mul_self_nonneg (u q).w.y, mul_self_nonneg (u q).w.z]
    exact mul_nonneg (mul_nonneg (hq q).1 (mul_nonneg (hq q).2 h1)) (Real.sqrt_nonneg _)

/-- Non-vacuity: the norm of a unit displacement. -/
example : normModal (eig1 ⟨bent 0, bent 0, mm0, mm0, fun _ => 0, fun _ => 0, 2⟩)
    (fun _ => ⟨⟨0, 0, 1⟩, tilt 0, tilt 0⟩) (fun _ => ⟨⟨0, 0, 1⟩, tilt 0, tilt 0⟩) = 2 := by
  rw [(C99_norm _ _ _).1, formM, eig1_total _ (bent_area 0)]
  simp [eig1]

/-- **C99** The element errors add up to the estimate plus the difference of the eigenvalues. -/
theorem C99_elements_partial (k : EigKind) (lP lL lH : ℝ) (D : EigSetup α) (u zL zH : α → EigFld)
    (r r' : Result) :
    (eigEstimate .elements k lP lL lH D u zL zH r).errors.sum
        = (eigEstimate .total k lP lL lH D u zL zH r').error + (lH - lL) ∧
      (eigEstimate .elements k lP lL lH D u zL zH r).error
        = (eigEstimate .total k lP lL lH D u zL zH r').error := by
  constructor <;> simp [eigEstimate]

/-- **C99** They do not add up to the estimate: for an exact estimate of the difference 1 of two
eigenvalues, they add up to 2. -/
theorem C99_elements_violated :
    ∃ (D : EigSetup Unit) (u zL zH : Unit → EigFld) (lL lH : ℝ),
      formA D zL u = lL * formM D zL u ∧ formA D zH u = lH * formM D zH u ∧ formM D u u = 1 ∧
      formM D zH u = 1 ∧
      ∀ r, (eigEstimate .total .modal lL lL lH D u zL zH r).error = lH - lL ∧
        (eigEstimate .elements .modal lL lL lH D u zL zH r).errors.sum = 2 * (lH - lL) ∧
        lH - lL = 1 := by
  let p : EigPt := ⟨bent 0, bent 0, (fun i j => 4 * one11 i j, fun _ _ => 0, fun _ _ => 0,
      fun _ _ => 0), mm0, fun _ => 0, fun _ => 0, 1⟩
  let u : Unit → EigFld := fun _ => ⟨⟨0, 0, 1⟩, ⟨![⟨1, 0, 0⟩, 0], 0, 0, 0⟩, bent 0⟩
  let zL : Unit → EigFld := fun _ => ⟨0, ⟨![0, 0], 0, 0, 0⟩, bent 0⟩
  have h0 : area p.ori = 1 := bent_area 0
  have hm : formM (eig1 p) u u = 1 := by
    rw [formM, eig1_total p h0]; simp [eig1, p, u]
  have hL : formA (eig1 p) zL u = 3 * formM (eig1 p) zL u := by
    rw [formA, formM, eig1_total p h0, eig1_total p h0]
    simp [eig1, p, u, zL, linStiffness, rowMul, dotV, EmDer, dot, Fin.sum_univ_three]
  have hH : formA (eig1 p) u u = 4 * formM (eig1 p) u u := by
    rw [hm, formA, eig1_total p h0]
    simp [eig1, p, u, linStiffness, rowMul, dotV, EmDer, dot, bent, one11, mk3,
      Fin.sum_univ_three]
  refine ⟨eig1 p, u, zL, u, 3, 4, hL, hH, hm, hm, fun r => ?_⟩
  have h := C99_exact_partial (eig1 p) u zL u 3 4 r hL hH hm
  refine ⟨by rw [h, hm]; norm_num, ?_, by norm_num⟩
  rw [(C99_elements_partial .modal 3 3 4 (eig1 p) u zL u r r).1, h, hm]
  norm_num

/-- **C99** Function-wise eigenvalue errors: in the same situation the estimate is 0 instead of 1, and
the returned list is the one of the last computation, whatever that was. -/
theorem C99_dofs_violated :
    ∃ (D : EigSetup Unit) (u zL zH : Unit → EigFld) (lL lH : ℝ),
      (∀ r, (eigEstimate .total .modal lL lL lH D u zL zH r).error = 1) ∧
      (∀ r, (eigEstimate .dofs .modal lL lL lH D u zL zH r).error = 0) ∧
      ∀ l : List ℝ, ∃ r, (eigEstimate .dofs .modal lL lL lH D u zL zH r).errors = l := by
  obtain ⟨D, u, zL, zH, lL, lH, -, -, -, -, h⟩ := C99_elements_violated
  exact ⟨D, u, zL, zH, lL, lH, fun r => by rw [(h r).1, (h r).2.2], fun r => rfl,
    fun l => ⟨⟨0, l⟩, rfl⟩⟩

/-! ## C100 -/

/-- **C100** If neither geometry has second derivatives and no moments act (flat plate with in-plane
prestress), the buckling estimate is the residual of the eigenvalue problem with the assembler's
matrices.  Missing: curved geometries, moments. -/
theorem C100_flat_partial (D : EigSetup α) (hD : FlatState D) (u zL zH : α → EigFld) (lP lL lH : ℝ)
    (r : Result) :
    (eigEstimate .total .buckling lP lL lH D u zL zH r).error
      = (formA D zH u - lP * (formT D zH u - formA D zH u))
        - (formA D zL u - lP * (formT D zL u - formA D zL u))
        + (lH - lL) * (formT D u u - formA D u u - 1) := by
  show (D.elems.map (eigElem .buckling lP lL lH D u zL zH)).sum - (lH - lL) = _
  rw [eig_sum .buckling D (fun _ => hD)]
  simp only [formB]
  ring

/-- **C100** Under the same hypotheses the estimate is exact for eigenpairs. -/
theorem C100_exact_partial (D : EigSetup α) (hD : FlatState D) (u zL zH : α → EigFld) (lL lH : ℝ)
    (r : Result)
    (hL : formA D zL u = lL * (formT D zL u - formA D zL u))
    (hH : formA D zH u = lH * (formT D zH u - formA D zH u))
    (hn : formT D u u - formA D u u = 1) (hc : formT D zH u - formA D zH u = 1) :
    (eigEstimate .total .buckling lL lL lH D u zL zH r).error = lH - lL := by
  rw [C100_flat_partial D hD, hn]
  linear_combination hH - hL + (lH - lL) * hc

/-- Non-vacuity: a flat square with prestress 1 and bending stiffness 0 against membrane
stiffness. -/
example : let p : EigPt := ⟨bent 0, bent 0, (fun i j => 4 * one11 i j, fun _ _ => 0, fun _ _ => 0,
      fun _ _ => 0), (fun i j => 4 * one11 i j, fun _ _ => 0, fun _ _ => 0, fun _ _ => 0),
      vec3 1 0 0, fun _ => 0, 1⟩
    let u : Unit → EigFld := fun _ => ⟨⟨0, 0, 1⟩, ⟨![⟨1, 0, 0⟩, 0], 0, 0, 0⟩, bent 0⟩
    let zL : Unit → EigFld := fun _ => ⟨0, ⟨![0, 0], 0, 0, 0⟩, bent 0⟩
    (eigEstimate .total .buckling 3 3 4 (eig1 p) u zL u ⟨0, []⟩).error = 1 := by
  intro p u zL
  have h0 : area p.ori = 1 := bent_area 0
  have ha : formA (eig1 p) u u = 4 := by
    rw [formA, eig1_total p h0]
    simp [eig1, p, u, linStiffness, rowMul, dotV, EmDer, dot, bent, one11, mk3,
      Fin.sum_univ_three]
  have ht : formT (eig1 p) u u = 5 := by
    rw [formT, eig1_total p h0]
    show stiffness _ _ _ _ _ _ _ _ (fun _ => 0) = _
    rw [stiffness_flat]
    simp [eig1, p, u, linStiffness, rowMul, dotV, EmDer, EmDer2, dot, bent, one11, mk3,
      Fin.sum_univ_three]
    norm_num
  have ha0 : formA (eig1 p) zL u = 0 := by
    rw [formA, eig1_total p h0]
    simp [eig1, p, u, zL, linStiffness, rowMul, dotV, EmDer, dot, Fin.sum_univ_three]
  have ht0 : formT (eig1 p) zL u = 0 := by
    rw [formT, eig1_total p h0]
    show stiffness _ _ _ _ _ _ _ _ (fun _ => 0) = _
    rw [stiffness_flat]
    simp [eig1, p, u, zL, linStiffness, rowMul, dotV, EmDer, EmDer2, dot, Fin.sum_univ_three]
  have h := C100_exact_partial (eig1 p) (fun q => ⟨⟨rfl, rfl, rfl⟩, ⟨rfl, rfl, rfl⟩, rfl⟩) u zL u 3 4
    ⟨0, []⟩ (by rw [ha0, ht0]; norm_num) (by rw [ha, ht]; norm_num) (by rw [ha, ht]; norm_num)
    (by rw [ha, ht]; norm_num)
  rw [h]; norm_num

/-- **C100** On a curved surface the weight `zH - zL` is not a difference: for equal duals the
estimate should vanish and is 2. -/
theorem C100_difference_violated :
    ∃ (D : EigSetup Unit) (u z : Unit → EigFld), ∀ r,
      (eigEstimate .total .buckling 0 0 0 D u z z r).error = 2 := by
  let p : EigPt := ⟨bent ⟨1, 0, 0⟩, bent 0, mmD1, mm0, fun _ => 0, fun _ => 0, 1⟩
  let u : Unit → EigFld := fun _ => ⟨0, tilt 0, tilt 0⟩
  refine ⟨eig1 p, u, u, fun r => ?_⟩
  have hm : Variation.measure p.ori = 1 := bent_measure _
  have h1 : EfMinus p.ori (tilt 0) = vec3 (-1) 0 0 := by
    funext k
    simp only [EfMinus, p, bent_var1, bent_normal]
    rcases fin3_cases k with rfl | rfl | rfl <;> simp [dbl3, deriv2dot, bent, tilt, dot]
  have h2 : EfdMinus p.ori (tilt 0) (tilt 0) = vec3 (-2) 0 0 := by
    funext k
    simp only [EfdMinus, p, bent_var1, bent_normal]
    rcases fin3_cases k with rfl | rfl | rfl <;> simp [dbl3, deriv2dot, bent, tilt, dot]
    norm_num
  have hk : KdL p (u ()) (u ()) (u ()) = 2 := by
    simp only [KdL, u, h1, h2]
    simp [matPart, p, mmD1, rowMul, dotV, one11, mk3, Fin.sum_univ_three]
  show (List.map (eigElem .buckling 0 0 0 (eig1 p) u u u) [[()]]).sum - (0 - 0) = 2
  simp [eigElem, eigIntegrand, bucklingExpr, eig1, hm, hk]

/-- **C100** The sign of the variation of the normal is wrong: on a curved surface a field without
bending strain has the norm 4 instead of 0. -/
theorem C100_sign_violated :
    ∃ (D : EigSetup Unit) (u : Unit → EigFld), formT D u u - formA D u u = 0 ∧
      normBuckling D u u = 4 := by
  let p : EigPt := ⟨bent ⟨1, 0, 0⟩, bent ⟨1, 0, 0⟩, mm0, mmD1, fun _ => 0, fun _ => 0, 1⟩
  let u : Unit → EigFld := fun _ => ⟨0, tilt ⟨0, 0, 1⟩, tilt ⟨0, 0, 1⟩⟩
  have h0 : area p.ori = 1 := bent_area _
  have h1 : EfMinus p.defo (tilt ⟨0, 0, 1⟩) = vec3 (-2) 0 0 := by
    funext k
    simp only [EfMinus, p, bent_var1, bent_normal]
    rcases fin3_cases k with rfl | rfl | rfl <;> simp [dbl3, deriv2dot, bent, tilt, dot]
    norm_num
  have h2 : EfDer p.defo (tilt ⟨0, 0, 1⟩) = vec3 0 0 0 := by
    funext k
    simp only [EfDer, p, bent_var1, bent_normal]
    rcases fin3_cases k with rfl | rfl | rfl <;> simp [dbl3, deriv2dot, bent, tilt, dot]
  refine ⟨eig1 p, u, ?_, ?_⟩
  · rw [formT, formA, eig1_total p h0, eig1_total p h0]
    show stiffness _ _ _ _ _ _ _ _ (fun _ => 0) - _ = _
    rw [stiffness_flat]
    simp only [eig1, u, linStiffness, h2]
    simp [p, mm0, mmD1, rowMul, dotV, one11, mk3, Fin.sum_univ_three, EmDer2]
  · have hm : Variation.measure p.ori = 1 := bent_measure _
    have hk : KNL p (u ()) (u ()) = 4 := by
      simp only [KNL, u, h1]
      simp [matPart, p, mmD1, rowMul, dotV, one11, mk3, Fin.sum_univ_three, Ef2]
      norm_num
    have hk2 : KL p (u ()) (u ()) = 0 := by
      simp [KL, matPart, p, mm0, rowMul, dotV]
    simp [normBuckling, eig1, hm, hk, hk2]

/-- **C100** `deriv2` of a field reads the first quadrature point of the element: on a flat plate
with a moment, the norm depends on second derivatives at another point. -/
theorem C100_first_point_violated :
    ∃ (D : EigSetup Unit) (u z : Unit → EigFld), (∀ q, Flat (D.pt q).ori ∧ Flat (D.pt q).defo) ∧
      formT D u z - formA D u z = 0 ∧ normBuckling D u z = 1 := by
  let p : EigPt := ⟨bent 0, bent 0, mm0, mm0, fun _ => 0, vec3 1 0 0, 1⟩
  let u : Unit → EigFld := fun _ => ⟨0, tilt 0, tilt 0⟩
  let z : Unit → EigFld := fun _ => ⟨0, ⟨![0, 0], 0, 0, 0⟩, ⟨![0, 0], ⟨1, 0, 0⟩, 0, 0⟩⟩
  have h0 : area p.ori = 1 := bent_area _
  have hm : Variation.measure p.ori = 1 := bent_measure _
  have hv : ∀ c, var1 (bent 0) (tilt c) = ⟨-1, 0, 0⟩ := bent_var1 0
  refine ⟨eig1 p, u, z, fun q => ⟨⟨rfl, rfl, rfl⟩, ⟨rfl, rfl, rfl⟩⟩, ?_, ?_⟩
  · have e : ∀ w, deriv2dot (bent 0) w = fun _ => 0 := deriv2dot_flat _ ⟨rfl, rfl, rfl⟩
    rw [formT, formA, eig1_total p h0, eig1_total p h0]
    simp only [eig1, u, z, p, stiffness, EfDer2, flatdot2, var2deriv2, e]
    simp [mm0, linStiffness, rowMul, dotV, EmDer2, tilt, dot, dbl3, deriv2dot, Fin.sum_univ_three]
  · have e : ∀ w, deriv2dot (bent 0) w = fun _ => 0 := deriv2dot_flat _ ⟨rfl, rfl, rfl⟩
    have hk : KNL p (u ()) (z ()) = 1 := by
      simp only [KNL, u, z, p, Ef2, hv, e]
      simp [matPart, mm0, rowMul, dotV, Fin.sum_univ_three, dbl3, deriv2dot, dot, tilt, EmDer]
    have hk2 : KL p (u ()) (z ()) = 0 := by
      simp [KL, matPart, p, mm0, rowMul, dotV]
    simp [normBuckling, eig1, hm, hk, hk2]

/-- **C100** The second variation is multiplied twice with the second derivatives of the surface: the
geometric stiffness of the moments is 0 instead of 1. -/
theorem C100_second_variation_violated :
    ∃ (D : EigSetup Unit) (u : Unit → EigFld), (∀ q, (u q).first = (u q).d) ∧
      formT D u u - formA D u u = 1 ∧ normBuckling D u u = 0 := by
  let p : EigPt := ⟨bent 0, bent ⟨0, 0, 1⟩, mm0, mm0, fun _ => 0, vec3 1 0 0, 1⟩
  let u : Unit → EigFld := fun _ => ⟨0, tilt 0, tilt 0⟩
  have h0 : area p.ori = 1 := bent_area _
  have hm : Variation.measure p.ori = 1 := bent_measure _
  have hv : var1 (bent ⟨0, 0, 1⟩) (tilt 0) = ⟨-1, 0, 0⟩ := bent_var1 _ _
  have hmv : mvec (bent ⟨0, 0, 1⟩) (tilt 0) = ⟨-1, 0, 0⟩ := by
    ext <;> simp only [mvec, bent_measure] <;> simp [tilt, cross, bent]
  have hx : ∀ x : V3, x = 0 → var2From (bent ⟨0, 0, 1⟩) (tilt 0) (tilt 0) x = ⟨0, 0, -1⟩ := by
    rintro x rfl
    ext <;> simp [var2From, hmv, hv, bent_normal, dot]
  have h2 : var2 (bent ⟨0, 0, 1⟩) (tilt 0) (tilt 0) = ⟨0, 0, -1⟩ :=
    hx _ (by ext <;> simp [muv, tilt, cross])
  have h3 : var2Fields (bent ⟨0, 0, 1⟩) (tilt 0) (tilt 0) = vec3 (-1) 0 0 := by
    rw [var2Fields, hx _ (by ext <;> simp [muvFields, tilt, cross])]
    funext k
    rcases fin3_cases k with rfl | rfl | rfl <;> simp [dbl3, deriv2dot, bent, dot]
  refine ⟨eig1 p, u, fun q => rfl, ?_, ?_⟩
  · rw [formT, formA, eig1_total p h0, eig1_total p h0]
    simp only [eig1, u, p, stiffness, EfDer2, flatdot2, var2deriv2, h2, hv]
    simp [mm0, linStiffness, rowMul, dotV, EmDer2, tilt, dot, dbl3, deriv2dot, Fin.sum_univ_three,
      bent]
  · have hk : KNL p (u ()) (u ()) = 0 := by
      simp only [KNL, u, p, Ef2, hv, h3]
      simp [matPart, mm0, rowMul, dotV, Fin.sum_univ_three, dbl3, deriv2dot, dot, tilt, EmDer, bent,
        asVec]
    have hk2 : KL p (u ()) (u ()) = 0 := by
      simp [KL, matPart, p, mm0, rowMul, dotV]
    simp [normBuckling, eig1, hm, hk, hk2]

end Verif.DWR
