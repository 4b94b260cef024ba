import Verif.Lemmas.Composite
import Verif.Model.Integrate

/-! # Properties C27 – C33: laminates -/

namespace Verif.Composite

open V3 Verif.Geometry

/-! ## C27 -/

/-- **C27** The laminate matrices are the integrals of the stiffness times `1`, `z`, `z²`
through the thickness, heights measured from the middle and layers listed from the top, for
every stack of layers with non-negative thickness. -/
theorem C27_layer_integrals (ls : List Layer) (hpos : ∀ l ∈ ls, 0 ≤ l.t) (i j : Fin 3) :
    abd .A ls i j = stiffMoment ls 0 i j ∧ abd .B ls i j = stiffMoment ls 1 i j ∧
    abd .C ls i j = stiffMoment ls 1 i j ∧ abd .D ls i j = stiffMoment ls 2 i j := by
  have key : ∀ m, stiffMoment ls m i j = sumInt m i j ls (thickness ls / 2 - 0) := by
    intro m
    unfold stiffMoment
    have : -(thickness ls / 2) = thickness ls / 2 - thickness ls := by ring
    rw [this, sub_zero]
    exact (integral_stiff m i j ls hpos _).2
  simp only [key]
  refine ⟨?_, ?_, ?_, ?_⟩ <;> rw [abd_eq] <;> apply acc_eq_sumInt <;> intro t h <;>
    simp only [factor] <;> push_cast <;> ring

/-- **C27** The section stiffnesses delivered by the evaluator for a laminate (whose material
declares itself already integrated) are those integrals, whatever the quadrature rule and the
thickness known to the evaluator. -/
theorem C27_evaluator (ls : List Layer) (hpos : ∀ l ∈ ls, 0 ≤ l.t) (i j : Fin 3)
    (r : Integrate.Rule) (t : ℝ) :
    Integrate.evalInto .integrated r .matrixA t (fun _ => abd .A ls i j) = .ok (stiffMoment ls 0 i j) ∧
    Integrate.evalInto .integrated r .matrixB t (fun _ => abd .B ls i j) = .ok (stiffMoment ls 1 i j) ∧
    Integrate.evalInto .integrated r .matrixC t (fun _ => abd .C ls i j) = .ok (stiffMoment ls 1 i j) ∧
    Integrate.evalInto .integrated r .matrixD t (fun _ => abd .D ls i j) = .ok (stiffMoment ls 2 i j) := by
  obtain ⟨h1, h2, h3, h4⟩ := C27_layer_integrals ls hpos i j
  simp only [Integrate.evalInto, h1, h2, h3, h4, and_self]

/-- Non-vacuity: two layers with positive thickness. -/
example : ∀ l ∈ [(⟨1, mk3 1 0 0 0 1 0 0 0 1, 0, 2⟩ : Layer), ⟨2, mk3 3 0 0 0 3 0 0 0 3, 0, 2⟩],
    0 ≤ l.t := by
  intro l hl; simp at hl; rcases hl with rfl | rfl <;> norm_num

/-! ## C28 -/

/-- **C28** Reversing the stacking sequence leaves `A` and `D` unchanged and negates `B`. -/
theorem C28_reverse (ls : List Layer) (i j : Fin 3) :
    abd .A ls.reverse i j = abd .A ls i j ∧ abd .B ls.reverse i j = -abd .B ls i j ∧
    abd .C ls.reverse i j = -abd .C ls i j ∧ abd .D ls.reverse i j = abd .D ls i j := by
  simp only [abd_eq, thickness_reverse]
  have hr : ∀ f, acc f i j ls.reverse 0 (thickness ls / 2) =
      acc (fun t dz => f t (-dz)) i j ls 0 (thickness ls / 2) :=
    fun f => acc_reverse f i j ls 0 0 _ (by ring)
  refine ⟨?_, ?_, ?_, ?_⟩
  · rw [hr]; rfl
  · rw [hr, ← acc_neg]; congr 1; funext t dz; simp [factor]
  · rw [hr, ← acc_neg]; congr 1; funext t dz; simp [factor]
  · rw [hr]; congr 1; funext t dz; simp [factor]

/-- **C28** A laminate symmetric about its middle plane has no membrane-bending coupling. -/
theorem C28_symmetric_no_coupling (ls : List Layer) (h : ls.reverse = ls) (i j : Fin 3) :
    abd .B ls i j = 0 ∧ abd .C ls i j = 0 := by
  have := C28_reverse ls i j
  rw [h] at this
  exact ⟨by linarith [this.2.1], by linarith [this.2.2.1]⟩

/-- Non-vacuity: a symmetric three-layer laminate. -/
example (a b : Layer) : [a, b, a].reverse = [a, b, a] := by simp

/-! ## C29 -/

/-- **C29** Splitting a layer into two layers of the same stiffness, angle and density changes
nothing: `A`, `B`, `D`, total thickness and mass per area. -/
theorem C29_split (pre post : List Layer) (l : Layer) (t1 t2 : ℝ) (ht : t1 + t2 = l.t) (w : Which)
    (i j : Fin 3) :
    abd w (pre ++ { l with t := t1 } :: { l with t := t2 } :: post) i j = abd w (pre ++ l :: post) i j ∧
    total (pre ++ { l with t := t1 } :: { l with t := t2 } :: post) = total (pre ++ l :: post) ∧
    mass (pre ++ { l with t := t1 } :: { l with t := t2 } :: post) = mass (pre ++ l :: post) := by
  have hth : thickness (pre ++ { l with t := t1 } :: { l with t := t2 } :: post)
      = thickness (pre ++ l :: post) := by
    simp only [thickness_append, thickness_cons]; linarith
  refine ⟨?_, ?_, ?_⟩
  · rw [abd_eq, abd_eq, hth, acc_append, acc_append]
    simp only [acc]
    have hD1 : plyD { l with t := t1 } = plyD l := rfl
    have hD2 : plyD { l with t := t2 } = plyD l := rfl
    rw [hD1, hD2]
    have hp : 0 + thickness pre + t1 + t2 = 0 + thickness pre + l.t := by linarith
    rw [hp]
    cases w <;> simp only [factor] <;> rw [← ht] <;> ring
  · rw [total_eq, total_eq, hth]
  · rw [mass_eq, mass_eq]
    simp only [List.map_append, List.map_cons, List.sum_append, List.sum_cons]
    have : t1 * l.ρ + t2 * l.ρ = l.t * l.ρ := by rw [← ht]; ring
    linarith

/-- **C29** The mass per area is the integral of the density of the layers through the
thickness. -/
theorem C29_mass (ls : List Layer) (hpos : ∀ l ∈ ls, 0 ≤ l.t) :
    mass ls = ∫ z in (-(thickness ls / 2))..(thickness ls / 2), densAt ls (thickness ls / 2) z := by
  have h := (integral_stiff 0 0 0 (ls.map massLayer)
    (by intro l hl; obtain ⟨x, hx, rfl⟩ := List.mem_map.1 hl; exact hpos x hx)
    (thickness ls / 2)).2
  rw [thickness_massLayer, sumInt_massLayer] at h
  have e : -(thickness ls / 2) = thickness ls / 2 - thickness ls := by ring
  rw [mass_eq, ← h, e]
  simp only [pow_zero, one_mul, densAt_eq]

/-- Non-vacuity: a layer of thickness 3 split as 1 + 2. -/
example : (1 : ℝ) + 2 = (⟨3, mk3 1 0 0 0 1 0 0 0 1, 0, 5⟩ : Layer).t := by norm_num

/-! ## C30 -/

/-- Ply with identity stiffness scaled by `c`. -/
def scaledPly (t c : ℝ) : Layer := ⟨t, mk3 c 0 0 0 c 0 0 0 c, 0, 0⟩

theorem plyD_scaled (t c : ℝ) : plyD (scaledPly t c) = mk3 c 0 0 0 c 0 0 0 c := by
  funext i j
  rcases fin3_cases i with rfl | rfl | rfl <;> rcases fin3_cases j with rfl | rfl | rfl <;>
    simp [plyD, scaledPly, mul3, transpose3, rot, Fin.sum_univ_three]

/-- **C30** is violated: in an unsymmetric laminate pure bending causes a normal force
(`B κ ≠ 0`), but the returned force resultant does not contain it, and likewise the moment. -/
theorem C30_coupling_violated :
    ∃ (ls : List Layer) (ε κ : Voigt) (k : Fin 3),
      vectorN ls ε k ≠ mulVec3 (abd .A ls) ε k + mulVec3 (abd .B ls) κ k ∧
      vectorM ls κ k ≠ mulVec3 (abd .C ls) ε k + mulVec3 (abd .D ls) κ k := by
  refine ⟨[scaledPly 1 1, scaledPly 1 3], vec3 1 0 0, vec3 1 0 0, 0, ?_⟩
  have hB : mulVec3 (abd .B [scaledPly 1 1, scaledPly 1 3]) (vec3 1 0 0) 0 = -1 := by
    simp [mulVec3, Fin.sum_univ_three, abd_eq, acc, factor, plyD_scaled, thickness]
    norm_num [scaledPly]
  have hC : mulVec3 (abd .C [scaledPly 1 1, scaledPly 1 3]) (vec3 1 0 0) 0 = -1 := hB
  rw [hB, hC]
  unfold vectorN vectorM
  constructor <;> intro h <;> linarith

/-- **C30** (partial) The resultants are consistent with the stiffness matrices when the
coupling matrix vanishes, in particular for symmetric laminates.  Missing: `B ≠ 0`. -/
theorem C30_coupling_partial (ls : List Layer) (hB : ∀ i j, abd .B ls i j = 0) (ε κ : Voigt)
    (k : Fin 3) :
    vectorN ls ε k = mulVec3 (abd .A ls) ε k + mulVec3 (abd .B ls) κ k ∧
    vectorM ls κ k = mulVec3 (abd .C ls) ε k + mulVec3 (abd .D ls) κ k := by
  have hC : ∀ i j, abd .C ls i j = 0 := hB
  unfold vectorN vectorM
  constructor <;> simp [mulVec3, hB, hC]

/-- Non-vacuity: a symmetric laminate. -/
example : ∀ i j, abd .B [scaledPly 1 1, scaledPly 2 3, scaledPly 1 1] i j = 0 :=
  fun i j => (C28_symmetric_no_coupling _ (by simp) i j).1

/-! ## C31 -/

/-- **C31** Rotation by zero is the identity. -/
theorem C31_zero (i j : Fin 3) : rot 0 i j = δ i j := by
  rcases fin3_cases i with rfl | rfl | rfl <;> rcases fin3_cases j with rfl | rfl | rfl <;>
    simp [rot, δ]

/-- **C31** Rotations compose additively. -/
theorem C31_compose (φ ψ : ℝ) (i j : Fin 3) : mul3 (rot φ) (rot ψ) i j = rot (φ + ψ) i j := by
  have h1 := Real.sin_sq_add_cos_sq φ
  have h2 := Real.sin_sq_add_cos_sq ψ
  rcases fin3_cases i with rfl | rfl | rfl <;> rcases fin3_cases j with rfl | rfl | rfl <;>
    simp [mul3, rot, Fin.sum_univ_three, Real.sin_add, Real.cos_add] <;> ring

/-- **C31** Rotation by `π` changes nothing. -/
theorem C31_pi (i j : Fin 3) : rot Real.pi i j = δ i j := by
  rcases fin3_cases i with rfl | rfl | rfl <;> rcases fin3_cases j with rfl | rfl | rfl <;>
    simp [rot, δ]

/-- **C31** The matrix maps the Voigt strain (doubled shear) to the one in the rotated axes. -/
theorem C31_strain (φ : ℝ) (e : T2) (he : e 0 1 = e 1 0) (k : Fin 3) :
    mulVec3 (rot φ) (strainVec e) k = strainVec (rotated φ e) k := by
  rcases fin3_cases k with rfl | rfl | rfl <;>
    simp [mulVec3, strainVec, rot, rotated, Fin.sum_univ_three, Fin.sum_univ_two, he] <;> ring

/-- **C31** The energy of a strain with the rotated ply is the energy of the strain in ply
axes with the unrotated stiffness. -/
theorem C31_energy (l : Layer) (e : T2) (he : e 0 1 = e 1 0) :
    dotV (strainVec e) (mulVec3 (plyD l) (strainVec e)) =
      dotV (strainVec (rotated l.φ e)) (mulVec3 l.G (strainVec (rotated l.φ e))) := by
  have h : mulVec3 (rot l.φ) (strainVec e) = strainVec (rotated l.φ e) :=
    funext (C31_strain l.φ e he)
  rw [← h]
  generalize strainVec e = v
  generalize hR : rot l.φ = R
  simp only [plyD, hR, dotV, mulVec3, mul3, transpose3, Fin.sum_univ_three]
  ring

/-- **C31** Rotating twice is rotating by the sum of the angles. -/
theorem C31_stiffness_compose (t ρ φ ψ : ℝ) (G : T3) :
    plyD ⟨t, plyD ⟨t, G, φ, ρ⟩, ψ, ρ⟩ = plyD ⟨t, G, φ + ψ, ρ⟩ := by
  have h : rot (φ + ψ) = mul3 (rot φ) (rot ψ) := by
    funext i j; exact (C31_compose φ ψ i j).symm
  funext i j
  simp only [plyD, h]
  generalize rot φ = R
  generalize rot ψ = S
  simp only [mul3, transpose3, Fin.sum_univ_three]
  ring

/-- **C31** An isotropic ply is not affected by its angle. -/
theorem C31_isotropic (t ρ φ a b : ℝ) (i j : Fin 3) :
    plyD ⟨t, mk3 a b 0 b a 0 0 0 ((a - b) / 2), φ, ρ⟩ i j = mk3 a b 0 b a 0 0 0 ((a - b) / 2) i j := by
  have h : Real.cos φ ^ 2 = 1 - Real.sin φ ^ 2 := by linarith [Real.sin_sq_add_cos_sq φ]
  have h4 : Real.cos φ ^ 4 = (1 - Real.sin φ ^ 2) ^ 2 := by rw [← h]; ring
  rcases fin3_cases i with rfl | rfl | rfl <;> rcases fin3_cases j with rfl | rfl | rfl <;>
    simp [plyD, mul3, transpose3, rot, Fin.sum_univ_three] <;> ring_nf <;>
    simp only [h4, h] <;> ring

/-- Non-vacuity: a quarter turn exchanges the two directions. -/
example (k1 k2 k3 k4 : ℝ) :
    plyD ⟨1, mk3 k1 k2 0 k2 k3 0 0 0 k4, Real.pi / 2, 0⟩ 0 0 = k3 := by
  simp [plyD, mul3, transpose3, rot, Fin.sum_univ_three]

/-! ## C32 -/

theorem toSurface_orthogonal_aux (p q : ℝ) (hp : p ≠ 0) (hq : q ≠ 0) (D : T3) (i j : Fin 3) :
    mul3 (mul3 (inv3 (mk3 (p * p) 0 0 0 (q * q) 0 0 0 (p * q))) D)
      (mk3 (1 / p * (1 / p)) 0 0 0 (1 / q * (1 / q)) 0 0 0 (1 / p * (1 / q))) i j =
    vec3 (1 / p * (1 / p)) (1 / q * (1 / q)) (1 / p * (1 / q)) i * D i j *
      vec3 (1 / p * (1 / p)) (1 / q * (1 / q)) (1 / p * (1 / q)) j := by
  rcases fin3_cases i with rfl | rfl | rfl <;> rcases fin3_cases j with rfl | rfl | rfl <;>
    simp only [mul3, inv3, det3, Fin.sum_univ_three, mk3_zero, mk3_one, mk3_two, vec3_zero,
      vec3_one, vec3_two] <;> field_simp <;> ring

/-- **C32** (partial) For an orthogonal parametrisation (`a1 · a2 = 0`) with the dual basis,
the laminate stiffness is transformed as a tensor: every entry equals the component of the
fourth-order tensor in the surface basis.  Missing: skew parametrisations, see the violation. -/
theorem C32_toSurface_partial (a1 a2 ac1 ac2 : V3) (h1 : a1 ≠ 0) (h2 : a2 ≠ 0)
    (hort : dot a1 a2 = 0) (hac1 : ac1 = (1 / dot a1 a1) • a1) (hac2 : ac2 = (1 / dot a2 a2) • a2)
    (D : T3) (i j k l : Fin 2) (hij : (i, j) ∈ [((0 : Fin 2), (0 : Fin 2)), (1, 1), (0, 1)])
    (hkl : (k, l) ∈ [((0 : Fin 2), (0 : Fin 2)), (1, 1), (0, 1)]) :
    toSurface a1 a2 ac1 ac2 D (vi i j) (vi k l) =
      tensorComp D (fun i α => if i = 0 then (if α = 0 then dot ac1 (normalized a1) else
          dot ac1 (normalized ac2)) else (if α = 0 then dot ac2 (normalized a1) else
          dot ac2 (normalized ac2))) i j k l := by
  have n1 := norm_pos h1
  have n2 := norm_pos h2
  have s1 := norm_sq a1
  have s2 := norm_sq a2
  have e2 : normalized ac2 = normalized a2 := by
    have hn : V3.norm ac2 = V3.norm a2 / dot a2 a2 := by
      unfold V3.norm
      rw [hac2, dot_smul_left, dot_smul_right, ← mul_assoc, Real.sqrt_mul (mul_self_nonneg _),
        Real.sqrt_mul_self (by rw [one_div]; exact inv_nonneg.2 (dot_self_nonneg _))]
      ring
    have hd : dot a2 a2 ≠ 0 := (dot_self_pos h2).ne'
    unfold normalized
    rw [hn, hac2]
    ext <;> simp <;> field_simp
  have d11 : dot a1 (normalized a1) = V3.norm a1 := by
    unfold normalized; rw [dot_smul_right, ← s1]; field_simp
  have d22 : dot a2 (normalized a2) = V3.norm a2 := by
    unfold normalized; rw [dot_smul_right, ← s2]; field_simp
  have d12 : dot a1 (normalized a2) = 0 := by unfold normalized; rw [dot_smul_right, hort]; simp
  have d21 : dot a2 (normalized a1) = 0 := by
    unfold normalized; rw [dot_smul_right, dot_comm, hort]; simp
  have c11 : dot ac1 (normalized a1) = 1 / V3.norm a1 := by
    rw [hac1, dot_smul_left, d11, ← s1]; field_simp
  have c22 : dot ac2 (normalized a2) = 1 / V3.norm a2 := by
    rw [hac2, dot_smul_left, d22, ← s2]; field_simp
  have c12 : dot ac1 (normalized a2) = 0 := by rw [hac1, dot_smul_left, d12]; simp
  have c21 : dot ac2 (normalized a1) = 0 := by rw [hac2, dot_smul_left, d21]; simp
  have hraw : cart2covRaw a1 a2 (normalized a1) (normalized a2) =
      mk3 (V3.norm a1 * V3.norm a1) 0 0 0 (V3.norm a2 * V3.norm a2) 0 0 0 (V3.norm a1 * V3.norm a2) := by
    unfold cart2covRaw
    rw [dot_comm (normalized a1) a1, dot_comm (normalized a1) a2, dot_comm (normalized a2) a1,
      dot_comm (normalized a2) a2, d11, d22, d12, d21]
    simp
  have hcon : con2cart ac1 ac2 (normalized a1) (normalized a2) =
      mk3 (1 / V3.norm a1 * (1 / V3.norm a1)) 0 0 0 (1 / V3.norm a2 * (1 / V3.norm a2)) 0 0 0
        (1 / V3.norm a1 * (1 / V3.norm a2)) := by
    unfold con2cart
    rw [dot_comm (normalized a1) ac1, dot_comm (normalized a1) ac2, dot_comm (normalized a2) ac1,
      dot_comm (normalized a2) ac2, c11, c22, c12, c21]
    simp
  unfold toSurface cart2cov
  rw [e2, hraw, hcon, toSurface_orthogonal_aux _ _ n1.ne' n2.ne', c11, c12, c21, c22]
  simp at hij hkl
  rcases hij with ⟨rfl, rfl⟩ | ⟨rfl, rfl⟩ | ⟨rfl, rfl⟩ <;>
    rcases hkl with ⟨rfl, rfl⟩ | ⟨rfl, rfl⟩ | ⟨rfl, rfl⟩ <;>
    simp [tensorComp, Fin.sum_univ_two, vi] <;> ring

/-- **C32** is violated for skew parametrisations: with tangents `(1,0,0)`, `(2,1,0)` (dual
basis `(1,-2,0)`, `(0,1,0)`) the transformed stiffness of an isotropic laminate differs from
the tensor components, and is not even symmetric. -/
theorem C32_toSurface_violated :
    ∃ (a1 a2 ac1 ac2 : V3) (D : T3), dot a1 ac1 = 1 ∧ dot a2 ac2 = 1 ∧ dot a1 ac2 = 0 ∧
      dot a2 ac1 = 0 ∧ (∀ i j, D i j = D j i) ∧ Indep a1 a2 ∧
      toSurface a1 a2 ac1 ac2 D 0 0 ≠
        tensorComp D (fun i α => if i = 0 then (if α = 0 then dot ac1 (normalized a1) else
          dot ac1 (normalized ac2)) else (if α = 0 then dot ac2 (normalized a1) else
          dot ac2 (normalized ac2))) 0 0 0 0 ∧
      toSurface a1 a2 ac1 ac2 D 0 2 ≠ toSurface a1 a2 ac1 ac2 D 2 0 := by
  refine ⟨⟨1, 0, 0⟩, ⟨2, 1, 0⟩, ⟨1, -2, 0⟩, ⟨0, 1, 0⟩, mk3 1 0 0 0 1 0 0 0 (1 / 2), ?_⟩
  have e1 : normalized (⟨1, 0, 0⟩ : V3) = ⟨1, 0, 0⟩ := by
    unfold normalized V3.norm dot; ext <;> simp
  have e2 : normalized (⟨0, 1, 0⟩ : V3) = ⟨0, 1, 0⟩ := by
    unfold normalized V3.norm dot; ext <;> simp
  refine ⟨by simp [dot], by simp [dot], by simp [dot], by simp [dot], ?_, ?_, ?_, ?_⟩
  · intro i j
    rcases fin3_cases i with rfl | rfl | rfl <;> rcases fin3_cases j with rfl | rfl | rfl <;> simp
  · intro c d h
    have hx := congrArg V3.x h
    have hy := congrArg V3.y h
    simp at hx hy
    subst hy; simp at hx; exact ⟨hx, rfl⟩
  · simp only [toSurface, e1, e2]
    simp [cart2cov, cart2covRaw, con2cart, mul3, inv3, det3, Fin.sum_univ_three, dot, tensorComp,
      Fin.sum_univ_two, vi]
    norm_num
  · simp only [toSurface, e1, e2]
    simp [cart2cov, cart2covRaw, con2cart, mul3, inv3, det3, Fin.sum_univ_three, dot]
    norm_num

/-- Non-vacuity of the orthogonal case. -/
example : dot (⟨2, 0, 0⟩ : V3) ⟨0, 3, 0⟩ = 0 := by simp [dot]

/-! ## C33 -/

/-- **C33** The orthotropic stiffness is symmetric and is the inverse of the orthotropic
compliance, whenever reciprocity holds and the constants are non-degenerate; without
reciprocity an error is raised. -/
theorem C33_orthotropic (Exx Eyy Gxy nuxy nuyx : ℝ) (hx : Exx ≠ 0) (hy : Eyy ≠ 0) (hG : Gxy ≠ 0)
    (hd : 1 - nuxy * nuyx ≠ 0) :
    (nuyx * Exx = nuxy * Eyy → ∃ G, orthotropic Exx Eyy Gxy nuxy nuyx = .ok G ∧
      (∀ i j, G i j = G j i) ∧
      ∀ i j, mul3 G (mk3 (1 / Exx) (-nuxy / Exx) 0 (-nuyx / Eyy) (1 / Eyy) 0 0 0 (1 / Gxy)) i j =
        δ i j) ∧
    (nuyx * Exx ≠ nuxy * Eyy → orthotropic Exx Eyy Gxy nuxy nuyx = .throws) := by
  constructor
  · intro h
    refine ⟨_, by unfold orthotropic; rw [if_pos h, if_neg hd], ?_, ?_⟩
    · intro i j
      rcases fin3_cases i with rfl | rfl | rfl <;> rcases fin3_cases j with rfl | rfl | rfl <;>
        simp [h]
    · intro i j
      rcases fin3_cases i with rfl | rfl | rfl <;> rcases fin3_cases j with rfl | rfl | rfl <;>
        simp [mul3, Fin.sum_univ_three, δ, hG] <;> field_simp <;>
        first | ring1 | linear_combination h | linear_combination -h | linear_combination nuyx * h |
          linear_combination (-nuyx) * h | linear_combination nuxy * h
  · intro h; unfold orthotropic; rw [if_neg h]

/-- **C33** is violated by the constructor from nine raw entries: it stores `G12` in row 2,
column 1 and `G21` in row 1, column 2, while `G13`, `G31`, `G23`, `G32` are placed as named. -/
theorem C33_raw_violated :
    ∃ M : T3, raw9 (M 0 0) (M 1 1) (M 2 2) (M 0 1) (M 0 2) (M 1 2) (M 1 0) (M 2 0) (M 2 1) 0 1 ≠ M 0 1 :=
  ⟨mk3 0 1 0 2 0 0 0 0 0, by simp [raw9]⟩

/-- **C33** (partial) The raw constructors place the entries as named whenever `G12 = G21`;
the constructor from six entries is always symmetric. -/
theorem C33_raw_partial (M : T3) (h : M 0 1 = M 1 0) (i j : Fin 3) :
    raw9 (M 0 0) (M 1 1) (M 2 2) (M 0 1) (M 0 2) (M 1 2) (M 1 0) (M 2 0) (M 2 1) i j = M i j := by
  rcases fin3_cases i with rfl | rfl | rfl <;> rcases fin3_cases j with rfl | rfl | rfl <;>
    simp [raw9, h]

/-- **C33** The constructor from six entries builds the symmetric matrix with these entries. -/
theorem C33_raw6 (M : T3) (h : ∀ i j, M i j = M j i) (i j : Fin 3) :
    raw6 (M 0 0) (M 1 1) (M 2 2) (M 0 1) (M 0 2) (M 1 2) i j = M i j := by
  have h1 := h 0 1; have h2 := h 0 2; have h3 := h 1 2
  rcases fin3_cases i with rfl | rfl | rfl <;> rcases fin3_cases j with rfl | rfl | rfl <;>
    simp [raw6, h1, h2, h3]

/-- Non-vacuity: orthotropic constants satisfying reciprocity. -/
example : (1 / 8 : ℝ) * 2 = (1 / 4) * 1 ∧ (1 : ℝ) - 1 / 4 * (1 / 8) ≠ 0 := by norm_num

end Verif.Composite
