import Verif.Lemmas.OgdenReference

/-! # Property C172: small strains of the spectral materials -/

namespace Verif.OgdenReference

open Verif.Hyper Verif.Spectral Spec.OgdenReference

/-- **C172** Incompressible materials, spectral implementation: in the undeformed state the tangent is that of an
incompressible isotropic solid at small strains, for every orthonormal basis of principal directions, with the shear
modulus `μ`, `c₁ + c₂` or `Σ μᵢ αᵢ / 2`. -/
theorem C172_incompressible (p : Par) (terms : List (ℝ × ℝ)) (P : T2) (i j k l : Fin 2) :
    cProj (CabI (potNH p) (vec3 1 1 1)) P i j k l = planeIncompressible p.mu (metric P) i j k l ∧
    cProj (CabI (potMR p) (vec3 1 1 1)) P i j k l = planeIncompressible (p.c1 + p.c2) (metric P) i j k l ∧
    cProj (CabI (potOG terms) (vec3 1 1 1)) P i j k l
      = planeIncompressible (ogdenShear terms) (metric P) i j k l := by
  refine ⟨?_, ?_, ?_⟩
  · rw [cabI (fun a => (nh_d p a a).1) fun a b => (nh_d p a b).2]
    congr 1; ring
  · rw [cabI (fun a => (mr_d p a a).1) fun a b => (mr_d p a b).2]
    congr 1; ring
  · rw [cabI (fun a => (ogden_d terms a a).1) fun a b => (ogden_d terms a b).2]
    congr 1; ring

example : cProj (CabI (potOG [(3, 2), (1, -2)]) (vec3 1 1 1)) ![![1, 0], ![1, 1]] 0 0 1 1
    = planeIncompressible 2 (metric ![![1, 0], ![1, 1]]) 0 0 1 1 := by
  rw [(C172_incompressible ⟨1, 0, 1⟩ _ _ _ _ _ _).2.2]
  norm_num [ogdenShear]

/-- **C172** Compressible materials: the same with plane stress, the bulk modulus of `E` and `ν`, and for the Ogden
material the shear modulus `Σ μᵢ αᵢ / 2`. -/
theorem C172_compressible (p : Par) (terms : List (ℝ × ℝ)) (P : T2) (i j k l : Fin 2) :
    (p.K + 4 / 3 * p.mu ≠ 0 → cProj (CabCond (potNHc p) (vec3 1 1 1)) P i j k l
      = planeStress (p.K - 2 / 3 * p.mu) p.mu (metric P) i j k l) ∧
    (p.K + 4 / 3 * (p.c1 + p.c2) ≠ 0 → cProj (CabCond (potMRc p) (vec3 1 1 1)) P i j k l
      = planeStress (p.K - 2 / 3 * (p.c1 + p.c2)) (p.c1 + p.c2) (metric P) i j k l) ∧
    (p.K + 4 / 3 * ogdenShear terms ≠ 0 → cProj (CabCond (potOGc p terms) (vec3 1 1 1)) P i j k l
      = planeStress (p.K - 2 / 3 * ogdenShear terms) (ogdenShear terms) (metric P) i j k l) ∧
    (p.lam + 2 * p.mu ≠ 0 → cProj (CabCond (potNHe p) (vec3 1 1 1)) P i j k l
      = planeStress p.lam p.mu (metric P) i j k l) := by
  refine ⟨fun h => ?_, fun h => ?_, fun h => ?_, fun h => ?_⟩
  · exact cabC (fun a => (nhc_d p a a).1) (fun a b => (nhc_d p a b).2) (fun h' => h (by linarith)) ..
  · exact cabC (fun a => (mrc_d p a a).1) (fun a b => (mrc_d p a b).2) (fun h' => h (by linarith)) ..
  · exact cabC (fun a => (ogdenC_d p terms a a).1) (fun a b => (ogdenC_d p terms a b).2) (fun h' => h (by linarith)) ..
  · exact cabC (fun a => (nhe_d p a a).1) (fun a b => (nhe_d p a b).2) h ..

/-- **C172** The Ogden material has the small-strain stiffness of the linear material with the same `E` and `ν` if
`Σ μᵢ αᵢ = 2 μ`, in particular with the parameters of the example and the unit tests. -/
theorem C172_linear_partial (p : Par) (hE : 0 < p.E) (h1 : -1 < p.ν) (h2 : p.ν < 1 / 2) (terms : List (ℝ × ℝ))
    (h : ogdenShear terms = p.mu ∨ terms = programTerms p.mu) (P : T2) (i j k l : Fin 2) :
    cProj (CabCond (potOGc p terms) (vec3 1 1 1)) P i j k l = Linear.Cval p.E p.ν (metric P) i j k l := by
  have hs : ogdenShear terms = p.mu := by
    rcases h with h | rfl
    · exact h
    · simp only [ogdenShear, programTerms, List.map_cons, List.map_nil, List.sum_cons, List.sum_nil]
      norm_num
      ring
  have a1 : 0 < 1 + p.ν := by linarith
  have a2 : 0 < 1 - 2 * p.ν := by linarith
  have k3 : p.K = p.E / (3 * (1 - 2 * p.ν)) := by unfold Par.K; congr 1; ring
  have hK : 0 < p.K := by rw [k3]; positivity
  have hm : 0 < p.mu := by unfold Par.mu; positivity
  have hl : p.K - 2 / 3 * p.mu = Linear.lam p.E p.ν := by
    rw [k3]; unfold Par.mu Linear.lam; field_simp; ring
  rw [(C172_compressible p terms P i j k l).2.2.1 (by rw [hs]; positivity), hs, hl]
  show planeStress (Linear.lam p.E p.ν) (Linear.mu p.E p.ν) _ _ _ _ _ = _
  unfold planeStress Linear.Cval Linear.Cconst
  ring

example (i j k l : Fin 2) : cProj (CabCond (potOGc ⟨4.35e6, 0.45, 1⟩ (programTerms 1.5e6)) (vec3 1 1 1))
    ![![1, 0], ![1, 1]] i j k l = Linear.Cval 4.35e6 0.45 (metric ![![1, 0], ![1, 1]]) i j k l :=
  C172_linear_partial ⟨4.35e6, 0.45, 1⟩ (by norm_num) (by norm_num) (by norm_num) _
    (.inr (by norm_num [Par.mu])) ..

/-- **C172** The tangent computed in the undeformed state (deformed metric = undeformed metric `A`, squared thickness
stretch 1), with the principal stretches and directions of a correct eigenvalue decomposition. -/
theorem C172_undeformed {A : T2} {g : Cols} {solver : T3 → Eig} (r : Regular A A g (eigOf solver (Bmat A g)))
    (terms : List (ℝ × ℝ)) (i j k l : Fin 2) :
    cSpecI solver (potOG terms) A (data A A).J0 g i j k l
      = planeIncompressible (ogdenShear terms) (inv2 A) i j k l ∧
    ∀ p : Par, 0 < p.E → -1 < p.ν → p.ν < 1 / 2 → ogdenShear terms = p.mu →
      cSpecC solver (potOGc p terms) A 1 g i j k l = Linear.Cval p.E p.ν (inv2 A) i j k l := by
  obtain ⟨hs, hJ, hm⟩ := undeformed r
  have hm' : metric (projection solver A g) = inv2 A := funext fun i => funext fun j => hm i j
  constructor
  · rw [cSpecI, hJ, div_one, hs, (C172_incompressible ⟨1, 0, 1⟩ terms _ _ _ _ _).2.2, hm']
  · intro p hE h1 h2 h
    rw [cSpecC, hs, C172_linear_partial p hE h1 h2 terms (.inl h), hm']

/-- A square in the plane `z = 0`, with the directions of the program's shortcut. -/
example (solver : T3 → Eig) (i j k l : Fin 2) :
    cSpecI solver (potOG [(3, 2), (1, -2)]) ![![1, 0], ![0, 1]] (data ![![1, 0], ![0, 1]] ![![1, 0], ![0, 1]]).J0
      (mk3 1 0 0 0 1 0 0 0 1) i j k l = planeIncompressible 2 (inv2 ![![1, 0], ![0, 1]]) i j k l := by
  have hs : shortcut (Bmat ![![1, 0], ![0, 1]] (mk3 1 0 0 0 1 0 0 0 1)) := by
    simp [shortcut, Bmat, Fin.sum_univ_two, eps]
  have r : Regular ![![1, 0], ![0, 1]] ![![1, 0], ![0, 1]] (mk3 1 0 0 0 1 0 0 0 1)
      (eigOf solver (Bmat ![![1, 0], ![0, 1]] (mk3 1 0 0 0 1 0 0 0 1))) := by
    rw [eigOf, if_pos hs]
    refine ⟨by simp [det2], by simp, ⟨by simp, ?_⟩, ?_, ?_, by simp [cdot, Fin.sum_univ_three],
      ⟨by simp, ?_, ?_⟩⟩
    · intro x y h
      simp
      rcases h with h | h
      · nlinarith [sq_nonneg y, sq_pos_of_ne_zero h]
      · nlinarith [sq_nonneg x, sq_pos_of_ne_zero h]
    · intro i j
      rcases fin2_cases i with rfl | rfl <;> rcases fin2_cases j with rfl | rfl <;>
        simp [cdot, Fin.sum_univ_three, inv2, det2]
    · intro i
      rcases fin2_cases i with rfl | rfl <;> simp [cdot, Fin.sum_univ_three]
    · intro a b
      rcases fin3_cases a with rfl | rfl | rfl <;> rcases fin3_cases b with rfl | rfl | rfl <;>
        simp [Fin.sum_univ_three]
    · intro a i
      rcases fin3_cases a with rfl | rfl | rfl <;> rcases fin3_cases i with rfl | rfl | rfl <;>
        simp [Fin.sum_univ_three, Bmat, Fin.sum_univ_two]
  rw [(C172_undeformed r _ i j k l).1]
  norm_num [ogdenShear]

/-- **C172** The undeformed state of an Ogden material is stable (the moduli store energy in every small strain) if and
only if `Σ μᵢ αᵢ` is positive; for the compressible material, with a positive bulk modulus. Mooney–Rivlin: if and only if
`c₁ + c₂` is positive, whatever the signs of the two. -/
theorem C172_stable (terms : List (ℝ × ℝ)) (p : Par) (P : T2) (hP : det2 P ≠ 0) :
    (Stable (cProj (CabI (potOG terms) (vec3 1 1 1)) P) ↔ 0 < ogdenShear terms) ∧
    (Stable (cProj (CabI (potMR p) (vec3 1 1 1)) P) ↔ 0 < p.c1 + p.c2) ∧
    (0 < p.K → p.K + 4 / 3 * ogdenShear terms ≠ 0 →
      (Stable (cProj (CabCond (potOGc p terms) (vec3 1 1 1)) P) ↔ 0 < ogdenShear terms)) ∧
    (0 < p.K → p.K + 4 / 3 * (p.c1 + p.c2) ≠ 0 →
      (Stable (cProj (CabCond (potMRc p) (vec3 1 1 1)) P) ↔ 0 < p.c1 + p.c2)) :=
  ⟨stable_incompressible hP fun i j k l => (C172_incompressible p terms P i j k l).2.2,
    stable_incompressible hP fun i j k l => (C172_incompressible p terms P i j k l).2.1,
    fun hK h => stable_planeStress hK hP fun i j k l => (C172_compressible p terms P i j k l).2.2.1 h,
    fun hK h => stable_planeStress hK hP fun i j k l => (C172_compressible p terms P i j k l).2.1 h⟩

/-- The program takes these parameters; the undeformed material is unstable. -/
example : ¬ Stable (cProj (CabI (potOG [(3, 2), (4, -2)]) (vec3 1 1 1)) ![![1, 0], ![1, 1]]) := by
  rw [(C172_stable _ ⟨1, 0, 1⟩ _ (by simp [det2])).1]
  norm_num [ogdenShear]

/-- **C172** Incompressible neo-Hookean and Mooney–Rivlin materials: Young's modulus at small strains is
`3 E / (2 (1 + ν))`, which is the parameter `E` exactly for `ν = 1/2`. -/
theorem C172_young_partial (p : Par) (hE : 0 < p.E) (h1 : -1 < p.ν) (hr : p.r + 1 ≠ 0) {P : T2}
    (hP : ∀ i j, metric P i j = if i = j then 1 else 0) :
    (∀ Y, Young (cProj (CabI (potNH p) (vec3 1 1 1)) P) Y ↔ Y = 3 * p.E / (2 * (1 + p.ν))) ∧
    (∀ Y, Young (cProj (CabI (potMR p) (vec3 1 1 1)) P) Y ↔ Y = 3 * p.E / (2 * (1 + p.ν))) ∧
    (Young (cProj (CabI (potNH p) (vec3 1 1 1)) P) p.E ↔ p.ν = 1 / 2) := by
  have a1 : 0 < 1 + p.ν := by linarith
  have hc : p.c1 + p.c2 = p.mu := by unfold Par.c1 Par.c2; field_simp
  have e1 : cProj (CabI (potNH p) (vec3 1 1 1)) P = planeIncompressible p.mu (metric P) := by
    funext i j k l; exact (C172_incompressible p [] P i j k l).1
  have e2 : cProj (CabI (potMR p) (vec3 1 1 1)) P = planeIncompressible p.mu (metric P) := by
    funext i j k l; rw [(C172_incompressible p [] P i j k l).2.1, hc]
  have e3 : 3 * p.mu = 3 * p.E / (2 * (1 + p.ν)) := by unfold Par.mu; ring
  rw [e1, e2]
  refine ⟨fun Y => by rw [young_inc hP, e3], fun Y => by rw [young_inc hP, e3], ?_⟩
  rw [young_inc hP, e3, eq_div_iff (by positivity)]
  constructor
  · intro h
    have : p.E * (2 * (1 + p.ν) - 3) = 0 := by linarith
    rcases mul_eq_zero.1 this with h | h <;> linarith
  · intro h; rw [h]; ring

example : Young (cProj (CabI (potNH ⟨1, 1 / 2, 1⟩) (vec3 1 1 1)) ![![1, 0], ![0, 1]]) 1 :=
  (C172_young_partial ⟨1, 1 / 2, 1⟩ one_pos (by norm_num) (by norm_num) fun i j => by
    rcases fin2_cases i with rfl | rfl <;> rcases fin2_cases j with rfl | rfl <;> simp [metric]).2.2.2 rfl

/-- **C172** The incompressible neo-Hookean material with the parameters `E = 1` and `ν = 0.3` of test case 3 of the
two-dimensional example has Young's modulus `15/13`. -/
theorem C172_young_violated {P : T2} (hP : ∀ i j, metric P i j = if i = j then 1 else 0) :
    Young (cProj (CabI (potNH ⟨1, 0.3, 1⟩) (vec3 1 1 1)) P) (15 / 13) ∧
    ¬ Young (cProj (CabI (potNH ⟨1, 0.3, 1⟩) (vec3 1 1 1)) P) 1 := by
  obtain ⟨h, -, h'⟩ := C172_young_partial ⟨1, 0.3, 1⟩ one_pos (by norm_num) (by norm_num) hP
  exact ⟨(h _).2 (by norm_num), fun c => by have := h'.1 c; norm_num at this⟩

example : ∀ i j, metric ![![1, 0], ![0, 1]] i j = if i = j then 1 else 0 := fun i j => by
  rcases fin2_cases i with rfl | rfl <;> rcases fin2_cases j with rfl | rfl <;> simp [metric]

/-- **C172** Nothing ties the Ogden parameters to `E` and `ν`: for all of the latter there are Ogden parameters with
another stiffness at small strains. -/
theorem C172_untied_violated (p : Par) (hE : 0 < p.E) (h1 : -1 < p.ν) (h2 : p.ν < 1 / 2) :
    ∃ terms P i j k l, cProj (CabCond (potOGc p terms) (vec3 1 1 1)) P i j k l
      ≠ Linear.Cval p.E p.ν (metric P) i j k l := by
  have a1 : 0 < 1 + p.ν := by linarith
  have a2 : 0 < 1 - 2 * p.ν := by linarith
  have k3 : p.K = p.E / (3 * (1 - 2 * p.ν)) := by unfold Par.K; congr 1; ring
  have hK : 0 < p.K := by rw [k3]; positivity
  have hm : 0 < p.mu := by unfold Par.mu; positivity
  have hs : ogdenShear [(p.mu, 1)] = p.mu / 2 := by simp [ogdenShear]
  refine ⟨[(p.mu, 1)], ![![1, 0], ![0, 1]], 0, 1, 0, 1, ?_⟩
  rw [(C172_compressible p _ _ _ _ _ _).2.2.1 (by rw [hs]; positivity), hs]
  have : Linear.mu p.E p.ν = p.mu := rfl
  simp [planeStress, Linear.Cval, metric, this]
  linarith

example : ∃ terms P i j k l, cProj (CabCond (potOGc ⟨1, 0.3, 1⟩ terms) (vec3 1 1 1)) P i j k l
    ≠ Linear.Cval 1 0.3 (metric P) i j k l :=
  C172_untied_violated ⟨1, 0.3, 1⟩ one_pos (by norm_num) (by norm_num)

end Verif.OgdenReference
