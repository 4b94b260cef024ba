import Verif.Lemmas.WrinkledStrip

/-! # Claim C165: a membrane with wrinkles has a convex energy and every load has an equilibrium -/

namespace Verif.Wrinkled

open V3 Verif.TFT Verif.Spec.Relaxed Verif.Geometry Verif.Variation Verif.ShellSystem Spec.Wrinkled
open Verif.Integrate RealInnerProductSpace

variable {J κ : Type} [Fintype J] (P : Problem J κ)

/-- **C165** The membrane forces that the program returns for the wrapped linear material with the mixed criterion
are those of a membrane with wrinkles. -/
theorem C165_forces (r : Rule) (E ν t : κ → ℝ) (f : κ → Found) (A B : κ → T2) (x : EuclideanSpace ℝ J)
    (hE : ∀ q ∈ P.Q, 0 < E q ∧ -1 < ν q ∧ ν q < 1 / 2) (hi : ∀ q ∈ P.Q, Indep ((P.ori q).a 0) ((P.ori q).a 1))
    (hu : ∀ q ∈ P.Q, Seen (A q) (Linear.matrix (E q) (ν q) (Acon (P.ori q))) (strain (P.ori q) (deformed P x q)) (f q)
      (1 / 2 * t q))
    (hl : ∀ q ∈ P.Q, Seen (B q) (Linear.matrix (E q) (ν q) (Acon (P.ori q))) (strain (P.ori q) (deformed P x q)) (f q)
      (-(1 / 2) * t q)) :
    ∃ N, (∀ q ∈ P.Q, ∀ k, force r 2 0 (E q) (ν q) (t q) (P.ori q) (deformed P x q) (f q) k = .ok (N q k)) ∧
      Wrinkles P (fun q => Linear.matrix (E q) (ν q) (Acon (P.ori q))) t x N := by
  have : ∀ q, ∃ n : Voigt, q ∈ P.Q →
      (∀ k, force r 2 0 (E q) (ν q) (t q) (P.ori q) (deformed P x q) (f q) k = .ok (n k)) ∧
      ∃ T W, State (Linear.matrix (E q) (ν q) (Acon (P.ori q)))
        (mulVec3 (Linear.matrix (E q) (ν q) (Acon (P.ori q))) (strain (P.ori q) (deformed P x q))) T W ∧
        ∀ k, n k = t q * T k := by
    intro q
    by_cases hq : q ∈ P.Q
    · obtain ⟨T, W, hs, hf⟩ := force_seen (hE q hq).1 (hE q hq).2.1 (hE q hq).2.2 (hi q hq) r (hu q hq) (hl q hq)
      exact ⟨fun k => t q * T k, fun _ => ⟨hf, T, W, hs, fun _ => rfl⟩⟩
    · exact ⟨0, fun h => absurd h hq⟩
  choose N hN using this
  exact ⟨N, fun q hq => (hN q hq).1, fun q hq => (hN q hq).2⟩

/-- The strip at half its length: compression `-3/8` along, tension `3/2` across; the wrinkles are found. -/
theorem half_seen (z : ℝ) : Seen Relaxed.unit silk (strain ((strip 0).ori ()) (deformed (strip 0) (len (1 / 2)) ()))
    ⟨fun _ => -(3 / 8), fun _ => 3 / 2, fun _ => -(3 / 8), fun _ => 3 / 2, fun _ => 0⟩ z := by
  rw [strip_strain]
  refine ⟨Relaxed.unit_metric, ⟨?_, ?_, ?_⟩, ⟨?_, ?_, ?_⟩, ?_, ?_⟩
  · norm_num
  · norm_num [Relaxed.unit, stressTensor, mulVec3, silk, Fin.sum_univ_two, Fin.sum_univ_three]
  · norm_num [Relaxed.unit, stressTensor, mulVec3, silk, Fin.sum_univ_three, det2]
  · norm_num
  · rw [Relaxed.unit_inv]; norm_num [Relaxed.unit, strainTensor, Fin.sum_univ_two]
  · norm_num [Relaxed.unit, strainTensor, det2]
  · norm_num
  · intro _ _
    refine ⟨?_, ?_, ?_⟩
    · norm_num [objective, gamma, TFT.quad, dotV, mulVec3, n1, n2, silk, Fin.sum_univ_three]
    · norm_num [TFT.comp, stressTensor, dirN, mulVec3, silk, Fin.sum_univ_two, Fin.sum_univ_three]
    · norm_num [TFT.comp, strainTensor, dirM, Fin.sum_univ_two]

example : (∀ q ∈ (strip 0).Q, Indep (((strip 0).ori q).a 0) (((strip 0).ori q).a 1)) ∧ ∀ q ∈ (strip 0).Q, ∀ z,
    Seen Relaxed.unit (Linear.matrix 1 0 (Acon ((strip 0).ori q)))
      (strain ((strip 0).ori q) (deformed (strip 0) (len (1 / 2)) q))
      ⟨fun _ => -(3 / 8), fun _ => 3 / 2, fun _ => -(3 / 8), fun _ => 3 / 2, fun _ => 0⟩ z := by
  refine ⟨fun _ _ => square1_indep, fun q _ z => ?_⟩
  show Seen _ (Linear.matrix 1 0 (Acon square1)) _ _ _
  rw [square1_linear]
  exact half_seen z

variable {P} {C : κ → T3} {t : κ → ℝ} {N N' : κ → Voigt} {x y : EuclideanSpace ℝ J}

/-- **C165** The residual is minus the gradient of the potential at every state, also where points pass from taut
to wrinkled or from wrinkled to slack. -/
theorem C165_gradient (hB : Body P C t) (h : Wrinkles P C t x N) :
    HasGradientAt (potential P C t) (-residual P N x) x := gradient_potential hB h

example : Body (strip 0) (fun _ => silk) (fun _ => 1) ∧
    Wrinkles (strip 0) (fun _ => silk) (fun _ => 1) (len 1) (fun _ => vec3 0 (3 / 2) 0) := by
  refine ⟨strip_body 0, ?_⟩
  have := strip_wrinkles 0 1
  norm_num at this
  exact this

/-- **C165** The potential of a membrane with wrinkles is convex, however large the displacements are. -/
theorem C165_convex (hB : Body P C t) : ConvexOn ℝ Set.univ (potential P C t) := convex_potential hB

example : Body (strip 3) (fun _ => silk) (fun _ => 1) := strip_body 3

/-- **C165** The states with residual zero are the states of least potential. -/
theorem C165_equilibrium (hB : Body P C t) (h : Wrinkles P C t x N) :
    residual P N x = 0 ↔ ∀ y, potential P C t x ≤ potential P C t y := by
  constructor
  · intro h0 y
    have := above hB h y
    rwa [h0, inner_zero_left, sub_zero] at this
  · intro hm
    have hd := (gradient_potential hB h).hasFDerivAt
    have hz := (IsLocalMin.hasFDerivAt_eq_zero (Filter.Eventually.of_forall hm) hd)
    have : -residual P N x = 0 := by
      have := congrArg (fun L => L (-residual P N x)) hz
      simpa using this
    simpa using this

example : residual (strip 3) (fun _ => vec3 (3 / 2) (3 / 2) 0) (len 2) = 0 ∧
    Wrinkles (strip 3) (fun _ => silk) (fun _ => 1) (len 2) (fun _ => vec3 (3 / 2) (3 / 2) 0) := by
  constructor
  · rw [strip_residual]; ext; norm_num [len]
  · have := strip_wrinkles 3 2
    norm_num at this
    exact this

/-- **C165** If the residual is not zero the potential exceeds the least one by at most the norm of the residual
times the distance. -/
theorem C165_error (hB : Body P C t) (h : Wrinkles P C t x N) (y : EuclideanSpace ℝ J) :
    potential P C t x ≤ potential P C t y + ‖residual P N x‖ * ‖y - x‖ := by
  have a := above hB h y
  have b := real_inner_le_norm (residual P N x) (y - x)
  linarith

/-- **C165** For every load there is an equilibrium, if only the displacement zero has no gradient. -/
theorem C165_exists (hB : Body P C t) (hH : Held P) : ∃ x N, Wrinkles P C t x N ∧ residual P N x = 0 := by
  obtain ⟨x, hx⟩ := exists_min hB hH
  obtain ⟨N, h⟩ := forces hB x
  exact ⟨x, N, h, (C165_equilibrium hB h).2 hx⟩

example : Body (strip 3) (fun _ => silk) (fun _ => 1) ∧ Held (strip 3) := ⟨strip_body 3, strip_held 3⟩

/-- **C165** All equilibria have the same membrane forces at all quadrature points. -/
theorem C165_same (hB : Body P C t) (hx : Wrinkles P C t x N) (hy : Wrinkles P C t y N') (h0 : residual P N x = 0)
    (h0' : residual P N' y = 0) : ∀ q ∈ P.Q, N' q = N q := by
  obtain ⟨T, W, hs, hN⟩ := chosen hx
  obtain ⟨T', W', hs', hN'⟩ := chosen hy
  intro q hq
  have := (rest_zero hB hs hN hs' h0 ((C165_equilibrium hB hy).1 h0' x) q hq).2
  funext k
  rw [hN q hq, hN' q hq, this]

/-- Two equilibria of the strip without load. -/
theorem two_lengths : len 0 ≠ len 1 ∧
    Wrinkles (strip 0) (fun _ => silk) (fun _ => 1) (len 0) (fun _ => vec3 0 (3 / 2) 0) ∧
    Wrinkles (strip 0) (fun _ => silk) (fun _ => 1) (len 1) (fun _ => vec3 0 (3 / 2) 0) ∧
    residual (strip 0) (fun _ => vec3 0 (3 / 2) 0) (len 0) = 0 ∧
    residual (strip 0) (fun _ => vec3 0 (3 / 2) 0) (len 1) = 0 := by
  refine ⟨fun h => ?_, ?_, ?_, ?_, ?_⟩
  · have := congrArg (fun v : EuclideanSpace ℝ Unit => v ()) h
    norm_num [len] at this
  · have := strip_wrinkles 0 0
    norm_num at this
    exact this
  · have := strip_wrinkles 0 1
    norm_num at this
    exact this
  · rw [strip_residual]; ext; norm_num [len]
  · rw [strip_residual]; ext; norm_num [len]

example : Wrinkles (strip 0) (fun _ => silk) (fun _ => 1) (len 0) (fun _ => vec3 0 (3 / 2) 0) ∧
    Wrinkles (strip 0) (fun _ => silk) (fun _ => 1) (len 1) (fun _ => vec3 0 (3 / 2) 0) :=
  ⟨two_lengths.2.1, two_lengths.2.2.1⟩

/-- **C165** An equilibrium in which every point is under tension in all directions is the only one. -/
theorem C165_unique (hB : Body P C t) (hH : Held P) (hx : Wrinkles P C t x N) (hy : Wrinkles P C t y N')
    (h0 : residual P N x = 0) (h0' : residual P N' y = 0) (ht : ∀ q ∈ P.Q, Taut (N q)) : y = x := by
  obtain ⟨T, W, hs, hN⟩ := chosen hx
  obtain ⟨T', W', hs', hN'⟩ := chosen hy
  have z := rest_zero hB hs hN hs' h0 ((C165_equilibrium hB hy).1 h0' x)
  have hv : (fun j => y j - x j) = 0 := hH _ fun q hq i => by
    refine taut_square (T := T q) (fun v hv => ?_) (z q hq).1 i
    have a := ht q hq v hv
    rw [Relaxed.comp_stress] at a ⊢
    rw [hN q hq, hN q hq, hN q hq] at a
    have : 0 < t q * (T q 0 * v 0 ^ 2 + T q 1 * v 1 ^ 2 + 2 * T q 2 * v 0 * v 1) := by linarith
    exact (mul_pos_iff_of_pos_left (hB.thick q hq)).1 this
  ext j
  have := congrFun hv j
  simpa [sub_eq_zero] using this

example : Taut (vec3 (3 / 2) (3 / 2) 0) := by
  intro v hv
  rw [Relaxed.comp_stress]
  have : v 0 ≠ 0 ∨ v 1 ≠ 0 := by
    by_contra h
    push Not at h
    exact hv (funext fun i => by rcases fin2_cases i with rfl | rfl <;> simp [h])
  simp only [vec3_zero, vec3_one, vec3_two]
  rcases this with h | h
  · have := pow_pos (abs_pos.2 h) 2
    rw [sq_abs] at this
    nlinarith [sq_nonneg (v 1)]
  · have := pow_pos (abs_pos.2 h) 2
    rw [sq_abs] at this
    nlinarith [sq_nonneg (v 0)]

/-- **C165** The wrinkles are needed for this: the same strip with the forces of the linear material itself has the
equilibria of length 0 and 1, with different forces.  And tension in all directions is needed for uniqueness: with
wrinkles both lengths are equilibria. -/
theorem C165_sharp : (residual (strip 0) (fun _ => mulVec3 silk (strain ((strip 0).ori ())
      (deformed (strip 0) (len 0) ()))) (len 0) = 0 ∧
    residual (strip 0) (fun _ => mulVec3 silk (strain ((strip 0).ori ()) (deformed (strip 0) (len 1) ()))) (len 1) = 0 ∧
    mulVec3 silk (strain ((strip 0).ori ()) (deformed (strip 0) (len 0) ()))
      ≠ mulVec3 silk (strain ((strip 0).ori ()) (deformed (strip 0) (len 1) ()))) ∧
    ∃ N, len 0 ≠ len 1 ∧ Wrinkles (strip 0) (fun _ => silk) (fun _ => 1) (len 0) N ∧
      Wrinkles (strip 0) (fun _ => silk) (fun _ => 1) (len 1) N ∧
      residual (strip 0) N (len 0) = 0 ∧ residual (strip 0) N (len 1) = 0 := by
  refine ⟨⟨?_, ?_, ?_⟩, _, two_lengths⟩
  · rw [strip_residual, strip_strain]; ext; norm_num [len]
  · rw [strip_residual, strip_strain]; ext; norm_num [len, mulVec3, silk, Fin.sum_univ_three]
  · rw [strip_strain, strip_strain]
    intro h
    have := congrFun h 0
    norm_num [mulVec3, silk, Fin.sum_univ_three] at this

end Verif.Wrinkled
