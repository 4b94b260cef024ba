import Verif.Lemmas.WrinkledSystem
import Verif.Lemmas.WrinkledStrip

/-! # Helper lemmas: the matrices that the program returns for a membrane with wrinkles; a ribbon; a skew element -/

namespace Verif.Wrinkled

open V3 Verif.TFT Verif.Spec.Relaxed Verif.Geometry Verif.Variation Verif.ShellSystem Verif.Balance Spec.Wrinkled
open Verif.Integrate

/-- Tension along the wrinkles of a stress that is not zero. -/
theorem along_pos {C : T3} (hC : TFT.PosDef C) {S : Voigt} {θ : ℝ} (o : objective C S θ = 0)
    (m : 0 ≤ dotV (n4 θ) (computeS θ C S)) (h : computeS θ C S ≠ 0) : 0 < dotV (n4 θ) (computeS θ C S) := by
  rcases m.lt_or_eq with g | g
  · exact g
  · exfalso
    have e1 := Relaxed.dot_n1_computeS hC θ S
    have e2 : dotV (n2 θ) (computeS θ C S) = 0 := by rw [TFT.dotV_computeS]; exact o
    obtain ⟨f0, f1, f2⟩ := Relaxed.frame θ (computeS θ C S)
    rw [e1, e2, ← g] at f0 f1 f2
    refine h (funext fun i => ?_)
    rcases fin3_cases i with rfl | rfl | rfl
    · simpa using f0
    · simpa using f1
    · simpa using f2

theorem n1_flat (θ c : ℝ) : ¬ Longer fun i => c * n1 θ i := by
  rw [longer_iff]
  rintro ⟨-, h⟩
  simp only [n1, vec3_zero, vec3_one, vec3_two] at h
  exact absurd h (not_lt.2 (le_of_eq (by ring)))

/-- Slopes by class. -/
theorem slope_seen {A : T2} {C : T3} {E : Voigt} (hC : TFT.PosDef C) (hs : Symm C) {f : Found} {z : ℝ}
    (h : Seen A C E f z) (hr : Regular C E) : ∃ D, Slope C E D ∧
      (TFT.tensionField 2 (f.s0 z) (f.s1 z) (f.e0 z) (f.e1 z)).bind
        (fun tf => matrixOf false 0 (f.θ z) C (mulVec3 C E) tf) = .ok D := by
  rcases h.clear with h0 | h0
  · have hst : State C (mulVec3 C E) (mulVec3 C E) 0 :=
      ⟨fun i => by simp, (Relaxed.tension_principal h.metric h.stress).2 h0, by rw [Relaxed.lengthens_iff]; simp,
        by simp [work]⟩
    refine ⟨C, ?_, by rw [Relaxed.mixed_one h0]; rfl⟩
    rcases regular_cases hC hst hr with ⟨g, -, -⟩ | ⟨θ, -, n, -, -, w⟩ | ⟨g, e⟩
    · exact fun T hT => (taut_law hC g hT).2.1
    · exfalso
      refine Relaxed.n1_ne θ (funext fun i => ?_)
      exact (mul_eq_zero.1 (w i).symm).resolve_left (gamma_pos hC n).ne'
    · exfalso
      have hE : E = 0 := by
        by_contra hne
        have := Relaxed.quad_pos hC hne
        rw [TFT.quad, e] at this
        simp [dotV] at this
      have := ((longer_iff _).1 g).1
      simp [hE] at this
  · rcases lt_or_ge (f.e1 z) 0 with g | g
    · have hst : State C (mulVec3 C E) 0 fun i => -E i := by
        refine ⟨fun i => ?_, ?_, (Relaxed.strain_principal h.metric h.strain).1.2 g.le, by simp [work]⟩
        · simp only [Pi.zero_apply, mulVec3, Fin.sum_univ_three]; ring
        · rw [Relaxed.tension_iff]; simp
      refine ⟨fun _ _ => 0, ?_, ?_⟩
      · rcases regular_cases hC hst hr with ⟨k, e, -⟩ | ⟨θ, -, -, m, e, -⟩ | ⟨k, -⟩
        · exfalso
          have := ((taut_iff _).1 k).1
          rw [← e] at this
          simp at this
        · exfalso
          rw [e] at m
          simp [dotV] at m
        · exact fun T hT => (slack_law hC k hT).2.1
      · rw [Relaxed.mixed_slack h0 g]
        simp [Outcome.bind, matrixOf]
    · have hs0 : f.s0 z < 0 := by
        have : 0 ≤ max (f.s1 z) 0 * 1e-12 := mul_nonneg (le_max_right _ _) (by norm_num)
        linarith
      obtain ⟨o, n, m⟩ := h.angle hs0 g
      rw [TFT.comp_nn] at n
      have ms := Relaxed.tension_sign hC E (f.θ z) o m
      have hst := Relaxed.state_of_angle hC o n ms
      rw [TFT.comp_mm] at ms
      refine ⟨computeCNl (f.θ z) C (mulVec3 C E) fun _ _ _ => 0, ?_, ?_⟩
      · have hT : ¬ Taut (mulVec3 C E) := by
          intro k
          have := (Relaxed.tension_principal h.metric h.stress).1 (taut_state k).tension
          linarith
        rcases regular_cases hC hst hr with ⟨k, -, -⟩ | ⟨θ, o', n', m', e, w⟩ | ⟨k, e⟩
        · exact absurd k hT
        · have hγ : gamma (f.θ z) C (mulVec3 C E) ≠ 0 := by
            intro h0
            refine Relaxed.n1_ne θ (funext fun i => ?_)
            have := w i
            rw [h0, zero_mul] at this
            exact (mul_eq_zero.1 this.symm).resolve_left (gamma_pos hC n').ne'
          have n'' : dotV (n1 (f.θ z)) (mulVec3 C E) < 0 := by
            rcases n.lt_or_eq with k | k
            · exact k
            · exact absurd (by rw [gamma, k]; simp) hγ
          have hne : computeS (f.θ z) C (mulVec3 C E) ≠ 0 := by
            intro h0
            rw [e, h0] at m'
            simp [dotV] at m'
          exact fun T hT => (wrinkled_law hC hs o n'' (along_pos hC o ms hne) hT).2.1
        · exfalso
          have h1 := slack_state (C := C) k
          have := (Relaxed.unique hC hst h1).2
          rw [← this] at k
          exact n1_flat _ _ k
      · rw [Relaxed.mixed_wrinkled h0 g]
        simp [Outcome.bind, matrixOf]

theorem matrix_seen {E ν : ℝ} (hE : 0 < E) (h1 : -1 < ν) (h2 : ν < 1 / 2) {ori s : Surf} {A : T2} {f : Found}
    (hi : Indep (ori.a 0) (ori.a 1)) {z : ℝ} (h : Seen A (Linear.matrix E ν (Acon ori)) (strain ori s) f z)
    (hr : Regular (Linear.matrix E ν (Acon ori)) (strain ori s)) :
    ∃ D, Slope (Linear.matrix E ν (Acon ori)) (strain ori s) D ∧ matrixAt false 2 0 E ν ori s f z = .ok D := by
  have hC : TFT.PosDef (Linear.matrix E ν (Acon ori)) := System.linear_posMat E ν hE h1 h2 ori hi
  obtain ⟨D, hD, hr⟩ := slope_seen hC (linear_symm _ _ _) h hr
  refine ⟨D, hD, ?_⟩
  rw [← hr]
  simp only [matrixAt, inner_stress]
  rfl

theorem moduli_ok (lin : Bool) {E ν t : ℝ} {ori s : Surf} {f : Found} (r : Rule) {D : T3}
    (hu : matrixAt lin 2 0 E ν ori s f (1 / 2 * t) = .ok D) (hl : matrixAt lin 2 0 E ν ori s f (-(1 / 2) * t) = .ok D)
    (i k : Fin 3) : moduli lin r 2 0 E ν t ori s f i k = .ok (t * D i k) := by
  rw [moduli, TFTSection.section2_ok r .matrixA t _ 0 (D i k) (D i k) rfl (by rw [hu]; rfl) (by rw [hl]; rfl)]
  simp
  ring

theorem moduli_seen {E ν t : ℝ} (hE : 0 < E) (h1 : -1 < ν) (h2 : ν < 1 / 2) {ori s : Surf} {A B : T2} {f : Found}
    (hi : Indep (ori.a 0) (ori.a 1)) (r : Rule)
    (hu : Seen A (Linear.matrix E ν (Acon ori)) (strain ori s) f (1 / 2 * t))
    (hl : Seen B (Linear.matrix E ν (Acon ori)) (strain ori s) f (-(1 / 2) * t))
    (hr : Regular (Linear.matrix E ν (Acon ori)) (strain ori s)) :
    ∃ D, Slope (Linear.matrix E ν (Acon ori)) (strain ori s) D ∧
      ∀ i k, moduli false r 2 0 E ν t ori s f i k = .ok (t * D i k) := by
  have hC : TFT.PosDef (Linear.matrix E ν (Acon ori)) := System.linear_posMat E ν hE h1 h2 ori hi
  obtain ⟨D, hD, e⟩ := matrix_seen hE h1 h2 hi hu hr
  obtain ⟨D', hD', e'⟩ := matrix_seen hE h1 h2 hi hl hr
  obtain rfl := slope_unique hC (linear_symm _ _ _) hD' hD
  exact ⟨_, hD, fun i k => moduli_ok false r e e' i k⟩

/-! ## A ribbon with wrinkles -/

/-- A ribbon pressed to half its width and pulled along by the force `F`; its length is the unknown. -/
noncomputable def ribbon (F : ℝ) : Problem Unit Unit where
  Q := {()}
  μ _ := 1
  ori _ := square1
  pre _ := ⟨fun i => if i = 0 then ⟨1 / 2, 0, 0⟩ else 0, 0, 0, 0⟩
  field _ _ := ⟨fun i => if i = 0 then 0 else ⟨0, 1, 0⟩, 0, 0, 0⟩
  F _ := F

theorem ribbon_deformed (F l : ℝ) (i : Fin 2) :
    (deformed (ribbon F) (len l) ()).a i = if i = 0 then ⟨1 / 2, 0, 0⟩ else ⟨0, l, 0⟩ := by
  rcases fin2_cases i with rfl | rfl <;> ext <;> simp [deformed, ribbon, vsum, len]

theorem ribbon_strain (F l : ℝ) : strain ((ribbon F).ori ()) (deformed (ribbon F) (len l) ())
    = vec3 (-(3 / 8)) ((l ^ 2 - 1) / 2) 0 := by
  funext k
  rcases fin3_cases k with rfl | rfl | rfl <;> simp [strain, ribbon_deformed] <;> simp [ribbon, square1, dot] <;> ring

theorem ribbon_body (F : ℝ) : Body (ribbon F) (fun _ => silk) (fun _ => 1) :=
  ⟨fun _ _ => one_pos, fun _ _ => one_pos, fun _ _ => silk_symm, fun _ _ => silk_pos⟩

theorem ribbon_state : State silk (mulVec3 silk (vec3 (-(3 / 8)) (3 / 2) 0)) (vec3 0 (3 / 2) 0) (vec3 (3 / 8) 0 0) := by
  refine ⟨fun i => ?_, ?_, ?_, ?_⟩
  · rcases fin3_cases i with rfl | rfl | rfl <;> norm_num [mulVec3, silk, Fin.sum_univ_three]
  · rw [Relaxed.tension_iff]; norm_num
  · rw [Relaxed.lengthens_iff]; norm_num
  · rw [Relaxed.work_eq]; norm_num

theorem ribbon_two (F : ℝ) : strain ((ribbon F).ori ()) (deformed (ribbon F) (len 2) ()) = vec3 (-(3 / 8)) (3 / 2) 0 := by
  rw [ribbon_strain]; norm_num

theorem ribbon_wrinkles (F : ℝ) :
    Wrinkles (ribbon F) (fun _ => silk) (fun _ => 1) (len 2) (fun _ => vec3 0 (3 / 2) 0) := by
  intro q _
  refine ⟨_, vec3 (3 / 8) 0 0, ?_, fun k => (one_mul _).symm⟩
  rw [show q = () from rfl, ribbon_two]
  exact ribbon_state

theorem ribbon_away (F : ℝ) : Away (ribbon F) (fun _ => silk) (len 2) := by
  intro q _
  rw [show q = () from rfl, ribbon_two]
  refine ⟨_, _, ribbon_state, Or.inr (Or.inl ⟨fun h => ?_, fun h => ?_⟩)⟩
  · have := congrFun h 1; norm_num at this
  · have := congrFun h 0; norm_num at this

theorem ribbon_rest : residual (ribbon 3) (fun _ => vec3 0 (3 / 2) 0) (len 2) = 0 := by
  ext j
  have h0 := ribbon_deformed 3 2 0
  have h1 := ribbon_deformed 3 2 1
  simp only [residual, ribbon, Finset.sum_singleton, internalForceMembrane, dotV, EmDer, Fin.sum_univ_three] at *
  rw [h0, h1]
  norm_num [dot]

theorem ribbon_idle (F : ℝ) (v : Unit → ℝ) (h : Idle (ribbon F) (fun _ => silk) (len 2) v) : v = 0 := by
  have h1 := (h () (by simp [ribbon]) _ _ (by rw [ribbon_two]; exact ribbon_state)).1 1
  funext j
  have := congrArg V3.y h1
  simpa [stressTensor, slopes, ribbon] using this

theorem ribbon_seen (F z : ℝ) : Seen Relaxed.unit silk (strain ((ribbon F).ori ()) (deformed (ribbon F) (len 2) ()))
    ⟨fun _ => -(3 / 8), fun _ => 3 / 2, fun _ => -(3 / 8), fun _ => 3 / 2, fun _ => 0⟩ z := by
  rw [ribbon_two]
  refine ⟨Relaxed.unit_metric, ⟨?_, ?_, ?_⟩, ⟨?_, ?_, ?_⟩, ?_, ?_⟩
  · norm_num
  · norm_num [Relaxed.unit, stressTensor, mulVec3, silk, Fin.sum_univ_two, Fin.sum_univ_three]
  · norm_num [Relaxed.unit, stressTensor, mulVec3, silk, Fin.sum_univ_three, det2]
  · norm_num
  · rw [Relaxed.unit_inv]; norm_num [Relaxed.unit, strainTensor, Fin.sum_univ_two]
  · norm_num [Relaxed.unit, strainTensor, det2]
  · norm_num
  · intro _ _
    refine ⟨?_, ?_, ?_⟩
    · norm_num [objective, gamma, TFT.quad, dotV, mulVec3, n1, n2, silk, Fin.sum_univ_three]
    · norm_num [TFT.comp, stressTensor, dirN, mulVec3, silk, Fin.sum_univ_two, Fin.sum_univ_three]
    · norm_num [TFT.comp, strainTensor, dirM, Fin.sum_univ_two]

/-! ## A skew element with wrinkles -/

/-- The tangents of a parallelogram. -/
def leaning : Surf := ⟨fun i => if i = 0 then ⟨1, 0, 0⟩ else ⟨1, 1, 0⟩, 0, 0, 0⟩

/-- A deformed parallelogram with two unknowns. -/
noncomputable def skew : Problem (Fin 2) Unit where
  Q := {()}
  μ _ := 1
  ori _ := leaning
  pre _ := ⟨fun i => if i = 0 then ⟨1, 0, 0⟩ else ⟨8 / 5, 4 / 5, 0⟩, 0, 0, 0⟩
  field _ j := ⟨fun i => if i = j then (if j = 0 then ⟨1, -2, 0⟩ else ⟨0, 5 / 4, 0⟩) else 0, 0, 0, 0⟩
  F _ := 0

theorem leaning_indep : Indep (leaning.a 0) (leaning.a 1) := by
  refine ShellSystem.indep_of_cross fun h => ?_
  have := congrArg V3.z h
  simp [leaning, cross] at this

/-- Its material. -/
noncomputable def oblique : T3 := mk3 4 1 (-2) 1 1 (-1) (-2) (-1) (3 / 2)

theorem leaning_linear : Linear.matrix 1 0 (Acon leaning) = oblique := by
  have h : Acon leaning = ![![2, -1], ![-1, 1]] := by
    funext i j
    rcases fin2_cases i with rfl | rfl <;> rcases fin2_cases j with rfl | rfl <;>
      norm_num [Acon, Acov, inv2, det2, leaning, dot]
  rw [h]
  norm_num [Linear.matrix, Linear.Cval, Linear.Cconst, Linear.lam, Linear.mu, oblique]

theorem skew_deformed (i : Fin 2) : (deformed skew 0 ()).a i = if i = 0 then ⟨1, 0, 0⟩ else ⟨8 / 5, 4 / 5, 0⟩ := by
  rcases fin2_cases i with rfl | rfl <;> ext <;> simp [deformed, skew, vsum]

theorem skew_strain : strain (skew.ori ()) (deformed skew 0 ()) = vec3 0 (3 / 5) (3 / 5) := by
  funext k
  rcases fin3_cases k with rfl | rfl | rfl <;> simp [strain, skew_deformed] <;> norm_num [skew, leaning, dot]

theorem oblique_pos : TFT.PosDef oblique := by
  rw [← leaning_linear]
  exact System.linear_posMat 1 0 (by norm_num) (by norm_num) (by norm_num) leaning leaning_indep

theorem oblique_symm : Symm oblique := by rw [← leaning_linear]; exact linear_symm _ _ _

theorem skew_body : Body skew (fun _ => oblique) (fun _ => 1) :=
  ⟨fun _ _ => one_pos, fun _ _ => one_pos, fun _ _ => oblique_symm, fun _ _ => oblique_pos⟩

theorem skew_state : State oblique (mulVec3 oblique (vec3 0 (3 / 5) (3 / 5))) (vec3 0 (3 / 20) 0) (vec3 (3 / 20) 0 0) := by
  refine ⟨fun i => ?_, ?_, ?_, ?_⟩
  · rcases fin3_cases i with rfl | rfl | rfl <;> norm_num [mulVec3, oblique, Fin.sum_univ_three]
  · rw [Relaxed.tension_iff]; norm_num
  · rw [Relaxed.lengthens_iff]; norm_num
  · rw [Relaxed.work_eq]; norm_num

theorem skew_wrinkles : Wrinkles skew (fun _ => oblique) (fun _ => 1) 0 (fun _ => vec3 0 (3 / 20) 0) := by
  intro q _
  refine ⟨_, vec3 (3 / 20) 0 0, ?_, fun k => (one_mul _).symm⟩
  rw [show q = () from rfl, skew_strain]
  exact skew_state

theorem skew_away : Away skew (fun _ => oblique) 0 := by
  intro q _
  rw [show q = () from rfl, skew_strain]
  refine ⟨_, _, skew_state, Or.inr (Or.inl ⟨fun h => ?_, fun h => ?_⟩)⟩
  · have := congrFun h 1; norm_num at this
  · have := congrFun h 0; norm_num at this

/-- What the classification and the search find. -/
noncomputable def skewFound : Found :=
  ⟨fun _ => -(3 / 25), fun _ => 12 / 25, fun _ => -(3 / 4), fun _ => 3 / 16, fun _ => 0⟩

theorem skew_seen (z : ℝ) : Seen (Acov (deformed skew 0 ())) oblique (strain (skew.ori ()) (deformed skew 0 ())) skewFound z := by
  rw [skew_strain]
  have hA : Acov (deformed skew 0 ()) = ![![1, 8 / 5], ![8 / 5, 16 / 5]] := by
    funext i j
    rcases fin2_cases i with rfl | rfl <;> rcases fin2_cases j with rfl | rfl <;>
      norm_num [Acov, skew_deformed, dot]
  rw [hA]
  refine ⟨?_, ⟨?_, ?_, ?_⟩, ⟨?_, ?_, ?_⟩, ?_, ?_⟩
  · refine ⟨?_, ?_, ?_⟩ <;> norm_num [det2]
  · norm_num [skewFound]
  · norm_num [skewFound, stressTensor, mulVec3, oblique, Fin.sum_univ_two, Fin.sum_univ_three]
  · norm_num [skewFound, stressTensor, mulVec3, oblique, Fin.sum_univ_three, det2]
  · norm_num [skewFound]
  · norm_num [skewFound, strainTensor, Fin.sum_univ_two, inv2, det2]
  · norm_num [skewFound, strainTensor, det2]
  · norm_num [skewFound]
  · intro _ _
    refine ⟨?_, ?_, ?_⟩
    · norm_num [skewFound, objective, gamma, TFT.quad, dotV, mulVec3, n1, n2, oblique, Fin.sum_univ_three]
    · norm_num [skewFound, TFT.comp, stressTensor, dirN, mulVec3, oblique, Fin.sum_univ_two, Fin.sum_univ_three]
    · norm_num [skewFound, TFT.comp, strainTensor, dirM, Fin.sum_univ_two]

/-- The matrix of the variant for linear materials. -/
noncomputable def wrong : T3 := computeCLin 0 oblique (mulVec3 oblique (vec3 0 (3 / 5) (3 / 5)))

theorem wrong_entries : wrong 0 1 = 0 ∧ wrong 1 0 = -2 := by
  constructor <;> norm_num [wrong, computeCLin, dgammadELin, dfdELin, dgammadT, tmp, dfdT, gamma, TFT.rowMul, TFT.quad, dotV,
    mulVec3, n1, n2, n4, oblique, Fin.sum_univ_three]

theorem skew_moduli (r : Rule) (i k : Fin 3) :
    moduli true r 2 0 1 0 1 (skew.ori ()) (deformed skew 0 ()) skewFound i k = .ok (wrong i k) := by
  have h : ∀ z, matrixAt true 2 0 1 0 (skew.ori ()) (deformed skew 0 ()) skewFound z = .ok wrong := by
    intro z
    have hl : Linear.matrix 1 0 (Acon (skew.ori ())) = oblique := leaning_linear
    simp only [matrixAt, inner_stress, hl, skew_strain]
    rw [Relaxed.mixed_wrinkled (by norm_num [skewFound]) (by norm_num [skewFound])]
    rfl
  rw [moduli_ok true r (h _) (h _), one_mul]

theorem skew_entries (N : Voigt) (hN : N = vec3 0 (3 / 20) 0) :
    entry skew (fun _ => wrong) (fun _ => N) 0 0 1 = 0 ∧ entry skew (fun _ => wrong) (fun _ => N) 0 1 0 = -2 := by
  have h0 := skew_deformed 0
  have h1 := skew_deformed 1
  obtain ⟨w1, w2⟩ := wrong_entries
  subst hN
  constructor
  · show ∑ q ∈ ({()} : Finset Unit), _ = _
    rw [Finset.sum_singleton, stiffnessMembrane, rowMul_mul]
    simp only [TFT.quad, dotV, mulVec3, EmDer, EmDer2, h0, h1, Fin.sum_univ_three, vec3_zero, vec3_one, vec3_two]
    norm_num [skew, dot, w1, w2]
  · show ∑ q ∈ ({()} : Finset Unit), _ = _
    rw [Finset.sum_singleton, stiffnessMembrane, rowMul_mul]
    simp only [TFT.quad, dotV, mulVec3, EmDer, EmDer2, h0, h1, Fin.sum_univ_three, vec3_zero, vec3_one, vec3_two]
    norm_num [skew, dot, w1, w2]

/-! ## Forms and convexity -/

open RealInnerProductSpace

theorem exists_slope {C : T3} (hC : TFT.PosDef C) (hs : Symm C) {E : Voigt} (hr : Regular C E) : ∃ D, Slope C E D := by
  obtain ⟨T, hT⟩ := exists_leaves hC hs
  obtain ⟨W, hst⟩ := hT E
  rcases regular_cases hC hst hr with ⟨h, -, -⟩ | ⟨θ, o, n, m, -, -⟩ | ⟨h, -⟩
  · exact ⟨_, fun T hT => (taut_law hC h hT).2.1⟩
  · exact ⟨_, fun T hT => (wrinkled_law hC hs o n m hT).2.1⟩
  · exact ⟨_, fun T hT => (slack_law hC h hT).2.1⟩

/-- A semidefinite form vanishes only on the kernel. -/
theorem semi_null {V : Type} [NormedAddCommGroup V] [InnerProductSpace ℝ V] {K : V →L[ℝ] V}
    (hs : ∀ u v, ⟪K u, v⟫ = ⟪K v, u⟫) (hp : ∀ v, 0 ≤ ⟪K v, v⟫) {v : V} (h : ⟪K v, v⟫ = 0) : K v = 0 := by
  have key : ∀ s : ℝ, 0 ≤ 2 * s * ⟪K v, K v⟫ + s ^ 2 * ⟪K (K v), K v⟫ := by
    intro s
    have := hp (v + s • K v)
    rw [map_add, map_smul, inner_add_left, inner_add_right, inner_add_right, inner_smul_left, inner_smul_right,
      inner_smul_left, inner_smul_right, h, hs (K v) v] at this
    simp only [conj_trivial] at this
    nlinarith
  have hn : (0 : ℝ) ≤ ⟪K v, K v⟫ := real_inner_self_nonneg
  have hk := hp (K v)
  rw [← inner_self_eq_zero (𝕜 := ℝ)]
  by_contra hne
  have hn' : (0 : ℝ) < ⟪K v, K v⟫ := hn.lt_of_ne' hne
  have := key (-(⟪K v, K v⟫ / (⟪K (K v), K v⟫ + 1)))
  have hd : 0 < ⟪K (K v), K v⟫ + 1 := by linarith
  have e : 2 * -(⟪K v, K v⟫ / (⟪K (K v), K v⟫ + 1)) * ⟪K v, K v⟫
      + (-(⟪K v, K v⟫ / (⟪K (K v), K v⟫ + 1))) ^ 2 * ⟪K (K v), K v⟫
      = -(⟪K v, K v⟫ / (⟪K (K v), K v⟫ + 1)) ^ 2 * (⟪K (K v), K v⟫ + 2) := by
    field_simp; ring
  rw [e] at this
  have : 0 < (⟪K v, K v⟫ / (⟪K (K v), K v⟫ + 1)) ^ 2 * (⟪K (K v), K v⟫ + 2) := by positivity
  linarith

/-- A strict local minimum of a convex function is the only minimum. -/
theorem strict_unique {V : Type} [NormedAddCommGroup V] [NormedSpace ℝ V] {Φ : V → ℝ} (hc : ConvexOn ℝ Set.univ Φ)
    {xs y : V} {ρ : ℝ} (hρ : 0 < ρ) (hm : ∀ x, x ≠ xs → ‖x - xs‖ ≤ ρ → Φ xs < Φ x) (hy : Φ y ≤ Φ xs) (hne : y ≠ xs) :
    False := by
  have hn : 0 < ‖y - xs‖ := norm_pos_iff.2 (sub_ne_zero.2 hne)
  have hs0 : 0 < min 1 (ρ / ‖y - xs‖) := lt_min one_pos (div_pos hρ hn)
  generalize hs : min 1 (ρ / ‖y - xs‖) = s at hs0
  have h1 : s ≤ 1 := hs ▸ min_le_left _ _
  have h2 : s ≤ ρ / ‖y - xs‖ := hs ▸ min_le_right _ _
  have e : (1 - s) • xs + s • y = xs + s • (y - xs) := by module
  have a := hm (xs + s • (y - xs)) (by
    intro h
    rw [add_eq_left, smul_eq_zero] at h
    exact h.elim hs0.ne' (sub_ne_zero.2 hne)) (by
    rw [add_sub_cancel_left, norm_smul, Real.norm_of_nonneg hs0.le]
    rwa [le_div_iff₀ hn] at h2)
  have b := hc.2 (Set.mem_univ xs) (Set.mem_univ y) (by linarith : 0 ≤ 1 - s) hs0.le (by ring)
  rw [e] at b
  simp only [smul_eq_mul] at b
  nlinarith

theorem inner_single {J κ : Type} [Fintype J] [DecidableEq J] (P : Problem J κ) (A : κ → T3) (N : κ → Voigt)
    (x : EuclideanSpace ℝ J) (i j : J) :
    ⟪tangent P A N x (EuclideanSpace.single i 1), EuclideanSpace.single j 1⟫ = entry P A N x j i := by
  have : tangent P A N x (EuclideanSpace.single i 1) j
      = ∑ j', entry P A N x j j' * (EuclideanSpace.single i (1 : ℝ) : EuclideanSpace ℝ J) j' := rfl
  rw [EuclideanSpace.inner_single_right, this]
  simp

end Verif.Wrinkled
