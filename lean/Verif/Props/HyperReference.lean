import Verif.Lemmas.Hyper
import Verif.Lemmas.Linear
import Verif.Spec.Hyper
import Mathlib.Analysis.SpecificLimits.Basic

/-! # Properties C46 – C48, C59: reference state, small strains, symmetries, parameters -/

set_option linter.unusedSimpArgs false

namespace Verif.Hyper

open Verif.Geometry Spec.Hyper

theorem data_self_J0 (A : T2) (hA : det2 A ≠ 0) : (data A A).J0 = 1 := by
  simp [data, hA]

theorem traceCt_self (A : T2) (hA : det2 A ≠ 0) (hs : A 0 1 = A 1 0) :
    traceCt (data A A) = 2 := by
  have s := inv2_symm A hs
  have h0 := mul_inv2 A hA 0 0
  have h1 := mul_inv2 A hA 1 1
  simp only [if_true] at h0 h1
  simp only [traceCt, data, embed_00, embed_01, embed_10, embed_11]
  rw [s 1 0] at h0
  rw [s 1 0]
  linarith

/-! ## C46 -/

/-- **C46** Incompressible neo-Hookean: no stress in the reference configuration. -/
theorem C46_NH (p : Par) (A : T2) (hA : det2 A ≠ 0) (i j : Fin 3) :
    sNH p (data A A) i j = 0 := by
  simp [sNH, data_self_J0 A hA]
  simp [data]

/-- **C46** Incompressible Mooney–Rivlin. -/
theorem C46_MR (p : Par) (A : T2) (hA : det2 A ≠ 0) (hs : A 0 1 = A 1 0) (i j : Fin 3) :
    sMR p (data A A) i j = 0 := by
  simp only [sMR, data_self_J0 A hA, traceCt_self A hA hs]
  simp only [data]
  ring

/-- **C46** Compressible models with unit thickness stretch, in-plane and thickness
components. -/
theorem C46_compressible (p : Par) (A : T2) (hA : det2 A ≠ 0) (hs : A 0 1 = A 1 0)
    (i j : Fin 3) (hij : (i ≠ 2 ∧ j ≠ 2) ∨ (i = 2 ∧ j = 2)) :
    sNHc p (cdata (data A A) 1) i j = 0 ∧ sMRc p (cdata (data A A) 1) i j = 0 ∧
    sNHe p (cdata (data A A) 1) i j = 0 := by
  have hJ := data_self_J0 A hA
  have ht := traceCt_self A hA hs
  have hG : (cdata (data A A) 1).D.Gori i j = (cdata (data A A) 1).cinv i j := by
    rcases hij with ⟨h1, h2⟩ | ⟨rfl, rfl⟩
    · rcases fin3_cases i with rfl | rfl | rfl <;> rcases fin3_cases j with rfl | rfl | rfl <;>
        simp_all [cdata, data, withThickness]
    · simp [cdata, data, withThickness]
  have hI1 : I1 (cdata (data A A) 1) = 3 := by
    simp only [I1, cdata, withT_22, ht]; norm_num
  have hI2 : I2 (cdata (data A A) 1) = 3 := by
    simp only [I2, cdata, withT_22, ht, hJ]; norm_num
  have hJ1 : (cdata (data A A) 1).J = 1 := by simp [cdata, hJ]
  have hd2 : dI2 (cdata (data A A) 1) i j = 2 * (cdata (data A A) 1).cinv i j := by
    rcases hij with ⟨h1, h2⟩ | ⟨rfl, rfl⟩
    · simp only [dI2, idelta, delta, h1, h2, if_false, dI1, hG]
      simp only [cdata, withT_22, hJ]
      ring
    · simp [dI2, cdata, withT_22, ht]
  refine ⟨?_, ?_, ?_⟩
  · simp only [sNHc, hI1, hJ1, hG, Real.one_rpow]; ring
  · simp only [sMRc, hI1, hI2, hJ1, hG, hd2, Real.one_rpow]; ring
  · simp only [sNHe, hJ1, hG]; ring

/-- Non-vacuity: a skew reference metric. -/
example : det2 (![![2, 1], ![1, 3]] : T2) ≠ 0 ∧ (![![2, 1], ![1, 3]] : T2) 0 1
    = (![![2, 1], ![1, 3]] : T2) 1 0 := by
  simp [det2]; norm_num

/-! ## C47 -/

/-- **C47** Incompressible tangents at the reference configuration: Hooke's plane-stress
tensor for Poisson's ratio 1/2 and Young's modulus three times the shear modulus. -/
theorem C47_incompressible (p : Par) (A : T2) (hA : det2 A ≠ 0) (hs : A 0 1 = A 1 0)
    (hr : p.r + 1 ≠ 0) (i j k l : Fin 2) :
    cNH p (data A A) (up i) (up j) (up k) (up l) = hooke (3 * p.mu) (1 / 2) (inv2 A) i j k l ∧
    cMR p (data A A) (up i) (up j) (up k) (up l) = hooke (3 * p.mu) (1 / 2) (inv2 A) i j k l := by
  have hJ := data_self_J0 A hA
  have ht := traceCt_self A hA hs
  have hg : (data A A).gcon = embed (inv2 A) := rfl
  have hG : (data A A).Gori = embed (inv2 A) := rfl
  constructor
  · simp only [cNH, hJ, hg, embed_up, hooke]
    ring
  · have h : p.c1 = p.mu - p.c2 := by
      simp only [Par.c1, Par.c2]; field_simp; ring
    simp only [cMR, hJ, ht, hg, hG, embed_up, hooke, h]
    ring

/-- **C47** With Poisson's ratio 1/2 given, the Young's modulus of this limit is the given
one. -/
theorem C47_incompressible_half (E r : ℝ) (A : T2) (hA : det2 A ≠ 0) (hs : A 0 1 = A 1 0)
    (hr : r + 1 ≠ 0) (i j k l : Fin 2) :
    cNH ⟨E, 1 / 2, r⟩ (data A A) (up i) (up j) (up k) (up l)
      = hooke E (1 / 2) (inv2 A) i j k l ∧
    cMR ⟨E, 1 / 2, r⟩ (data A A) (up i) (up j) (up k) (up l)
      = hooke E (1 / 2) (inv2 A) i j k l := by
  have h : 3 * Par.mu ⟨E, 1 / 2, r⟩ = E := by simp only [Par.mu]; ring
  have := C47_incompressible ⟨E, 1 / 2, r⟩ A hA hs hr i j k l
  rwa [h] at this

/-- **C47** With another Poisson's ratio given, the incompressible material is not the given
linear material in the small-strain limit: for `E = 1`, `ν = 0` the tangent differs. -/
theorem C47_incompressible_other_violated :
    cNH ⟨1, 0, 1⟩ (data ![![1, 0], ![0, 1]] ![![1, 0], ![0, 1]]) (up 0) (up 0) (up 0) (up 0)
      ≠ hooke 1 0 (inv2 ![![1, 0], ![0, 1]]) 0 0 0 0 ∧
    cNH ⟨1, 0, 1⟩ (data ![![1, 0], ![0, 1]] ![![1, 0], ![0, 1]]) (up 0) (up 0) (up 0) (up 0)
      ≠ hooke 1 (1 / 2) (inv2 ![![1, 0], ![0, 1]]) 0 0 0 0 := by
  constructor
  · simp [cNH, data, hooke, inv2, det2, Par.mu]
  · simp [cNH, data, hooke, inv2, det2, Par.mu]; norm_num

section
variable (p : Par) (A : T2)

theorem ref_K (h1 : 1 + p.ν ≠ 0) (h2 : 1 - 2 * p.ν ≠ 0) : p.K = p.lam + 2 / 3 * p.mu := by
  have h3 : 3 - 6 * p.ν = 3 * (1 - 2 * p.ν) := by ring
  simp only [Par.K, Par.lam, Par.mu, h3]
  generalize 1 - 2 * p.ν = b at *
  field_simp
  linear_combination (p.E / 3) * h3

/-- Tangent of a compressible model at the reference configuration in terms of `λ`, `μ`. -/
theorem condense_ref {T : Fin 3 → Fin 3 → Fin 3 → Fin 3 → ℝ} {lam mu : ℝ} {G : T3}
    (hT : ∀ i j k l, ((i ≠ 2 ∧ j ≠ 2) ∨ (i = 2 ∧ j = 2)) → ((k ≠ 2 ∧ l ≠ 2) ∨ (k = 2 ∧ l = 2)) →
      T i j k l = lam * G i j * G k l + mu * (G i k * G j l + G i l * G j k))
    (h22 : G 2 2 = 1) (h2u : ∀ i : Fin 2, G 2 (up i) = 0) (hu2 : ∀ i : Fin 2, G (up i) 2 = 0)
    (hne : lam + 2 * mu ≠ 0) (i j k l : Fin 2) :
    condense T (up i) (up j) (up k) (up l)
      = 2 * lam * mu / (lam + 2 * mu) * G (up i) (up j) * G (up k) (up l)
        + mu * (G (up i) (up k) * G (up j) (up l) + G (up i) (up l) * G (up j) (up k)) := by
  unfold condense
  rw [hT _ _ _ _ (Or.inl ⟨up_ne_two i, up_ne_two j⟩) (Or.inl ⟨up_ne_two k, up_ne_two l⟩),
    hT _ _ _ _ (Or.inl ⟨up_ne_two i, up_ne_two j⟩) (Or.inr ⟨rfl, rfl⟩),
    hT _ _ _ _ (Or.inr ⟨rfl, rfl⟩) (Or.inl ⟨up_ne_two k, up_ne_two l⟩),
    hT _ _ _ _ (Or.inr ⟨rfl, rfl⟩) (Or.inr ⟨rfl, rfl⟩)]
  simp only [h22, h2u, hu2]
  have : lam * 1 * 1 + mu * (1 * 1 + 1 * 1) = lam + 2 * mu := by ring
  rw [this]
  have e : mu = ((lam + 2 * mu) - lam) / 2 := by ring
  generalize lam + 2 * mu = b at *
  subst e
  field_simp
  ring

/-- `c`, `cinv`, the invariants and their derivatives at the reference configuration. -/
theorem ref_facts (hA : det2 A ≠ 0) (hs : A 0 1 = A 1 0) :
    (cdata (data A A) 1).J = 1 ∧ I1 (cdata (data A A) 1) = 3 ∧ I2 (cdata (data A A) 1) = 3 ∧
    (cdata (data A A) 1).cinv = embed (inv2 A) ∧ (cdata (data A A) 1).D.Gori = embed (inv2 A) ∧
    (cdata (data A A) 1).D.J0 = 1 ∧ (cdata (data A A) 1).c 2 2 = 1 ∧
    traceCt (cdata (data A A) 1).D = 2 := by
  have hJ := data_self_J0 A hA
  have ht := traceCt_self A hA hs
  refine ⟨?_, ?_, ?_, ?_, rfl, hJ, rfl, ht⟩
  · simp [cdata, hJ]
  · simp only [I1, cdata, withT_22, ht]; norm_num
  · simp only [I2, cdata, withT_22, ht, hJ]; norm_num
  · funext i j
    rcases fin3_cases i with rfl | rfl | rfl <;> rcases fin3_cases j with rfl | rfl | rfl <;>
      simp [cdata, data, withThickness, embed]

/-- **C47** Compressible models: the condensed tangent at the reference configuration is
Hooke's plane-stress tensor with the given Young's modulus and Poisson's ratio. -/
theorem C47_compressible (hA : det2 A ≠ 0) (hs : A 0 1 = A 1 0) (hE : p.E ≠ 0)
    (h1 : 1 + p.ν ≠ 0) (h2 : 1 - 2 * p.ν ≠ 0) (h3 : 1 - p.ν ≠ 0) (hr : p.r + 1 ≠ 0)
    (i j k l : Fin 2) :
    let d := cdata (data A A) 1
    condense (cNHc p d) (up i) (up j) (up k) (up l) = hooke p.E p.ν (inv2 A) i j k l ∧
    condense (cMRc p d) (up i) (up j) (up k) (up l) = hooke p.E p.ν (inv2 A) i j k l ∧
    condense (cNHe p d) (up i) (up j) (up k) (up l) = hooke p.E p.ν (inv2 A) i j k l := by
  intro d
  obtain ⟨hJ, hI1, hI2, hci, hG, hJ0, hc22, htr⟩ := ref_facts A hA hs
  have hK := ref_K p h1 h2
  have hlm : p.lam + 2 * p.mu ≠ 0 := by
    have := Linear.lam_two_mu p.E p.ν h1 h2
    simp only [Linear.lam, Linear.mu] at this
    simp only [Par.lam, Par.mu]
    rw [this]
    exact div_ne_zero (mul_ne_zero hE h3) (mul_ne_zero h1 h2)
  have hfin : 2 * p.lam * p.mu / (p.lam + 2 * p.mu) * inv2 A i j * inv2 A k l
      + p.mu * (inv2 A i k * inv2 A j l + inv2 A i l * inv2 A j k)
      = hooke p.E p.ν (inv2 A) i j k l := by
    have := Linear.Cconst_eq p.E p.ν h1 h2 h3
    simp only [Linear.Cconst, Linear.lam, Linear.mu] at this
    have e : p.E * p.ν / (1 - p.ν ^ 2) = 2 * (p.E / (2 * (1 + p.ν))) * (p.ν / (1 - p.ν)) := by
      rw [show 1 - p.ν ^ 2 = (1 + p.ν) * (1 - p.ν) by ring]
      field_simp
    simp only [hooke, Par.lam, Par.mu, this, e]
  have hcond : ∀ T : Fin 3 → Fin 3 → Fin 3 → Fin 3 → ℝ,
      (∀ i j k l, ((i ≠ 2 ∧ j ≠ 2) ∨ (i = 2 ∧ j = 2)) → ((k ≠ 2 ∧ l ≠ 2) ∨ (k = 2 ∧ l = 2)) →
        T i j k l = p.lam * embed (inv2 A) i j * embed (inv2 A) k l
          + p.mu * (embed (inv2 A) i k * embed (inv2 A) j l
            + embed (inv2 A) i l * embed (inv2 A) j k)) →
      condense T (up i) (up j) (up k) (up l) = hooke p.E p.ν (inv2 A) i j k l := by
    intro T hT
    rw [condense_ref hT rfl (embed_two_up _) (embed_up_two _) hlm]
    simp only [embed_up]
    exact hfin
  refine ⟨hcond _ ?_, hcond _ ?_, hcond _ ?_⟩
  · intro a b m n _ _
    simp only [cNHc, dCinv, d, hJ, hI1, hci, hG, Real.one_rpow, hK]
    ring
  · intro a b m n hab hmn
    have hc : p.c1 = p.mu - p.c2 := by
      simp only [Par.c1, Par.c2]; field_simp; ring
    have key : d2I2 d a b m n = d.cinv a b * d.cinv m n + dCinv d a b m n := by
      have e1 : d.D.J0 = 1 := hJ0
      have e2 : d.cinv = embed (inv2 A) := hci
      have e3 : d.D.Gori = embed (inv2 A) := hG
      rcases hab with ⟨ha, hb⟩ | ⟨rfl, rfl⟩ <;> rcases hmn with ⟨hm, hn⟩ | ⟨rfl, rfl⟩
      · simp only [d2I2, idelta, delta, ha, hb, hm, hn, if_false, e1]; ring
      · have za : embed (inv2 A) a 2 = 0 := by
          rcases fin3_cases a with rfl | rfl | rfl <;> simp_all [embed]
        simp only [d2I2, idelta, delta, ha, hb, if_false, if_true, e1, e2, dI1, e3, dCinv, za,
          embed_22]; ring
      · have za : embed (inv2 A) 2 m = 0 := by
          rcases fin3_cases m with rfl | rfl | rfl <;> simp_all [embed]
        have zb : embed (inv2 A) 2 n = 0 := by
          rcases fin3_cases n with rfl | rfl | rfl <;> simp_all [embed]
        simp only [d2I2, idelta, delta, hm, hn, if_false, if_true, e1, e2, dI1, e3, dCinv, za, zb,
          embed_22]; ring
      · simp only [d2I2, idelta, delta, if_true, e2, dCinv, embed_22]; ring
    have keyI : ∀ u v : Fin 3, ((u ≠ 2 ∧ v ≠ 2) ∨ (u = 2 ∧ v = 2)) →
        dI2 d u v = 2 * d.cinv u v := by
      intro u v huv
      have e1 : d.D.J0 = 1 := hJ0
      have e2 : d.cinv = embed (inv2 A) := hci
      have e3 : d.D.Gori = embed (inv2 A) := hG
      have e4 : d.c 2 2 = 1 := hc22
      have e5 : traceCt d.D = 2 := htr
      rcases huv with ⟨hu, hv⟩ | ⟨rfl, rfl⟩
      · simp only [dI2, idelta, delta, hu, hv, if_false, e1, e2, e3, e4, dI1]; ring
      · simp only [dI2, idelta, delta, if_true, e2, e5, embed_22]; ring
    simp only [cMRc, key, keyI a b hab, keyI m n hmn, dI1]
    simp only [dCinv, d, hJ, hI1, hI2, hci, hG, Real.one_rpow, hK, hc]
    ring
  · intro a b m n _ _
    simp only [cNHe, dCinv, d, hJ, hci]
    ring

end

/-- **C47** The specification is the code's linear material. -/
theorem C47_linear (E ν : ℝ) (h1 : 1 + ν ≠ 0) (h2 : 1 - 2 * ν ≠ 0) (h3 : 1 - ν ≠ 0) (G : T2)
    (i j k l : Fin 2) : Linear.Cval E ν G i j k l = hooke E ν G i j k l := by
  have e : E * ν / (1 - ν ^ 2) = 2 * (E / (2 * (1 + ν))) * (ν / (1 - ν)) := by
    rw [show 1 - ν ^ 2 = (1 + ν) * (1 - ν) by ring]
    field_simp
  simp only [Linear.Cval, hooke, Linear.Cconst_eq E ν h1 h2 h3, Linear.mu, e]

/-- **C47** The Saint-Venant–Kirchhoff branch of the non-linear class has the tangent of the
linear material, for every deformation. -/
theorem C47_SvK (p : Par) (G : T2) (h1 : 1 + p.ν ≠ 0) (h2 : 1 - 2 * p.ν ≠ 0)
    (h3 : 1 - p.ν ≠ 0) (i j k l : Fin 2) :
    cSvK p G i j k l = hooke p.E p.ν G i j k l :=
  C47_linear p.E p.ν h1 h2 h3 G i j k l

/-! ## C48 -/

section
variable (p : Par)

/-- **C48** Minor and major symmetries of the incompressible tangents, for symmetric
metrics. -/
theorem C48_incompressible (D : Data) (hg : ∀ i j, D.gcon i j = D.gcon j i)
    (hG : ∀ i j, D.Gori i j = D.Gori j i) :
    ElasticSymm (cNH p D) ∧ ElasticSymm (cMR p D) := by
  refine ⟨fun i j k l => ⟨?_, ?_, ?_⟩, fun i j k l => ⟨?_, ?_, ?_⟩⟩ <;>
    simp only [cNH, cMR]
  · rw [hg j i]; ring
  · rw [hg l k]; ring
  · rw [hg k i, hg l j, hg k j, hg l i]; ring
  · rw [hg j i, hG j i]; ring
  · rw [hg l k, hG l k]; ring
  · rw [hg k i, hg l j, hg k j, hg l i]; ring

/-- **C48** The same for the three-dimensional compressible tangents. -/
theorem C48_compressible (d : CData) (hg : ∀ i j, d.cinv i j = d.cinv j i)
    (hG : ∀ i j, d.D.Gori i j = d.D.Gori j i) :
    ElasticSymm (cNHc p d) ∧ ElasticSymm (cMRc p d) ∧ ElasticSymm (cNHe p d) := by
  have hI : ∀ i j, dI2 d i j = dI2 d j i := by
    intro i j; simp only [dI2, dI1]; rw [hg j i, hG j i]; ring
  have hd1 : ∀ i j k l, dCinv d i j k l = dCinv d j i k l := by
    intro i j k l; simp only [dCinv]; ring
  have hd2 : ∀ i j k l, dCinv d i j k l = dCinv d i j l k := by
    intro i j k l; simp only [dCinv]; ring
  have hd3 : ∀ i j k l, dCinv d i j k l = dCinv d k l i j := by
    intro i j k l; simp only [dCinv]; rw [hg k i, hg l j, hg k j, hg l i]; ring
  have h21 : ∀ i j k l, d2I2 d i j k l = d2I2 d j i k l := by
    intro i j k l; simp only [d2I2, dI1]; rw [hd1 j i, hg j i, hG j i]; ring
  have h22 : ∀ i j k l, d2I2 d i j k l = d2I2 d i j l k := by
    intro i j k l; simp only [d2I2, dI1]; rw [hd2 i j l k, hg l k, hG l k]; ring
  have h23 : ∀ i j k l, d2I2 d i j k l = d2I2 d k l i j := by
    intro i j k l; simp only [d2I2, dI1]; rw [hd3 k l i j]; ring
  refine ⟨fun i j k l => ⟨?_, ?_, ?_⟩, fun i j k l => ⟨?_, ?_, ?_⟩,
    fun i j k l => ⟨?_, ?_, ?_⟩⟩ <;> simp only [cNHc, cMRc, cNHe, dI1]
  · rw [hd1 j i, hg j i, hG j i]
  · rw [hd2 i j l k, hg l k, hG l k]
  · rw [hd3 k l i j]; ring
  · rw [hd1 j i, h21 j i, hI j i, hg j i, hG j i]
  · rw [hd2 i j l k, h22 i j l k, hI l k, hg l k, hG l k]
  · rw [hd3 k l i j, h23 k l i j]; ring
  · rw [hd1 j i, hg j i]
  · rw [hd2 i j l k, hg l k]
  · rw [hd3 k l i j]; ring

/-- **C48** Condensation preserves the symmetries. -/
theorem C48_condensed (T : Fin 3 → Fin 3 → Fin 3 → Fin 3 → ℝ) (h : ElasticSymm T) :
    ElasticSymm (condense T) := by
  intro i j k l
  simp only [condense]
  refine ⟨?_, ?_, ?_⟩
  · rw [← (h i j k l).1, ← (h i j 2 2).1]
  · rw [← (h i j k l).2.1, ← (h 2 2 k l).2.1]
  · rw [← (h i j k l).2.2, (h k l 2 2).2.2, (h 2 2 i j).2.2]; ring

/-- **C48** For a tensor with these symmetries the 3×3 matrix filled from six entries
applied to the Voigt vector with doubled shear is the full contraction with the tensor. -/
theorem C48_matrix (T : Fin 3 → Fin 3 → Fin 3 → Fin 3 → ℝ) (h : ElasticSymm T) (H : T2)
    (hH : H 0 1 = H 1 0) :
    mulVec3 (fillMatrix T) (vec3 (H 0 0) (H 1 1) (2 * H 0 1)) =
      vec3 (contract (fun i j k l => T (up i) (up j) (up k) (up l)) H 0 0)
        (contract (fun i j k l => T (up i) (up j) (up k) (up l)) H 1 1)
        (contract (fun i j k l => T (up i) (up j) (up k) (up l)) H 0 1) := by
  have h1 := (h 0 0 0 1).2.1
  have h2 := (h 1 1 0 1).2.1
  have h3 := (h 0 1 0 1).2.1
  have h4 := (h 0 0 1 1).2.2
  have h5 := (h 0 1 0 0).2.2
  have h6 := (h 0 1 1 1).2.2
  funext i
  rcases fin3_cases i with rfl | rfl | rfl <;>
    simp only [mulVec3, fillMatrix, contract, Fin.sum_univ_three, Fin.sum_univ_two, mk3_zero,
      mk3_one, mk3_two, vec3_zero, vec3_one, vec3_two, up_zero, up_one, hH, ← h1, ← h2, ← h3, h4,
      h5, h6] <;> ring

/-- Non-vacuity: the tensor of a sheared state has the symmetries and a non-zero shear
entry. -/
example : (∀ i j, (data ![![1, 0], ![0, 1]] ![![2, 1], ![1, 2]]).gcon i j
      = (data ![![1, 0], ![0, 1]] ![![2, 1], ![1, 2]]).gcon j i) ∧
    cNH ⟨3, 1 / 2, 1⟩ (data ![![1, 0], ![0, 1]] ![![2, 1], ![1, 2]]) 0 0 0 1 ≠ 0 := by
  refine ⟨fun i j => ?_, ?_⟩
  · rcases fin3_cases i with rfl | rfl | rfl <;> rcases fin3_cases j with rfl | rfl | rfl <;>
      simp [data, embed, inv2, det2]
  · simp [cNH, data, embed, inv2, det2, Par.mu]; norm_num

end

/-! ## C59 -/

/-- **C59** The Mooney–Rivlin constants split the shear modulus with the given ratio. -/
theorem C59_split (p : Par) (hr : p.r + 1 ≠ 0) :
    p.c1 + p.c2 = p.mu ∧ p.c1 = p.r * p.c2 := by
  refine ⟨?_, rfl⟩
  simp only [Par.c1, Par.c2]
  field_simp

/-- **C59** The split determines the constants. -/
theorem C59_split_unique (p : Par) (hr : p.r + 1 ≠ 0) (a b : ℝ) (h1 : a + b = p.mu)
    (h2 : a = p.r * b) : a = p.c1 ∧ b = p.c2 := by
  have : b = p.c2 := by
    simp only [Par.c2]; field_simp; rw [← h1, h2]; ring
  exact ⟨by rw [h2, this]; rfl, this⟩

/-- **C59** With vanishing second constant (and the whole shear modulus in the first) stress
and tangent are those of the neo-Hookean material, incompressible and compressible. -/
theorem C59_neoHookean (p : Par) (h2 : p.c2 = 0) (h1 : p.c1 = p.mu) (D : Data) (d : CData)
    (i j k l : Fin 3) :
    sMR p D i j = sNH p D i j ∧ cMR p D i j k l = cNH p D i j k l ∧
    sMRc p d i j = sNHc p d i j ∧ cMRc p d i j k l = cNHc p d i j k l := by
  refine ⟨?_, ?_, ?_, ?_⟩
  · simp only [sMR, sNH, h1, h2]; ring
  · simp only [cMR, cNH, h1, h2]; ring
  · simp only [sMRc, sNHc, h1, h2]; ring
  · simp only [cMRc, cNHc, h1, h2, dI1]; ring

/-- **C59** As the ratio grows the Mooney–Rivlin stress tends to the neo-Hookean stress. -/
theorem C59_limit (E ν : ℝ) (D : Data) (i j : Fin 3) :
    Filter.Tendsto (fun r => sMR ⟨E, ν, r⟩ D i j) Filter.atTop
      (nhds (sNH ⟨E, ν, 0⟩ D i j)) := by
  have hc2 : Filter.Tendsto (fun r => Par.c2 ⟨E, ν, r⟩) Filter.atTop (nhds 0) := by
    have := (Filter.tendsto_atTop_add_const_right Filter.atTop (1 : ℝ)
      Filter.tendsto_id).inv_tendsto_atTop.const_mul (E / (2 * (1 + ν)))
    simpa [Par.c2, Par.mu, div_eq_mul_inv] using this
  have hc1 : Filter.Tendsto (fun r => Par.c1 ⟨E, ν, r⟩) Filter.atTop
      (nhds (Par.mu ⟨E, ν, 0⟩)) := by
    have h := (tendsto_const_nhds (x := Par.mu ⟨E, ν, 0⟩) (f := Filter.atTop (α := ℝ))).sub hc2
    rw [sub_zero] at h
    refine h.congr' ?_
    filter_upwards [Filter.eventually_gt_atTop (0 : ℝ)] with r hr
    have hr1 : r + 1 ≠ 0 := by positivity
    have := (C59_split ⟨E, ν, r⟩ hr1).1
    have e : Par.mu ⟨E, ν, r⟩ = Par.mu ⟨E, ν, 0⟩ := rfl
    rw [← e]
    linarith
  have := ((hc1.mul_const (D.Gori i j - 1 / D.J0 * D.gcon i j)).add
    ((hc2.mul_const (1 / D.J0)).mul_const (D.Gori i j - traceCt D * D.gcon i j))).add
    ((hc2.mul_const D.J0).mul_const (D.gcon i j))
  refine (this.congr fun r => ?_).trans (le_of_eq ?_)
  · simp only [sMR]; ring
  · simp only [sNH]; congr 1; ring

/-- Non-vacuity: with ratio 7 and shear modulus 1 the constants are 7/8 and 1/8. -/
example : Par.c1 ⟨3, 1 / 2, 7⟩ = 7 / 8 ∧ Par.c2 ⟨3, 1 / 2, 7⟩ = 1 / 8 := by
  constructor <;> · simp only [Par.c1, Par.c2, Par.mu]; norm_num

end Verif.Hyper
