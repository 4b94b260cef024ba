import Verif.Model.Ids
import Verif.Lemmas.Ids

/-!
# Properties C01 – C03: identification, factory, XML
-/

namespace Verif.Ids

/-! ## C01 -/

/-- **C01** Decoding an encoded id gives back material and implementation. -/
theorem C01_decode_encode (m : Mat) (i : Impl) :
    decodeMat (encode m i) = m.code ∧ decodeImpl (encode m i) = i.code := by
  cases m <;> cases i <;> decide

/-- **C01** Different (material, implementation) pairs have different ids. -/
theorem C01_encode_injective (m m' : Mat) (i i' : Impl) (h : encode m i = encode m' i') :
    m = m' ∧ i = i' := by
  cases m <;> cases m' <;> cases i <;> cases i' <;> simp_all [encode, Mat.code, Impl.code]

/-- **C01** A two-digit id decodes to digits which re-assemble to the id, so an id below
100 whose digits are values of the enumerations is produced by exactly one pair. -/
theorem C01_encode_decode (id : Nat) (h : id < 100) :
    10 * decodeImpl id + decodeMat id = id ∧
    ∀ m i, m.code = decodeMat id → i.code = decodeImpl id →
      encode m i = id ∧ ∀ m' i', encode m' i' = id → m' = m ∧ i' = i := by
  have key : 10 * decodeImpl id + decodeMat id = id := by
    unfold decodeImpl decodeMat; omega
  refine ⟨key, fun m i hm hi => ?_⟩
  have h1 : encode m i = id := by unfold encode; rw [hm, hi]; exact key
  exact ⟨h1, fun m' i' h' => C01_encode_injective m' m i' i (h'.trans h1.symm)⟩

/-- Non-vacuity: the id 34 is "Ogden, spectral". -/
example : encode .OG .Spectral = 34 ∧ decodeMat 34 = Mat.OG.code ∧
    decodeImpl 34 = Impl.Spectral.code := by decide

/-! ## C02 -/

/-- Specification of the factory, written down from its documentation: which
hyperelastic (material, implementation, compressibility) triples exist. -/
def Available (m : Mat) (i : Impl) (comp : Bool) : Prop :=
  match m, i with
  | _, .Composite => False
  | .SvK, _ => False
  | .NH, _ => True
  | .MR, _ => True
  | .NH_ext, _ => comp = true
  | .OG, .Spectral => True
  | .OG, _ => False

/-- **C02** For every available hyperelastic triple the factory returns a material whose
id decodes to the requested material and implementation, with the requested
compressibility. -/
theorem C02_available (m : Mat) (i : Impl) (comp : Bool) (npars : Nat)
    (h : Available m i comp) :
    ∃ id, factoryRho m.code comp i.code npars = .ok (some (.nonlinear id comp)) ∧
      decodeMat id = m.code ∧ decodeImpl id = i.code := by
  refine ⟨encode m i, ?_, (C01_decode_encode m i).1, (C01_decode_encode m i).2⟩
  cases m <;> cases i <;> cases comp <;> first | rfl | exact absurd h (by simp [Available])

/-- **C02** Inside the enumerations every hyperelastic triple that is not available is
reported by an error. -/
theorem C02_unavailable (m : Mat) (i : Impl) (comp : Bool) (npars : Nat)
    (hm : m ≠ .SvK) (h : ¬ Available m i comp) :
    factoryRho m.code comp i.code npars = .throws := by
  cases m <;> cases i <;> cases comp <;> first | rfl | simp_all [Available]

/-- **C02** The linear material is returned for every non-composite implementation value
(also outside the enumeration) when two parameters are supplied; otherwise an error. -/
theorem C02_linear (impl : Int) (comp : Bool) (npars : Nat) :
    factoryRho Mat.SvK.code comp impl npars =
      if impl ≠ 0 ∧ 2 ≤ npars then .ok (some .linear) else .throws := by
  unfold factoryRho Impl.ofInt
  by_cases h0 : impl = 0
  · simp [h0, Mat.ofInt, Mat.code]
  · by_cases h1 : impl = 1 <;> by_cases h2 : impl = 2 <;> by_cases h3 : impl = 3 <;>
      simp [h0, h1, h2, h3, Mat.ofInt, Mat.code]

/-- **C02** Null is returned exactly when one of the two option values lies outside its
enumeration and no earlier rule (linear material, composite implementation, incompressible
extended neo-Hookean) applies. -/
theorem C02_null_iff (mat impl : Int) (comp : Bool) (npars : Nat) :
    factoryRho mat comp impl npars = .ok none ↔
      mat ≠ 0 ∧ impl ≠ 0 ∧ ¬ (mat = 2 ∧ comp = false) ∧
      (¬ (1 ≤ mat ∧ mat ≤ 4) ∨ ¬ (1 ≤ impl ∧ impl ≤ 3)) := by
  have hm : (mat = 0 ∨ mat = 1 ∨ mat = 2 ∨ mat = 3 ∨ mat = 4) ∨
      (mat ≠ 0 ∧ mat ≠ 1 ∧ mat ≠ 2 ∧ mat ≠ 3 ∧ mat ≠ 4) := by omega
  have hi : (impl = 0 ∨ impl = 1 ∨ impl = 2 ∨ impl = 3) ∨
      (impl ≠ 0 ∧ impl ≠ 1 ∧ impl ≠ 2 ∧ impl ≠ 3) := by omega
  unfold factoryRho Mat.ofInt Impl.ofInt
  rcases hm with (h | h | h | h | h) | ⟨h0, h1, h2, h3, h4⟩
  · subst h
    rcases hi with (h | h | h | h) | ⟨g0, g1, g2, g3⟩
    · subst h; simp
    · subst h; by_cases hn : 2 ≤ npars <;> simp [hn]
    · subst h; by_cases hn : 2 ≤ npars <;> simp [hn]
    · subst h; by_cases hn : 2 ≤ npars <;> simp [hn]
    · by_cases hn : 2 ≤ npars <;> simp [hn, g0, g1, g2, g3]
  all_goals first | subst h | skip
  all_goals rcases hi with (h | h | h | h) | ⟨g0, g1, g2, g3⟩
  all_goals first | subst h | skip
  all_goals cases comp <;> simp_all <;> omega

/-- **C02** In particular null is never returned for values inside the enumerations. -/
theorem C02_never_null (m : Mat) (i : Impl) (comp : Bool) (npars : Nat) :
    factoryRho m.code comp i.code npars ≠ .ok none := by
  intro h
  have := (C02_null_iff _ _ _ _).1 h
  cases m <;> cases i <;> simp [Mat.code, Impl.code] at this

/-- **C02** The factory never runs into undefined behaviour. -/
theorem C02_safe (mat impl : Int) (comp : Bool) (npars : Nat) :
    (factoryRho mat comp impl npars).safe := by
  have ite_safe : ∀ (c : Prop) [Decidable c] (a b : Outcome (Option Kind)),
      a.safe → b.safe → (if c then a else b).safe := by
    intro c _ a b ha hb; by_cases h : c <;> simp [h, ha, hb]
  have hok : ∀ k : Option Kind, (Outcome.ok k).safe := by intro k; simp [Outcome.safe]
  have hth : (Outcome.throws : Outcome (Option Kind)).safe := by simp [Outcome.safe]
  unfold factoryRho
  repeat' first | exact hok _ | exact hth | apply ite_safe

/-- **C02** The overload without density takes the same decision. -/
theorem C02_overloads_agree (mat impl : Int) (comp : Bool) (npars : Nat) :
    factoryNoRho mat comp impl npars = factoryRho mat comp impl npars := rfl

/-- Non-vacuity: a concrete available triple, a concrete unavailable one and a concrete
null. -/
example : Available .MR .Generalized true ∧ ¬ Available .OG .Analytical false ∧
    factoryRho 7 true 1 2 = .ok none ∧
    factoryRho 3 true 2 3 = .ok (some (.nonlinear 23 true)) := by
  refine ⟨trivial, fun h => h, rfl, rfl⟩

/-! ## C03 -/

/-- A complete object: thickness assigned and no null parameter. -/
def Complete {F : Type} (o : Obj F) : Prop :=
  o.thickness ≠ none ∧ ∀ p ∈ o.pars, p ≠ none

/-- The kinds of material that have an XML interface. -/
def Writable (k : Kind) : Prop :=
  k = .linear ∨ k = .nonlinear 11 true ∨ k = .nonlinear 11 false ∨ k = .nonlinear 12 true ∨
  k = .nonlinear 13 true ∨ k = .nonlinear 13 false ∨ k = .nonlinear 34 true ∨
  k = .nonlinear 34 false

/-- **C03** (partial: only the kinds with an XML interface; see
`C03_roundtrip_violated` for the others.)  Writing a complete material of such a kind –
wrapped for tension-field analysis or not, any thickness, density and parameter list, in
dimension 2 or 3 – and reading the result back yields the same material. -/
theorem C03_roundtrip_partial {F : Type} (o : Obj F) (hd : o.dim = 2 ∨ o.dim = 3)
    (hk : Writable o.kind) (hc : Complete o) :
    ∃ n, put o = .ok (some n) ∧ get n = .ok (some o) := by
  obtain ⟨dim, kind, tft, thickness, density, pars⟩ := o
  obtain ⟨ht, hp⟩ := hc
  simp only at hd hk ht hp
  cases thickness with
  | none => exact absurd rfl ht
  | some t =>
    obtain ⟨out, ho, hg⟩ := getPars_put pars hp []
    simp only [List.length_nil, List.nil_append] at ho hg
    have hg' : getPars out = pars := hg
    rcases hd with rfl | rfl <;> rcases hk with rfl | rfl | rfl | rfl | rfl | rfl | rfl | rfl <;>
      cases tft <;>
      simp [put, putImpl, typeString, putData, ho, Outcome.map, get, getImpl, kindOfType, getData,
        Outcome.bind, tftDimOfType, hg']

/-- **C03** is violated by the code: the factory can build a spectral neo-Hookean
material (id 31), but it cannot be written (a null node is returned), and wrapped for
tension-field analysis the writer dereferences that null node. -/
theorem C03_roundtrip_violated :
    factoryRho Mat.NH.code false Impl.Spectral.code 2 = .ok (some (.nonlinear 31 false)) ∧
    (∀ (F : Type) (o : Obj F), o.kind = .nonlinear 31 false → o.tft = false →
      put o = .ok none) ∧
    (∀ (F : Type) (o : Obj F), o.kind = .nonlinear 31 false → o.tft = true →
      put o = .ub) := by
  refine ⟨rfl, fun F o hk ht => ?_, fun F o hk ht => ?_⟩
  · simp [put, putImpl, hk, ht, typeString]
  · simp [put, putImpl, hk, ht, typeString, Outcome.bind]

/-- **C03** The kinds the factory can build and XML cannot represent are exactly the
generalized and spectral implementations of NH, NH_ext and MR. -/
theorem C03_unwritable_iff (m : Mat) (i : Impl) (comp : Bool) (k : Kind) (npars : Nat)
    (h : factoryRho m.code comp i.code npars = .ok (some k)) :
    ¬ Writable k ↔ (m = .NH ∨ m = .NH_ext ∨ m = .MR) ∧ (i = .Generalized ∨ i = .Spectral) := by
  by_cases hn : 2 ≤ npars <;>
  cases m <;> cases i <;> cases comp <;>
    simp [factoryRho, Mat.ofInt, Impl.ofInt, Mat.code, Impl.code, encode, hn] at h <;>
    subst h <;> simp [Writable]

/-- Non-vacuity: a concrete wrapped Ogden material with four parameters meets the
hypotheses of the round trip. -/
example : ∃ n, put (F := Nat) ⟨3, .nonlinear 34 true, true, some 7, none, [some 1, some 2, some 3, some 4]⟩
      = .ok (some n) ∧
    get n = .ok (some ⟨3, .nonlinear 34 true, true, some 7, none, [some 1, some 2, some 3, some 4]⟩) :=
  C03_roundtrip_partial _ (Or.inr rfl) (by simp [Writable]) ⟨by simp, by simp⟩

end Verif.Ids
