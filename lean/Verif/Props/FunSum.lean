import Verif.Model.FunSum
import Verif.Lemmas.FunSum
import Mathlib.Analysis.Calculus.Deriv.Add

/-! # Properties C62, C85: sums of functions -/

namespace Verif.FunSum

variable {P V : Type}

/-! ## C62 -/

/-- Specification: value (or derivative of order `m`) of piece `k` of one function. -/
noncomputable def value [Zero V] (k m : ℕ) (u : P) (f : FunSet P V) : V :=
  match f.pieces[k]? with
  | some p => p.ders m u
  | none => 0

/-- Specification: support box of piece `k` of one function. -/
def box (k : ℕ) (f : FunSet P V) : List (ℝ × ℝ) :=
  match f.pieces[k]? with
  | some p => p.support
  | none => []

/-- Precondition: at least one function, and every function has a piece `k`. -/
def HasPiece (fs : List (FunSet P V)) (k : ℕ) : Prop :=
  fs ≠ [] ∧ ∀ f ∈ fs, k < f.pieces.length

/-- **C62** Value and derivatives of all orders are the sums of those of the members, for every
list of functions, every piece and every point. -/
theorem C62_eval [AddMonoid V] (fs : List (FunSet P V)) (k m : ℕ) (u : P) (h : HasPiece fs k) :
    ders fs k m u = .ok ((fs.map (value k m u)).sum) := by
  apply ders_ok k m u (value k m u) fs h.1
  intro f hf
  have hk := h.2 f hf
  exact ⟨_, get_eq_ok _ _ hk, by simp [value, hk]⟩

/-- **C62** The order of the functions does not matter. -/
theorem C62_order [AddCommMonoid V] (fs gs : List (FunSet P V)) (hp : fs.Perm gs) (k m : ℕ) (u : P)
    (h : HasPiece fs k) : ders fs k m u = ders gs k m u := by
  have h' : HasPiece gs k := by
    refine ⟨?_, fun f hf => h.2 f (hp.mem_iff.mpr hf)⟩
    intro hg; rw [hg] at hp; exact h.1 hp.eq_nil
  rw [C62_eval fs k m u h, C62_eval gs k m u h']
  congr 1
  exact (hp.map _).sum_eq

/-- **C62** If the blocks of every member are derivatives of each other along a curve `c` (the
operation `D` picks the directional derivative out of a block), so are those of the sum. -/
theorem C62_derivative [NormedAddCommGroup V] [NormedSpace ℝ V] (fs : List (FunSet P V)) (k m : ℕ)
    (c : ℝ → P) (D : V →+ V) (t : ℝ) (h : HasPiece fs k)
    (hd : ∀ f ∈ fs, HasDerivAt (fun s => value k m (c s) f) (D (value k (m + 1) (c t) f)) t) :
    ∃ F : ℝ → V, ∃ F' : V, (∀ s, ders fs k m (c s) = .ok (F s)) ∧
      ders fs k (m + 1) (c t) = .ok F' ∧ HasDerivAt F (D F') t := by
  refine ⟨fun s => (fs.map (value k m (c s))).sum, _, fun s => C62_eval fs k m (c s) h,
    C62_eval fs k (m + 1) (c t) h, ?_⟩
  clear h
  induction fs with
  | nil => simpa using hasDerivAt_const t (0 : V)
  | cons f fs ih =>
    have h1 := hd f (by simp)
    have h2 := ih (fun g hg => hd g (by simp [hg]))
    have h3 := h1.add h2
    simp only [List.map_cons, List.sum_cons, map_add]
    exact h3

/-- **C62** The support of the sum is the bounding box of the supports: it contains every one of
them and in every direction both bounds are attained. -/
theorem C62_support (fs : List (FunSet P V)) (k n : ℕ) (h : HasPiece fs k)
    (hn : ∀ f ∈ fs, (box k f).length = n) :
    ∃ r, support fs k = .ok r ∧ r.length = n ∧
      ∀ (d : ℕ) (z : ℝ × ℝ), r[d]? = some z →
        (∀ f ∈ fs, ∀ y, (box k f)[d]? = some y → z.1 ≤ y.1 ∧ y.2 ≤ z.2) ∧
        (∃ f ∈ fs, ∃ y, (box k f)[d]? = some y ∧ z.1 = y.1) ∧
        (∃ f ∈ fs, ∃ y, (box k f)[d]? = some y ∧ z.2 = y.2) := by
  have key : ∀ f ∈ fs, ∃ p, get f.pieces k = .ok p ∧ p.support = box k f := by
    intro f hf
    have hk := h.2 f hf
    exact ⟨_, get_eq_ok _ _ hk, by simp [box, hk]⟩
  cases fs with
  | nil => exact absurd rfl h.1
  | cons f fs =>
    obtain ⟨p, hp, hb⟩ := key f (by simp)
    obtain ⟨r, hr, hl, hv⟩ := supportLoop_ok k (box k) n fs (fun g hg => by
      obtain ⟨p, hp, hb⟩ := key g (by simp [hg])
      exact ⟨p, hp, hb, hn g (by simp [hg])⟩) (box k f) (hn f (by simp))
    refine ⟨r, ?_, hl, ?_⟩
    · unfold support; simp only; rw [hp, bind_ok', hb, hr]
    · intro d z hz
      obtain ⟨h1, ⟨b, hb1, y, hy, hzy⟩, ⟨b', hb2, y', hy', hzy'⟩⟩ := hv d z hz
      refine ⟨?_, ?_, ?_⟩
      · intro g hg y hy
        rcases List.mem_cons.mp hg with rfl | hg
        · exact h1 _ (Or.inl rfl) y hy
        · exact h1 _ (Or.inr ⟨g, hg, rfl⟩) y hy
      · rcases hb1 with rfl | ⟨g, hg, rfl⟩
        · exact ⟨f, by simp, y, hy, hzy⟩
        · exact ⟨g, by simp [hg], y, hy, hzy⟩
      · rcases hb2 with rfl | ⟨g, hg, rfl⟩
        · exact ⟨f, by simp, y', hy', hzy'⟩
        · exact ⟨g, by simp [hg], y', hy', hzy'⟩

/-- **C62** Construction of a non-empty sum of functions with equally many pieces and equally
long supports succeeds and makes one piece per piece of the members. -/
theorem C62_construct (fs : List (FunSet P V)) (N n : ℕ) (hne : fs ≠ [])
    (hN : ∀ f ∈ fs, f.pieces.length = N) (hn : ∀ f ∈ fs, ∀ k < N, (box k f).length = n) :
    ∃ l, construct fs = .ok l ∧ l.length = N ∧ nPieces fs = .ok N ∧
      ∀ k < N, ∃ s, l[k]? = some s ∧ support fs k = .ok s := by
  have hsup : ∀ k < N, ∃ s, support fs k = .ok s := by
    intro k hk
    obtain ⟨r, hr, _⟩ := C62_support fs k n ⟨hne, fun f hf => by rw [hN f hf]; exact hk⟩
      (fun f hf => hn f hf k hk)
    exact ⟨r, hr⟩
  have hinit : ∀ j ≤ N, ∃ l, initPieces fs j = .ok l ∧ l.length = j ∧
      ∀ k < j, ∃ s, l[k]? = some s ∧ support fs k = .ok s := by
    intro j
    induction j with
    | zero => intro _; exact ⟨[], rfl, rfl, by simp⟩
    | succ j ih =>
      intro hj
      obtain ⟨l, hl, hlen, hk⟩ := ih (by omega)
      obtain ⟨s, hs⟩ := hsup j (by omega)
      refine ⟨l ++ [s], by unfold initPieces; rw [hl, bind_ok', hs]; rfl, by simp [hlen], ?_⟩
      intro k hkj
      rcases Nat.lt_succ_iff_lt_or_eq.mp hkj with hlt | rfl
      · obtain ⟨s', h1, h2⟩ := hk k hlt
        exact ⟨s', by rw [List.getElem?_append_left (by omega)]; exact h1, h2⟩
      · exact ⟨s, by rw [List.getElem?_append_right (by omega)]; simp [hlen], hs⟩
  obtain ⟨l, hl, hlen, hk⟩ := hinit N le_rfl
  cases fs with
  | nil => exact absurd rfl hne
  | cons f fs =>
    have hf := hN f (by simp)
    refine ⟨l, by unfold construct; simp only; rw [hf]; exact hl, hlen, ?_, hk⟩
    simp [nPieces, get, Outcome.map, hf]

/-- Example function for the witnesses: one piece on `[lo, hi]` with value `u ↦ c * u`. -/
noncomputable def lin (lo hi c : ℝ) : FunSet ℝ ℝ :=
  ⟨[⟨[(lo, hi)], fun m u => if m = 0 then c * u else if m = 1 then c else 0⟩], 1, 1⟩

/-- Non-vacuity: `2u + 3u` evaluates to `5u`. -/
example (u : ℝ) : ders [lin 0 1 2, lin (-1) 3 3] 0 0 u = .ok (5 * u) := by
  rw [C62_eval _ _ _ _ ⟨by simp, by simp [lin]⟩]
  simp [value, lin]
  ring

/-- Non-vacuity of the support hypotheses. -/
example : ∀ f ∈ [lin 0 1 2, lin (-1) 3 3], (box 0 f).length = 1 := by simp [box, lin]

/-- **C62** is violated for empty sums: they can be created by the default constructor, and both
the constructor from an empty list and every query are undefined behaviour. -/
theorem C62_empty_violated [Add V] (k m : ℕ) (u : P) :
    construct ([] : List (FunSet P V)) = .ub ∧ nPieces ([] : List (FunSet P V)) = .ub ∧
    ders ([] : List (FunSet P V)) k m u = .ub ∧ support ([] : List (FunSet P V)) k = .ub :=
  ⟨rfl, rfl, rfl, rfl⟩

/-- **C62** is violated for functions with different numbers of pieces: the check is an assertion
only, and the sum reads out of bounds. -/
theorem C62_pieces_violated [AddMonoid V] (f g : FunSet P V) (k m : ℕ) (u : P)
    (hf : k < f.pieces.length) (hg : g.pieces.length ≤ k) :
    ders [f, g] k m u = .ub ∧ support [f, g] k = .ub := by
  constructor
  · unfold ders; simp only; rw [get_eq_ok _ _ hf, bind_ok']
    unfold sumLoop; rw [get_eq_ub _ _ hg]; rfl
  · unfold support; simp only; rw [get_eq_ok _ _ hf, bind_ok']
    unfold supportLoop; rw [get_eq_ub _ _ hg]; rfl

/-- Non-vacuity. -/
example : 0 < (lin 0 1 2).pieces.length ∧ (⟨[], 1, 1⟩ : FunSet ℝ ℝ).pieces.length ≤ 0 := by
  simp [lin]

/-! ## C85: sums as objects -/

/-- Specification: printing lists every piece once, in order. -/
def PrintsAll (nFun nPc : ℕ) : Prop := print nFun nPc = .ok (List.range nPc)

/-- **C85** is violated: printing never lists the first piece, so it is right for no sum with at
least one piece. -/
theorem C85_print_violated (nFun nPc : ℕ) (h : 0 < nPc) : ¬ PrintsAll nFun nPc := by
  unfold PrintsAll print
  split_ifs
  · simp
  · intro hp
    have hp := Outcome.ok.inj hp
    have : (0 : ℕ) ∈ List.range nPc := by simp [h]
    rw [← hp] at this; simp at this
  · simp
  · intro hp
    have hp := Outcome.ok.inj hp
    have : (0 : ℕ) ∈ List.range nPc := by simp [h]
    rw [← hp] at this; simp at this

/-- **C85** is violated: printing counts functions instead of pieces and leaves the vector of
pieces when there are more functions than pieces – for example the usual sum of geometry and
displacement on a single patch. -/
theorem C85_print_oob_violated (nFun nPc : ℕ) (h : 2 ≤ nFun) (hlt : nPc < nFun) :
    print nFun nPc = .ub := by
  unfold print
  rw [if_neg (by omega), if_neg (by omega), if_pos hlt]

/-- Non-vacuity: two functions on one patch. -/
example : print 2 1 = .ub := C85_print_oob_violated 2 1 le_rfl (by norm_num)

/-- **C85** (partial: number of functions between one and the number of pieces) Printing does not
leave the vector. -/
theorem C85_print_partial (nFun nPc : ℕ) (h : 1 ≤ nFun) (hle : nFun ≤ nPc) :
    (print nFun nPc).isOk := by
  unfold print
  rw [if_neg (by omega)]
  split_ifs
  · exact ⟨_, rfl⟩
  · omega
  · exact ⟨_, rfl⟩

/-- **C85** (partial: while the original lives) A copy evaluates like the original. -/
theorem C85_copy_partial [AddMonoid V] (mem : Mem P V) (src dst : ℕ) (hne : src ≠ dst)
    (fs : List (FunSet P V)) (k m : ℕ) (u : P) (h : HasPiece fs k) :
    ((mem.new src fs).copy src dst).ders dst k m u = .ok ((fs.map (value k m u)).sum) ∧
    (mem.new src fs).ders src k m u = .ok ((fs.map (value k m u)).sum) := by
  have hfirst : ∃ f rest, fs = f :: rest ∧ k < f.pieces.length := by
    cases fs with
    | nil => exact absurd rfl h.1
    | cons f rest => exact ⟨f, rest, rfl, h.2 f (by simp)⟩
  obtain ⟨f, rest, rfl, hk⟩ := hfirst
  have hg : get (List.replicate f.pieces.length src) k = .ok src := by
    rw [get_eq_ok _ _ (by simpa using hk)]; simp
  constructor
  · unfold Mem.ders Mem.copy Mem.new
    simp only [if_true]
    rw [hg, bind_ok']
    simp only [if_neg hne, if_true]
    exact C62_eval _ k m u h
  · unfold Mem.ders Mem.new
    simp only [if_true]
    rw [hg, bind_ok']
    simp only [if_true]
    exact C62_eval _ k m u h

/-- Non-vacuity. -/
example : HasPiece [lin 0 1 2] 0 := ⟨by simp, by simp [lin]⟩

/-- **C85** is violated: the pieces of a copy keep pointing to the original, so evaluating the
copy after the original is gone is undefined behaviour. -/
theorem C85_copy_violated [Add V] (mem : Mem P V) (src dst : ℕ) (hne : src ≠ dst)
    (f : FunSet P V) (rest : List (FunSet P V)) (k m : ℕ) (u : P) (hk : k < f.pieces.length) :
    (((mem.new src (f :: rest)).copy src dst).destroy src).ders dst k m u = .ub := by
  have hg : get (List.replicate f.pieces.length src) k = .ok src := by
    rw [get_eq_ok _ _ (by simpa using hk)]; simp
  unfold Mem.ders Mem.destroy Mem.copy Mem.new
  simp only [if_neg (Ne.symm hne), if_true]
  rw [hg, bind_ok']
  simp

end Verif.FunSum
