import Verif.Lemmas.ExprMat

/-! # Property C118: matrices of the expressions -/

namespace Verif.ExprMat

open V3 Verif.Geometry Verif.Variation Verif.Spec.ExprMat

/-- **C118** First variation of the normal: for every number of functions all writes are inside the
matrix, every entry is written, and the row of function `j` in component `d` holds the variation for
that field. -/
theorem C118_var1 (n : ℕ) (s : Surf) (g h : Col) (grad : ℕ → Fin 2 → ℝ) (hess : ℕ → Voigt)
    (hs : Stores n g h grad hess) :
    ∃ m, var1Mat n s g h = .ok m ∧ m.rows = 3 * n ∧ m.cols = 3 ∧ Complete m ∧
      ∀ (d : Fin 3) (j : ℕ), j < n → ∀ c : Fin 3,
        m.get (number n d j) c = some (comp (var1 s (basisField d (grad j) (hess j))) c) := by
  obtain ⟨m, hr, h1, h2, h3⟩ := run_spec
    ((List.finRange 3).flatMap fun (d : Fin 3) => (List.range n).flatMap fun j =>
      (List.finRange 3).map fun (c : Fin 3) =>
        (⟨(d : ℕ) * n + j, c, comp (var1 s (readField g h d j)) c⟩ : Write)) (resize (3 * n) 3) (by
    intro w hw
    simp only [List.mem_flatMap, List.mem_map, List.mem_range, List.mem_finRange, true_and] at hw
    obtain ⟨d, j, hj, c, rfl⟩ := hw
    exact ⟨number_lt n d j hj, c.isLt⟩)
  have key : ∀ (d : Fin 3) (j : ℕ), j < n → ∀ c : Fin 3,
      m.get (number n d j) c = some (comp (var1 s (basisField d (grad j) (hess j))) c) := by
    intro d j hj c
    apply (h3 _ _).1
    · refine ⟨⟨(d : ℕ) * n + j, c, comp (var1 s (readField g h d j)) c⟩, ?_, rfl, rfl⟩
      simp only [List.mem_flatMap, List.mem_map, List.mem_range, List.mem_finRange, true_and]
      exact ⟨d, j, hj, c, rfl⟩
    · intro w hw e1 e2
      simp only [List.mem_flatMap, List.mem_map, List.mem_range, List.mem_finRange, true_and] at hw
      obtain ⟨d', j', hj', c', rfl⟩ := hw
      obtain ⟨rfl, rfl⟩ := number_inj n d' d j' j hj' hj e1
      have : c' = c := Fin.ext e2
      subst this
      simp only [readField_eq n g h grad hess hs d' j' hj]
  refine ⟨m, hr, h1, h2, ?_, key⟩
  intro i j hi hj
  rw [h1] at hi
  rw [h2] at hj
  obtain ⟨d, k, hk, rfl⟩ := number_surj n i hi
  have := key d k hk ⟨j, hj⟩
  simp only [number] at this
  rw [this]; simp

/-- **C118** (partial) The four loops of the second variations: with the same space for both arguments
all writes are inside, every entry is written, and the entry at the numbers of two functions is the
value for these two fields, for every number of functions and every value function.  Missing: two
different spaces. -/
theorem C118_var2_partial (n : ℕ) (g h : Col) (grad : ℕ → Fin 2 → ℝ) (hess : ℕ → Voigt)
    (hs : Stores n g h grad hess) (f : Surf → Surf → ℝ) :
    ∃ m, var2Mat n n g h g h f = .ok m ∧ m.rows = 3 * n ∧ m.cols = 3 * n ∧ Complete m ∧
      ∀ (d : Fin 3) (j : ℕ), j < n → ∀ (c : Fin 3) (i : ℕ), i < n →
        m.get (number n d j) (number n c i)
          = some (f (basisField d (grad j) (hess j)) (basisField c (grad i) (hess i))) := by
  obtain ⟨m, hr, h1, h2, h3⟩ := run_spec
    ((List.range n).flatMap fun j => (List.range n).flatMap fun i =>
      (List.finRange 3).flatMap fun (d : Fin 3) => (List.finRange 3).map fun (c : Fin 3) =>
        (⟨(d : ℕ) * n + j, (c : ℕ) * n + i, f (readField g h d j) (readField g h c i)⟩ : Write))
      (resize (3 * n) (3 * n)) (by
    intro w hw
    simp only [List.mem_flatMap, List.mem_map, List.mem_range, List.mem_finRange, true_and] at hw
    obtain ⟨j, hj, i, hi, d, c, rfl⟩ := hw
    exact ⟨number_lt n d j hj, number_lt n c i hi⟩)
  have key : ∀ (d : Fin 3) (j : ℕ), j < n → ∀ (c : Fin 3) (i : ℕ), i < n →
      m.get (number n d j) (number n c i)
        = some (f (basisField d (grad j) (hess j)) (basisField c (grad i) (hess i))) := by
    intro d j hj c i hi
    apply (h3 _ _).1
    · refine ⟨⟨(d : ℕ) * n + j, (c : ℕ) * n + i, f (readField g h d j) (readField g h c i)⟩, ?_,
        rfl, rfl⟩
      simp only [List.mem_flatMap, List.mem_map, List.mem_range, List.mem_finRange, true_and]
      exact ⟨j, hj, i, hi, d, c, rfl⟩
    · intro w hw e1 e2
      simp only [List.mem_flatMap, List.mem_map, List.mem_range, List.mem_finRange, true_and] at hw
      obtain ⟨j', hj', i', hi', d', c', rfl⟩ := hw
      obtain ⟨rfl, rfl⟩ := number_inj n d' d j' j hj' hj e1
      obtain ⟨rfl, rfl⟩ := number_inj n c' c i' i hi' hi e2
      simp only [readField_eq n g h grad hess hs d' j' hj, readField_eq n g h grad hess hs c' i' hi]
  refine ⟨m, hr, h1, h2, ?_, key⟩
  intro a b ha hb
  rw [h1] at ha
  rw [h2] at hb
  obtain ⟨d, j, hj, rfl⟩ := number_surj n a ha
  obtain ⟨c, i, hi, rfl⟩ := number_surj n b hb
  have := key d j hj c i hi
  simp only [number] at this
  rw [this]; simp

/-- **C118** is violated for two different spaces: the result has the size of the first space only.
If the second has more functions the loops write outside; if it has fewer, entries stay
indeterminate. -/
theorem C118_var2_violated (nU nV : ℕ) (gU hU gV hV : Col) (f : Surf → Surf → ℝ) :
    (0 < nU → nU < nV → var2Mat nU nV gU hU gV hV f = .ub) ∧
    (nV < nU → ∃ m, var2Mat nU nV gU hU gV hV f = .ok m ∧ ¬ Complete m) := by
  constructor
  · intro h0 hlt
    apply run_ub
    refine ⟨⟨((0 : Fin 3) : ℕ) * nU + 0, ((2 : Fin 3) : ℕ) * nV + (nV - 1),
      f (readField gU hU 0 0) (readField gV hV 2 (nV - 1))⟩, ?_, ?_⟩
    · simp only [List.mem_flatMap, List.mem_map, List.mem_range, List.mem_finRange, true_and]
      exact ⟨0, h0, nV - 1, by omega, 0, 2, rfl⟩
    · simp [resize]; omega
  · intro hlt
    obtain ⟨m, hr, h1, h2, h3⟩ := run_spec
      ((List.range nU).flatMap fun j => (List.range nV).flatMap fun i =>
        (List.finRange 3).flatMap fun (d : Fin 3) => (List.finRange 3).map fun (c : Fin 3) =>
          (⟨(d : ℕ) * nU + j, (c : ℕ) * nV + i, f (readField gU hU d j) (readField gV hV c i)⟩ :
            Write)) (resize (3 * nU) (3 * nU)) (by
      intro w hw
      simp only [List.mem_flatMap, List.mem_map, List.mem_range, List.mem_finRange, true_and] at hw
      obtain ⟨j, hj, i, hi, d, c, rfl⟩ := hw
      refine ⟨number_lt nU d j hj, lt_of_lt_of_le (number_lt nV c i hi) ?_⟩
      simp [resize]; omega)
    refine ⟨m, hr, ?_⟩
    intro hc
    apply hc 0 (3 * nU - 1) (by rw [h1]; simp [resize]; omega) (by rw [h2]; simp [resize]; omega)
    rw [(h3 0 (3 * nU - 1)).2]
    · rfl
    · intro w hw hh
      simp only [List.mem_flatMap, List.mem_map, List.mem_range, List.mem_finRange, true_and] at hw
      obtain ⟨j, hj, i, hi, d, c, rfl⟩ := hw
      have := number_lt nV c i hi
      have e := hh.2
      simp only at e
      omega

/-- Non-vacuity: spaces with two and one functions. -/
example : (1 : ℕ) < 2 ∧ 0 < 1 := by omega

/-- **C118** Second derivatives of a space: for every number of functions, block `number n d i` (three
columns) has the second derivatives of function `i` in column `d` and zeros in the others. -/
theorem C118_deriv2 (n : ℕ) (g h : Col) (grad : ℕ → Fin 2 → ℝ) (hess : ℕ → Voigt)
    (hs : Stores n g h grad hess) :
    ∃ m, deriv2Mat n h = .ok m ∧ m.rows = 3 ∧ m.cols = 3 * (3 * n) ∧
      ∀ (d : Fin 3) (i : ℕ), i < n → ∀ r c : Fin 3,
        m.get r (number n d i * 3 + c) = some (if c = d then hess i r else 0) := by
  obtain ⟨m, hr, h1, h2, h3⟩ := run_spec
    ((List.range 3).flatMap fun d => (List.range n).flatMap fun i => (List.range 3).map fun r =>
      (⟨r, d * (3 * n + 1) + i * 3, h (3 * i + r)⟩ : Write)) (zeros 3 (3 * (3 * n))) (by
    intro w hw
    simp only [List.mem_flatMap, List.mem_map, List.mem_range] at hw
    obtain ⟨d, hd, i, hi, r, hr, rfl⟩ := hw
    refine ⟨hr, ?_⟩
    have : d = 0 ∨ d = 1 ∨ d = 2 := by omega
    simp only [zeros]
    rcases this with rfl | rfl | rfl <;> omega)
  refine ⟨m, hr, h1, h2, ?_⟩
  intro d i hi r c
  by_cases hcd : c = d
  · subst hcd
    rw [if_pos rfl]
    apply (h3 _ _).1
    · refine ⟨⟨r, (c : ℕ) * (3 * n + 1) + i * 3, h (3 * i + r)⟩, ?_, rfl, ?_⟩
      · simp only [List.mem_flatMap, List.mem_map, List.mem_range]
        exact ⟨c, c.isLt, i, hi, r, r.isLt, rfl⟩
      · simp only [number]; ring
    · intro w hw e1 e2
      simp only [List.mem_flatMap, List.mem_map, List.mem_range] at hw
      obtain ⟨d', hd', i', hi', r', hr', rfl⟩ := hw
      simp only [number] at e1 e2
      have hd3 : d' = 0 ∨ d' = 1 ∨ d' = 2 := by omega
      have hi2 : i' = i := by
        rcases fin3_cases c with rfl | rfl | rfl <;> rcases hd3 with rfl | rfl | rfl <;>
          simp at e2 <;> omega
      subst hi2 e1
      exact (hs i' hi).2 r
  · rw [if_neg hcd, (h3 _ _).2]
    · rfl
    · intro w hw hh
      simp only [List.mem_flatMap, List.mem_map, List.mem_range] at hw
      obtain ⟨d', hd', i', hi', r', hr', rfl⟩ := hw
      obtain ⟨e1, e2⟩ := hh
      simp only [number] at e2
      apply hcd
      have hd3 : d' = 0 ∨ d' = 1 ∨ d' = 2 := by omega
      rcases fin3_cases d with rfl | rfl | rfl <;> rcases fin3_cases c with rfl | rfl | rfl <;>
        rcases hd3 with rfl | rfl | rfl <;> simp at e2 ⊢ <;> omega

/-- **C118** Second derivatives of a space times a vector: the row of function `j` in component `d`
holds the products of its second derivatives with component `d` of the vector. -/
theorem C118_deriv2dot (n : ℕ) (g h : Col) (grad : ℕ → Fin 2 → ℝ) (hess : ℕ → Voigt)
    (hs : Stores n g h grad hess) (v : V3) :
    ∃ m, deriv2dotMat n h v = .ok m ∧ m.rows = 3 * n ∧ m.cols = 3 ∧ Complete m ∧
      ∀ (d : Fin 3) (j : ℕ), j < n → ∀ r : Fin 3,
        m.get (number n d j) r = some (deriv2dot (basisField d (grad j) (hess j)) v r) := by
  obtain ⟨m, hr, h1, h2, h3⟩ := run_spec
    ((List.finRange 3).flatMap fun (d : Fin 3) => (List.range n).flatMap fun j =>
      (List.range 3).map fun r => (⟨(d : ℕ) * n + j, r, h (3 * j + r) * comp v d⟩ : Write))
      (resize (3 * n) 3) (by
    intro w hw
    simp only [List.mem_flatMap, List.mem_map, List.mem_range, List.mem_finRange, true_and] at hw
    obtain ⟨d, j, hj, r, hr, rfl⟩ := hw
    exact ⟨number_lt n d j hj, hr⟩)
  have val : ∀ (d : Fin 3) (j : ℕ), j < n → ∀ r : Fin 3, h (3 * j + r) * comp v d
      = deriv2dot (basisField d (grad j) (hess j)) v r := by
    intro d j hj r
    rw [(hs j hj).2 r]
    rcases fin3_cases d with rfl | rfl | rfl <;> rcases fin3_cases r with rfl | rfl | rfl <;>
      simp [deriv2dot, basisField, vecFun, comp, dot]
  have key : ∀ (d : Fin 3) (j : ℕ), j < n → ∀ r : Fin 3,
      m.get (number n d j) r = some (deriv2dot (basisField d (grad j) (hess j)) v r) := by
    intro d j hj r
    apply (h3 _ _).1
    · refine ⟨⟨(d : ℕ) * n + j, r, h (3 * j + r) * comp v d⟩, ?_, rfl, rfl⟩
      simp only [List.mem_flatMap, List.mem_map, List.mem_range, List.mem_finRange, true_and]
      exact ⟨d, j, hj, r, r.isLt, rfl⟩
    · intro w hw e1 e2
      simp only [List.mem_flatMap, List.mem_map, List.mem_range, List.mem_finRange, true_and] at hw
      obtain ⟨d', j', hj', r', hr', rfl⟩ := hw
      obtain ⟨rfl, rfl⟩ := number_inj n d' d j' j hj' hj e1
      simp only at e2
      subst e2
      exact val d' j' hj r
  refine ⟨m, hr, h1, h2, ?_, key⟩
  intro i j hi hj
  rw [h1] at hi
  rw [h2] at hj
  obtain ⟨d, k, hk, rfl⟩ := number_surj n i hi
  have := key d k hk ⟨j, hj⟩
  simp only [number] at this
  rw [this]; simp

/-- The row of `var1` read back. -/
theorem read_var1 (n : ℕ) (s : Surf) (m : Mat) (hr : m.rows = 3 * n) (hc : m.cols = 3) (u : Surf)
    (d : Fin 3) (j : ℕ) (hj : j < n)
    (h : ∀ c : Fin 3, m.get (number n d j) c = some (comp (var1 s u) c)) :
    (read3 fun c => m.read (number n d j) c)
      = .ok (vec3 (var1 s u).x (var1 s u).y (var1 s u).z) := by
  have hlt : number n d j < m.rows := by rw [hr]; exact number_lt n d j hj
  apply read3_ok
  · exact read_ok m _ 0 _ hlt (by omega) (h 0)
  · exact read_ok m _ 1 _ hlt (by omega) (h 1)
  · exact read_ok m _ 2 _ hlt (by omega) (h 2)

/-- **C118** The bending strain matrix: the sum of the rows of `deriv2(m_space, n)` and
`deriv2(m_def, var1(m_space, m_def))`, third entry doubled and negated, is the variation of the
bending strain for the field of the row. -/
theorem C118_bending (n : ℕ) (s : Surf) (g h H : Col) (grad : ℕ → Fin 2 → ℝ) (hess : ℕ → Voigt)
    (hs : Stores n g h grad hess) (hH : StoresMap s H) (d : Fin 3) (j : ℕ) (hj : j < n) :
    ∃ m v row row', deriv2dotMat n h (normal s) = .ok m ∧ var1Mat n s g h = .ok v ∧
      (read3 fun c => m.read (number n d j) c) = .ok row ∧
      mapDeriv2Row H v (number n d j) = .ok row' ∧
      (fun k => -(dbl3 (fun i => row i + row' i) k)) = EfDer s (basisField d (grad j) (hess j)) := by
  obtain ⟨m, e1, r1, c1, -, k1⟩ := C118_deriv2dot n g h grad hess hs (normal s)
  obtain ⟨v, e2, r2, c2, -, k2⟩ := C118_var1 n s g h grad hess hs
  have hv := read_var1 n s v r2 c2 (basisField d (grad j) (hess j)) d j hj (k2 d j hj)
  have hlt : number n d j < m.rows := by rw [r1]; exact number_lt n d j hj
  have hm := read3_ok (fun c => m.read (number n d j) c) _ _ _
    (read_ok m _ 0 _ hlt (by omega) (k1 d j hj 0)) (read_ok m _ 1 _ hlt (by omega) (k1 d j hj 1))
    (read_ok m _ 2 _ hlt (by omega) (k1 d j hj 2))
  have hrow : mapDeriv2Row H v (number n d j) = .ok fun r => ∑ c : Fin 3,
      vec3 (var1 s (basisField d (grad j) (hess j))).x (var1 s (basisField d (grad j) (hess j))).y
        (var1 s (basisField d (grad j) (hess j))).z c * H (3 * c + r) := by
    unfold mapDeriv2Row; rw [hv]; rfl
  refine ⟨m, v, _, _, e1, e2, hm, hrow, ?_⟩
  · funext k
    obtain ⟨a0, a1, a2⟩ := hH 0
    obtain ⟨b0, b1, b2⟩ := hH 1
    obtain ⟨d0, d1, d2⟩ := hH 2
    simp at a0 a1 a2 b0 b1 b2 d0 d1 d2
    generalize hw : var1 s (basisField d (grad j) (hess j)) = w
    rcases fin3_cases k with rfl | rfl | rfl <;>
      simp [EfDer, dbl3, Fin.sum_univ_three, hw, a0, a1, a2, b0, b1, b2, d0, d1, d2] <;>
      simp [deriv2dot, dot, comp] <;> ring

/-- **C118** The mixed part of the second variation of the bending strain: the entry of
`flatdot2(deriv2(m_space), var1(m_space,m_def).tr(), m_M)` at the numbers of two functions is the
value for these two fields. -/
theorem C118_flatdot2 (n : ℕ) (s : Surf) (g h : Col) (grad : ℕ → Fin 2 → ℝ) (hess : ℕ → Voigt)
    (hs : Stores n g h grad hess) (M : Voigt) (d : Fin 3) (i : ℕ) (hi : i < n) (c : Fin 3) (j : ℕ)
    (hj : j < n) :
    ∃ A V, deriv2Mat n h = .ok A ∧ var1Mat n s g h = .ok V ∧
      flatdot2Entry A V M (number n d i) (number n c j)
        = .ok (Variation.flatdot2 (basisField d (grad i) (hess i))
            (var1 s (basisField c (grad j) (hess j))) M) := by
  obtain ⟨A, e1, r1, c1, k1⟩ := C118_deriv2 n g h grad hess hs
  obtain ⟨V, e2, r2, c2, -, k2⟩ := C118_var1 n s g h grad hess hs
  have hv := read_var1 n s V r2 c2 (basisField c (grad j) (hess j)) c j hj (k2 c j hj)
  have hlt := number_lt n d i hi
  have hA : ∀ r : Fin 3, (read3 fun q => A.read (r : ℕ) (number n d i * 3 + q))
      = .ok (vec3 (if (0 : Fin 3) = d then hess i r else 0) (if (1 : Fin 3) = d then hess i r else 0)
          (if (2 : Fin 3) = d then hess i r else 0)) := by
    intro r
    have hrr : (r : ℕ) < A.rows := by rw [r1]; exact r.isLt
    have hcc : ∀ q : ℕ, q < 3 → number n d i * 3 + q < A.cols := by
      intro q hq; rw [c1]; unfold number; omega
    apply read3_ok
    · exact read_ok A _ _ _ hrr (hcc 0 (by omega)) (k1 d i hi r 0)
    · exact read_ok A _ _ _ hrr (hcc 1 (by omega)) (k1 d i hi r 1)
    · exact read_ok A _ _ _ hrr (hcc 2 (by omega)) (k1 d i hi r 2)
  refine ⟨A, V, e1, e2, ?_⟩
  unfold flatdot2Entry
  rw [hv]
  generalize var1 s (basisField c (grad j) (hess j)) = w
  have h0 := hA 0; have h1 := hA 1; have h2 := hA 2
  simp only [Fin.val_zero, Fin.val_one, Fin.val_two] at h0 h1 h2
  simp only [Outcome.bind]
  rw [read3_ok _ _ _ _ (by rw [h0]) (by rw [h1]) (by rw [h2])]
  simp only [Outcome.ok.injEq, Variation.flatdot2]
  congr 2
  funext k
  rcases fin3_cases d with rfl | rfl | rfl <;> rcases fin3_cases k with rfl | rfl | rfl <;>
    simp [Fin.sum_univ_three, deriv2dot, basisField, vecFun, dot]

/-- **C118** (partial) The second variation of the membrane strain: for one space (second argument the
transposed first) the entry at two numbers is the value for these two fields, although the code
exchanges the two blocks.  Missing: two different arguments. -/
theorem C118_flatdot_partial (n : ℕ) (u : ℕ → Surf) (N : Voigt) (i j : ℕ) (hi : i < n) (hj : j < n) :
    flatdotEntry n n (fun k => jacobian (u k)) (fun k a b => jacobian (u k) b a) N i j
      = .ok (EmDer2 (u i) (u j) N) := by
  unfold flatdotEntry
  rw [if_pos ⟨hi, hj⟩]
  simp [Fin.sum_univ_three, jacobian, comp, EmDer2, dot]

/-- Specification: the entry of row `i` (function of the first argument) and column `j` (function of
the second). -/
def pairing (u v : ℕ → Surf) (N : Voigt) (i j : ℕ) : ℝ := EmDer2 (u i) (v j) N

/-- **C118** is violated for two different spaces: the entries are those of the transposed matrix, and
with different numbers of functions blocks outside the arguments are read. -/
theorem C118_flatdot_violated :
    (∃ (u v : ℕ → Surf) (N : Voigt) (x : ℝ),
      flatdotEntry 2 2 (fun k => jacobian (u k)) (fun k a b => jacobian (v k) b a) N 0 1 = .ok x ∧
        x ≠ pairing u v N 0 1) ∧
    ∀ (m n : ℕ) (u v : ℕ → Surf) (N : Voigt), m ≠ n → 0 < m → 0 < n →
      ∃ i j, i < m ∧ j < n ∧
        flatdotEntry m n (fun k => jacobian (u k)) (fun k a b => jacobian (v k) b a) N i j = .ub := by
  constructor
  · refine ⟨fun k => ⟨fun a => if k = 0 ∧ a = 0 then ⟨1, 0, 0⟩ else 0, 0, 0, 0⟩,
      fun k => ⟨fun a => if k = 1 ∧ a = 0 then ⟨1, 0, 0⟩ else 0, 0, 0, 0⟩, vec3 1 0 0, 0, ?_, ?_⟩
    · simp [flatdotEntry, jacobian, comp]
    · simp [pairing, EmDer2, dot]
  · intro m n u v N hne hm hn
    rcases Nat.lt_or_ge m n with h | h
    · exact ⟨0, n - 1, hm, by omega, by unfold flatdotEntry; rw [if_neg (by omega)]⟩
    · exact ⟨m - 1, 0, by omega, hn, by unfold flatdotEntry; rw [if_neg (by omega)]⟩

/-- Non-vacuity of `Stores`: the columns of two functions. -/
example : Stores 2 (fun k => (k : ℝ)) (fun k => (k : ℝ)) (fun j c => 2 * (j : ℝ) + ((c : ℕ) : ℝ))
    (fun j c => 3 * (j : ℝ) + ((c : ℕ) : ℝ)) := by
  intro j _
  constructor <;> intro c <;> push_cast <;> ring

/-- Non-vacuity of `StoresMap`. -/
example : StoresMap ⟨fun _ => 0, ⟨0, 3, 6⟩, ⟨1, 4, 7⟩, ⟨2, 5, 8⟩⟩ (fun k => (k : ℝ)) := by
  intro c
  rcases fin3_cases c with rfl | rfl | rfl <;> simp [comp]

end Verif.ExprMat
