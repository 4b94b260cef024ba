import Verif.Lemmas.Project
import Verif.Props.Dirichlet
import Verif.Props.Principal

/-!
# C128, C129: full solution vector, projection, principal values of the assembler

Property theorems.
-/

namespace Verif.Project

open Verif.Solution

/-! ## C128 -/

/-- **C128** For a complete numbering and stored Dirichlet values that are the projected ones, the
full vector lists the coefficients of the displacement field: patch by patch, component by component,
function by function. -/
theorem C128_full (m : Mapper) (d : ℕ) (ddofs sol : List ℝ) (h : Complete m d ddofs sol.length) :
    ∃ u v, constructDisplacement m d ddofs sol = .ok u ∧
      fullSolutionVector m d ddofs sol = .ok v ∧
      v = (List.range m.nPatches).flatMap (fun p => (List.range d).flatMap fun c =>
        (List.range (m.size p c)).map fun k => u.coef p c k) := by
  obtain ⟨f, hf, hv⟩ := displacement_ok m d ddofs sol h
  have hr := readAll_ok m ddofs sol (valueOf m ddofs sol) (triples m m.nPatches d)
    (fun t ht => dofValue_ok m ddofs sol _ h.length
      (h.bound t.1 t.2.1 t.2.2 ((mem_triples m _ d _ _ _).1 ht)))
  refine ⟨_, _, hf, hr, ?_⟩
  have e : (triples m m.nPatches d).map (fun t => valueOf m ddofs sol (m.glob t.1 t.2.1 t.2.2))
      = (triples m m.nPatches d).map (fun t => f t.1 t.2.1 t.2.2) := by
    apply List.map_congr_left
    intro t ht
    exact (hv t.1 t.2.1 t.2.2 ((mem_triples m _ d _ _ _).1 ht)).symm
  rw [e]
  unfold triples
  simp [List.map_flatMap, List.map_map, Function.comp_def]

/-- **C128** Its length is the number of functions in all components. -/
theorem C128_length (m : Mapper) (d : ℕ) (ddofs sol : List ℝ)
    (h : Complete m d ddofs sol.length) :
    ∃ v, fullSolutionVector m d ddofs sol = .ok v ∧
      v.length = ∑ p ∈ Finset.range m.nPatches, ∑ c ∈ Finset.range d, m.size p c := by
  obtain ⟨u, v, -, h2, h3⟩ := C128_full m d ddofs sol h
  refine ⟨v, h2, ?_⟩
  have key : ∀ (n : ℕ) (g : ℕ → List ℝ) (s : ℕ → ℕ), (∀ i, (g i).length = s i) →
      ((List.range n).flatMap g).length = ∑ i ∈ Finset.range n, s i := by
    intro n g s hg
    induction n with
    | zero => rfl
    | succ n ih => rw [List.range_succ, List.flatMap_append, List.length_append, ih,
        Finset.sum_range_succ]; simp [hg]
  rw [h3]
  exact key _ _ _ fun p => key _ _ _ fun c => by simp

/-- **C128** The two sources of Dirichlet values agree: after every sequence of calls the stored
values, which the displacement field uses, are the projection of the current boundary data, which the
full vector uses. -/
theorem C128_history {β : Type} {b : ℕ} (proj : β → Fin b → ℝ) (k : β)
    (calls : List (Dirichlet.Call β)) :
    let s := Dirichlet.Values.run proj k calls
    Dirichlet.shown s = proj s.bcs ∧
      (s.call proj .fullSolutionVector).fixed = Dirichlet.shown s := by
  obtain ⟨h1, h2⟩ := Dirichlet.run_bcs proj k calls
  have h : (Dirichlet.Values.run proj k calls).ddofs
      = proj (Dirichlet.Values.run proj k calls).bcs := by rw [h1, h2]
  exact ⟨h, h.symm⟩

/-- Non-vacuity: new boundary conditions after which a matrix is assembled. -/
example : ((Dirichlet.Values.run (fun k (_ : Fin 1) => (k : ℝ)) (1 : ℝ)
    [.updateBCs 3, .assembleMatrix]).call (fun k (_ : Fin 1) => (k : ℝ)) .fullSolutionVector).fixed
      = fun _ => 3 := rfl

/-- Non-vacuity of `C128_full` and `C128_length`: two functions in two components, the first one
fixed. -/
example : Complete ⟨1, fun _ _ => 2, fun _ c k => if k = 0 then 2 + c else c, 2⟩ 2 [5, 6] 2 ∧
    fullSolutionVector ⟨1, fun _ _ => 2, fun _ c k => if k = 0 then 2 + c else c, 2⟩ 2 [5, 6] [7, 8]
      = .ok [5, 7, 6, 8] := by
  refine ⟨⟨rfl, fun g hg => ⟨0, g, 1, ⟨by show 0 < 1; omega, hg, by show 1 < 2; omega⟩, rfl⟩,
    fun p c k hd => ?_, fun p c _ => rfl⟩, rfl⟩
  have h2 : c < 2 := hd.2.1
  show (if k = 0 then 2 + c else c) < 2 + 2
  split_ifs <;> omega

/-- **C128** (partial: no free function) With prescribed values everywhere the patches returned by the
projection are the geometry plus the prescribed values, whatever the function. -/
theorem C128_projection_partial {F : Type} (m : Mapper) (d : ℕ) (ddofs : List ℝ)
    (patches : MultiPatch) (hn : patches.n = m.nPatches)
    (hr : ∀ p, p < m.nPatches → patches.rows p = m.size p 0)
    (h : Complete m d ddofs 0) (f : F) :
    ∃ w, projectPatches m d ddofs patches f = .ok w ∧ ∀ p c k, IsDof m d p c k →
      ∃ x, ddofs[m.glob p c k]? = some x ∧ w.coef p c k = patches.coef p c k + x := by
  have hl : ([] : List ℝ).length = 0 := rfl
  obtain ⟨g, hg, hv⟩ := displacement_ok m d ddofs [] h
  obtain ⟨g', hg', hv'⟩ := fill_ok m ddofs [] (valueOf m ddofs []) (triples m m.nPatches d)
    (fun t ht => dofValue_ok m ddofs [] _ h.length
      (h.bound t.1 t.2.1 t.2.2 ((mem_triples m _ d _ _ _).1 ht))) (fun _ _ _ => 0)
  refine ⟨⟨patches.n, patches.rows, fun p c k => if p < patches.n then
    patches.coef p c k + g' p c k else patches.coef p c k⟩, ?_, fun p c k hd => ?_⟩
  · unfold projectPatches
    rw [hn]
    change (fill m ddofs [] _ _).bind _ = _
    rw [hg']
    change addCoefs patches _ = _
    unfold addCoefs
    rw [if_pos (fun p hp => ⟨hn ▸ hp, hr p hp⟩)]
    rw [hn]
  · have h0 : m.freeSize = 0 := h.length.symm
    have hb := h.bound p c k hd
    have hlt : m.glob p c k < ddofs.length := by omega
    refine ⟨ddofs[m.glob p c k], List.getElem?_eq_getElem hlt, ?_⟩
    change (if p < patches.n then _ else _) = _
    rw [if_pos (hn ▸ hd.1), hv', if_pos ((mem_triples m _ d _ _ _).2 hd)]
    unfold valueOf
    rw [if_neg (by omega), h0, Nat.sub_zero, List.getElem?_eq_getElem hlt]
    rfl

/-- Non-vacuity: one function in one component, prescribed. -/
example : Complete ⟨1, fun _ _ => 1, fun _ _ _ => 0, 0⟩ 1 [5] 0 :=
  ⟨rfl, fun g hg => absurd hg (Nat.not_lt_zero g), fun _ _ _ _ => by show 0 < 0 + 1; omega,
    fun _ _ _ => rfl⟩

/-- **C128** is violated: whatever the function, a matrix handed in is left as it is, the projected
vector is empty, and the patches of a projection cannot be built as soon as there is a free function. -/
theorem C128_projection_violated {F : Type} (m : Mapper) (d : ℕ) (ddofs : List ℝ)
    (patches : MultiPatch) (hn : patches.n = m.nPatches) (n : ℕ) (h : Complete m d ddofs n)
    (hf : 0 < m.freeSize) (f : F) :
    (∀ r, projectInto f r = r) ∧ (projectL2 f).length ≠ m.freeSize ∧
      projectPatches m d ddofs patches f = .ub := by
  refine ⟨fun _ => rfl, fun e => ?_, ?_⟩
  · have : (projectL2 f).length = 0 := rfl
    omega
  · unfold projectPatches
    rw [hn, show projectL2 f = [] from rfl, fill_ub m ddofs _ _
      (fun t ht => h.bound _ _ _ ((mem_triples m _ d _ _ _).1 ht))]
    · rfl
    · obtain ⟨p, c, k, hd, e⟩ := h.onto 0 hf
      exact ⟨(p, c, k), (mem_triples m _ d _ _ _).2 hd, by show m.glob p c k < _; omega⟩

/-- Non-vacuity: a complete numbering with a free function. -/
example : Complete ⟨1, fun _ _ => 1, fun _ _ _ => 0, 1⟩ 1 [] 1 ∧ 0 < 1 :=
  ⟨⟨rfl, fun g hg => ⟨0, 0, 0, ⟨by show 0 < 1; omega, by omega, by show 0 < 1; omega⟩, by
      have : g < 1 := hg
      show 0 = g; omega⟩, fun _ _ _ _ => by show 0 < 1 + 0; omega, fun _ _ _ => rfl⟩, by omega⟩

/-! ## C129 -/

open Spectral Verif.Spec.Spectral Verif.Spec.Principal

/-- **C129** (partial: points of patch 0) Column `k` of the principal stresses belongs to point `k`
alone: its entries are the principal values of the stress at that point, for any other points and
whatever was evaluated before. -/
theorem C129_stresses_partial {P : Type} (solver : T3 → Eig) (g0 : Cols) (g : ℕ → P → Cols)
    (S : ℕ → P → T2) (u : List P) (k : ℕ) (x : P) (hx : u[k]? = some x) (a b : ℝ)
    (hsolve : IsEigenDecomposition (Bmat (S 0 x) (g 0 x)) (solver (Bmat (S 0 x) (g 0 x))).val
      (solver (Bmat (S 0 x) (g 0 x))).vec)
    (hp : PrincipalValues (S 0 x) (gram (g 0 x)) a b) :
    ∃ p, (Project.principalStresses solver g0 g S u)[k]? = some (.ok p) ∧
      |p 0 - a| ≤ 1e-14 * max |a| |b| ∧ |p 1 - b| ≤ 1e-14 * max |a| |b| := by
  obtain ⟨p, h1, h2⟩ := Principal.C110_pstress_partial solver (n := 0) (m := 0) g0
    (fun _ _ => g 0 x) (fun _ _ => S 0 x) 0 0 a b rfl hsolve hp
  refine ⟨p, ?_, h2⟩
  unfold principalStresses
  rw [List.getElem?_map, hx]
  exact congrArg some h1

/-- Non-vacuity: two points with different metrics, the second one has the principal stresses 4 and
8 and an exact solver is possible. -/
example : ([0, 1] : List ℕ)[1]? = some 1 ∧
    PrincipalValues ![![1, 0], ![0, 2]] (gram Principal.longCols) 4 8 ∧
    IsEigenDecomposition (Bmat ![![1, 0], ![0, 2]] Principal.longCols) (vec3 0 4 8)
      (mk3 0 0 1 1 0 0 0 1 0) := by
  refine ⟨rfl, ?_, by norm_num, ?_, ?_⟩
  · rw [Principal.gram_long]
    convert Principal.values_diag 1 2 4 4 (by norm_num) using 1 <;> norm_num
  · intro a b
    rcases fin3_cases a with rfl | rfl | rfl <;> rcases fin3_cases b with rfl | rfl | rfl <;>
      simp [Fin.sum_univ_three]
  · intro a i
    rcases fin3_cases a with rfl | rfl | rfl <;> rcases fin3_cases i with rfl | rfl | rfl <;>
      simp [Fin.sum_univ_three, Bmat, Principal.longCols] <;> norm_num

/-- **C129** is violated: the patch of a point is not an argument.  With principal stresses 1 and 2
on the first patch and 3 and 4 on the second, no call returns a value near 4. -/
theorem C129_patch_violated : ∃ (g : ℕ → ℕ → Cols) (S : ℕ → ℕ → T2),
    (∀ x, PrincipalValues (S 1 x) (gram (g 1 x)) 3 4) ∧
    ∀ (solver : T3 → Eig) (g0 : Cols) (u : List ℕ),
      (∀ x, IsEigenDecomposition (Bmat (S 0 x) (g 0 x)) (solver (Bmat (S 0 x) (g 0 x))).val
        (solver (Bmat (S 0 x) (g 0 x))).vec) →
      ∀ (k : ℕ) (o : Outcome (Fin 2 → ℝ)), (principalStresses solver g0 g S u)[k]? = some o →
        ∃ p, o = .ok p ∧ p 0 < 3 ∧ p 1 < 3 := by
  refine ⟨fun _ _ => Principal.unitCols,
    fun q _ => if q = 0 then ![![1, 0], ![0, 2]] else ![![3, 0], ![0, 4]], fun x => ?_, ?_⟩
  · show PrincipalValues ![![3, 0], ![0, 4]] (gram Principal.unitCols) 3 4
    rw [Principal.gram_unit]
    simpa using Principal.values_diag 3 4 1 1 (by norm_num)
  · intro solver g0 u hs k o ho
    have hp : PrincipalValues ![![1, 0], ![0, 2]] (gram Principal.unitCols) 1 2 := by
      rw [Principal.gram_unit]
      simpa using Principal.values_diag 1 2 1 1 (by norm_num)
    cases hu : u[k]? with
    | none =>
      unfold principalStresses at ho
      rw [List.getElem?_map, hu] at ho
      cases ho
    | some x =>
      obtain ⟨p, h1, h2, h3⟩ := C129_stresses_partial solver g0 (fun _ _ => Principal.unitCols)
        (fun q _ => if q = 0 then ![![1, 0], ![0, 2]] else ![![3, 0], ![0, 4]]) u k x hu 1 2 (hs x) hp
      rw [h1] at ho
      refine ⟨p, (Option.some.inj ho).symm, ?_, ?_⟩
      · have := (abs_le.1 h2).2
        norm_num at this
        linarith
      · have := (abs_le.1 h3).2
        norm_num at this
        linarith

/-- **C129** (partial: linear and hyperelastic materials) The columns have the rows they are stored
in: three stretches, two stresses.  A matrix with another number of rows would not do. -/
theorem C129_sizes_partial (np n : ℕ) (i : Outputs.Inner)
    (hi : i = .linear np ∨ i = .nonlinear np) :
    principalSizes (.plain i) .stretch 3 n = .ok (List.replicate n 3) ∧
      principalSizes (.plain i) .pstress 2 n = .ok (List.replicate n 2) ∧
      ∀ R, 0 < n → (R ≠ 3 → principalSizes (.plain i) .stretch R n = .ub) ∧
        (R ≠ 2 → principalSizes (.plain i) .pstress R n = .ub) := by
  rcases hi with rfl | rfl <;>
    exact ⟨sizes_ok _ _ _ ⟨3, 1⟩ rfl rfl n, sizes_ok _ _ _ ⟨2, 1⟩ rfl rfl n, fun R hn =>
      ⟨fun h => sizes_ub _ _ _ ⟨3, 1⟩ rfl h.symm n hn, fun h => sizes_ub _ _ _ ⟨2, 1⟩ rfl h.symm n hn⟩⟩

/-- Non-vacuity: two points in a linear material with two parameters. -/
example : principalSizes (.plain (.linear 2)) .stretch 3 2 = .ok [3, 3] :=
  (C129_sizes_partial 2 2 _ (.inl rfl)).1

/-- **C129** is violated for laminates: stretches follow a null pointer, stresses throw. -/
theorem C129_sizes_violated (rho : Bool) (n : ℕ) (hn : 0 < n) :
    principalSizes (.plain (.composite rho)) .stretch 3 n = .ub ∧
      principalSizes (.plain (.composite rho)) .pstress 2 n = .throws := by
  obtain ⟨n, rfl⟩ := Nat.exists_eq_succ_of_ne_zero hn.ne'
  exact ⟨rfl, rfl⟩

end Verif.Project
