import Verif.Model.Ids

/-! # Helper lemmas for the XML round trip -/

namespace Verif.Ids

theorem setPar_append {F : Type} (l : List (Option F)) (f : F) :
    setPar l l.length f = l ++ [some f] := by
  have : l.length + 1 - l.length = 1 := by omega
  simp [setPar, this]

theorem getPars_put {F : Type} (ps : List (Option F)) (h : ∀ p ∈ ps, p ≠ none)
    (acc : List (Option F)) :
    ∃ out, putPars acc.length ps = .ok out ∧
      out.foldl (fun q x => setPar q x.1 x.2) acc = acc ++ ps := by
  induction ps generalizing acc with
  | nil => exact ⟨[], rfl, by simp⟩
  | cons p r ih =>
    cases p with
    | none => exact absurd rfl (h none (by simp))
    | some f =>
      obtain ⟨out, ho, hf⟩ := ih (fun p hp => h p (by simp [hp])) (acc ++ [some f])
      refine ⟨(acc.length, f) :: out, ?_, ?_⟩
      · simp only [putPars]
        have : (acc ++ [some f]).length = acc.length + 1 := by simp
        rw [← this, ho]; rfl
      · simp only [List.foldl_cons, setPar_append]
        rw [hf]; simp

end Verif.Ids
