import Verif.Model.DWRError

/-!
# Distribution of point loads over elements with several threads

Models the OpenMP version of `_applyLoadsToElWiseError` (`src/gsThinShellAssemblerDWR.hpp`
l.3658-3725); line numbers without a file name refer to that file.  Every thread has its own iterator,
counter and list; the only shared object is `elements`, which is extended inside a critical section.
A run is therefore an order in which the threads enter their critical sections.
-/

namespace Verif.DWR

open V3

open Classical in
/-- The loop of one thread over the elements of one patch that remain at its iterator, numbered from
`c`: the iterator and the number advance by the number of threads (l.3695-3709). -/
noncomputable def visit (x : Fin 2 → ℝ) (nt : ℕ) : ℕ → List Box → List ℕ
  | _, [] => []
  | c, b :: bs =>
    if b.has x then c :: visit x nt (c + nt) (bs.drop (nt - 1))
    else visit x nt (c + nt) (bs.drop (nt - 1))
termination_by _ P => P.length
decreasing_by all_goals simp only [List.length_drop, List.length_cons]; omega

/-- What thread `tid` hands to its critical sections, patch by patch (l.3677-3712): `patch_cnt` counts
the elements of the patches before, the iterator starts at element `tid`, and `elements_private` is
not cleared between patches. -/
noncomputable def blocks (x : Fin 2 → ℝ) (nt tid : ℕ) : ℕ → List ℕ → List (List Box) → List (List ℕ)
  | _, _, [] => []
  | cnt, priv, P :: Ps =>
    let priv' := priv ++ visit x nt (cnt + tid) (P.drop tid)
    priv' :: blocks x nt tid (cnt + P.length) priv' Ps

/-- The orders in which the blocks of the threads can arrive: every thread keeps its own order. -/
inductive Arrives {nt : ℕ} {β : Type} : (Fin nt → List β) → List β → Prop
  | done (q) : (∀ t, q t = []) → Arrives q []
  | step (q) (t : Fin nt) (b : β) (bs l : List β) : q t = b :: bs →
      Arrives (Function.update q t bs) l → Arrives q (b :: l)

/-- `_applyLoadsToElWiseError` with `nt` threads: for every load some order of arrival, then the
serial loop over `elements` (l.3715-3723). -/
inductive SpreadThreads {α β γ : Type} (D : Setup α β γ) (zL zH : Disc α β γ) (nt : ℕ) :
    List γ → List ℝ → Outcome (List ℝ) → Prop
  | nil (e) : SpreadThreads D zL zH nt [] e (.ok e)
  | cons (k ks e l) (e' : List ℝ) (o) :
      Arrives (fun t : Fin nt => blocks (D.load k).pt nt t 0 [] D.boxes) l →
      addAll (loadVal D zL zH k / l.flatten.length) l.flatten e = .ok e' →
      SpreadThreads D zL zH nt ks e' o → SpreadThreads D zL zH nt (k :: ks) e o
  | fail (k ks e l) (o : Outcome (List ℝ)) :
      Arrives (fun t : Fin nt => blocks (D.load k).pt nt t 0 [] D.boxes) l →
      addAll (loadVal D zL zH k / l.flatten.length) l.flatten e = o → (∀ e', o ≠ .ok e') →
      SpreadThreads D zL zH nt (k :: ks) e o

end Verif.DWR
