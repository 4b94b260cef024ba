import Verif.Spec.Geometry
import Verif.Spec.Variation
import Verif.Model.WeakForms

/-! # Specification notions: stretched squares, lines of states -/

namespace Verif.Spec.PenaltyState

open Verif.Geometry Verif.WeakForms

/-- The unit square in the x-y plane stretched by `l` and `m`. -/
def box (l m : ℝ) : Surf := ⟨![⟨l, 0, 0⟩, ⟨0, m, 0⟩], 0, 0, 0⟩

/-- A displacement moving along a line. -/
def along {d : ℕ} (u w : Vd d) (τ : ℝ) : Vd d := fun i => u i + τ * w i

/-- The derivatives of a surface moving along a line. -/
def surfAlong (s w : Surf) (τ : ℝ) : Surf :=
  ⟨fun i => s.a i + τ • w.a i, s.d11 + τ • w.d11, s.d22 + τ • w.d22, s.d12 + τ • w.d12⟩

end Verif.Spec.PenaltyState
