import Verif.Model.DWRObject
import Verif.Spec.DWRError

/-! # Specification notions for the error estimator as an object -/

namespace Verif.DWR

variable {α β γ : Type}

/-- Only construction with arguments and destruction. -/
def LifeOp.plain : LifeOp → Prop
  | .construct _ => True
  | .destroy _ => True
  | _ => False

/-- Both assemblers and the estimator itself have the same geometry, conditions and loads. -/
def Agree (x : Dwr) : Prop :=
  x.L = x.H ∧ x.own.geo = x.L.geo ∧ x.own.loads = x.L.loads ∧ x.own.bcs = x.L.bcs

/-- The setters in order. -/
def configure (x : Dwr) (l : List Setter) : Dwr := l.foldl Dwr.set x

/-- Entry of a global index: sum of the contributions of all functions with that index. -/
def collected (glob : ℕ → ℕ) (c : List (ℕ × ℝ)) (g : ℕ) : ℝ :=
  ((c.filter fun p => glob p.1 = g).map Prod.snd).sum

/-- One Newton step and the dual problem on a basis: test functions `φ`, symmetric tangent `K`,
correction `δ` balancing the residual, dual `z` balancing the derivative `J` of the goal. -/
structure NewtonStep (f : Form) (D : Setup α β γ) (n : ℕ) where
  φ : Fin n → Disc α β γ
  K : Fin n → Fin n → ℝ
  symm : ∀ i j, K i j = K j i
  J : Fin n → ℝ
  δ : Fin n → ℝ
  z : Fin n → ℝ
  step : ∀ i, ∑ j, K i j * δ j = residual f D (φ i)
  dual : ∀ i, ∑ j, K i j * z j = J i

/-- Change of the goal predicted by the step. -/
noncomputable def NewtonStep.gain {f : Form} {D : Setup α β γ} {n : ℕ} (N : NewtonStep f D n) : ℝ :=
  ∑ i, N.J i * N.δ i

/-- Sum of two functions. -/
def Disc.add (u v : Disc α β γ) : Disc α β γ where
  w q := u.w q + v.w q
  d q := Variation.fieldAdd (u.d q) (v.d q)
  b q := u.b q + v.b q
  l k := u.l k + v.l k

end Verif.DWR
