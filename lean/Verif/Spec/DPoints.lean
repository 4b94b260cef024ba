/-! # Specification: one value for every point and height -/

namespace Verif.Spec.DPoints

/-- The value `f` at every point and each of its heights. -/
def expected {P Z α : Type} (f : P → Z → α) (zs : P → List Z) (us : List P) : List α :=
  us.flatMap fun u => (zs u).map (f u)

end Verif.Spec.DPoints
