import Verif.Model.Queries

/-! # Specification of the queries -/

namespace Verif.Queries

open V3 Verif.Geometry

variable {ι : Type}

/-- The geometry moved by the vector `c`. -/
def translate (c : V3) (G : Geo ι) : Geo ι := ⟨fun q => G.x q + c, G.s⟩

/-- Change of parameters of a surface at a point: `J` is the Jacobian of the change (old parameters
by new ones), `h1`, `h2` the second derivatives of the two old parameters (in the order 11, 22,
12). -/
def reparam (s : Surf) (J : T2) (h1 h2 : Fin 3 → ℝ) : Surf :=
  ⟨fun j => J 0 j • s.a 0 + J 1 j • s.a 1,
    (J 0 0 * J 0 0) • s.d11 + (J 1 0 * J 1 0) • s.d22 + (2 * (J 0 0 * J 1 0)) • s.d12
      + (h1 0 • s.a 0 + h2 0 • s.a 1),
    (J 0 1 * J 0 1) • s.d11 + (J 1 1 * J 1 1) • s.d22 + (2 * (J 0 1 * J 1 1)) • s.d12
      + (h1 1 • s.a 0 + h2 1 • s.a 1),
    (J 0 0 * J 0 1) • s.d11 + (J 1 0 * J 1 1) • s.d22 + (J 0 0 * J 1 1 + J 1 0 * J 0 1) • s.d12
      + (h1 2 • s.a 0 + h2 2 • s.a 1)⟩

/-- The normals of the two sides of an interface agree within the tolerance (root mean square over
the interface). -/
noncomputable def InPlane (Q : Finset ι) (wt : ι → ℝ) (tol : ℝ) (I : Ifc ι) : Prop :=
  errorG1 Q wt I < tol

end Verif.Queries
