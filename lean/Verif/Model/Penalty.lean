import Verif.Model.Transform

/-!
# The penalty factors of the weak conditions

Models the factors `alpha_d` and `alpha_r` of `_assembleWeakBCs_impl` and `_assembleWeakIfc_impl`
(`src/gsThinShellAssembler.hpp` l.588-596, 631-637, 666-672, 726-734, 777-785, 821-827, 852-858,
895-904, 983-990, 1039-1048, 1173-1182, 1244-1251, 1282-1289) at one point.  The stiffness (`mmA`
or `mmD` reshaped to 3×3) and the element size (`el.area(m_ori)`, on interfaces the mean of the two
sides) are parameters: the latter is computed by G+Smo.  In the planar case the tangents have two
components; they are the same as those of a surface in the x-y plane.
-/

namespace Verif.Penalty

open V3 Verif.Geometry Verif.Transform

/-- `mmAcart`, `mmDcart`: `con2cartI * reshape(mm,3,3) * cart2cov` with
`con2cartI = cartcon(m_ori).inv()` and `cart2cov = cartcov(m_ori)`
(`src/gsThinShellAssembler.hpp` l.588-592; `cartconinv_expr` inverts the evaluated matrix,
`src/gsThinShellUtils.h` l.1837-1877, 1985-2025). -/
noncomputable def mmCart (s : Surf) (A : T3) : T3 :=
  mul3 (mul3 (inv3 (cartcon s)) A) (cartcov s)

/-- `reshape(mm,9,1).max()`: the largest of the nine entries, signed
(`src/gsThinShellAssembler.hpp` l.595). -/
noncomputable def maxEntry (M : T3) : ℝ :=
  (Finset.univ : Finset (Fin 3 × Fin 3)).sup' ⟨(0, 0), Finset.mem_univ _⟩ fun p => M p.1 p.2

/-- `alpha_d`, `alpha_r`: option `c` times largest entry, divided by the element size `h`
(`src/gsThinShellAssembler.hpp` l.595-596, 903-904). -/
noncomputable def alpha (c h : ℝ) (s : Surf) (A : T3) : ℝ := c * maxEntry (mmCart s A) / h

end Verif.Penalty
