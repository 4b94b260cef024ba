import Verif.Model.Hyper
import Mathlib.Analysis.SpecialFunctions.Pow.Real

/-!
# Spectral (stretch-based) implementation of hyperelastic materials

Principal stretches (`src/gsMaterialMatrixBaseDim.hpp` l.1330-1380), derivatives of the
energy with respect to the stretches and the spectral stress and tangent
(`src/gsMaterialMatrixNonlinear.hpp` l.1349-1400, 1556-1622, 1718-1738, 1820-1834,
2366-2804).

Simplifications: exact real arithmetic; the member `m_J_sq` read by the compressible energy
functions is the squared product of the stretches (the code sets it to `J0_sq*C33` before the
stretches are computed, l.1919, and to the squared product in `_d2Psi_dab_vol`, l.2645); the
eigenvalue solver is a parameter.
-/

namespace Verif.Spectral

open Verif.Hyper

/-- The vector `m_stretches`. -/
abbrev Stretch := Fin 3 → ℝ

/-- `I_1` (`src/gsMaterialMatrixNonlinear.hpp` l.2384). -/
def I1 (l : Stretch) : ℝ := l 0 * l 0 + l 1 * l 1 + l 2 * l 2

/-- `I_2` (`src/gsMaterialMatrixNonlinear.hpp` l.2408-2410). -/
def I2 (l : Stretch) : ℝ := l 0 ^ 2 * l 1 ^ 2 + l 1 ^ 2 * l 2 ^ 2 + l 0 ^ 2 * l 2 ^ 2

/-- `_dI_1a` (`src/gsMaterialMatrixNonlinear.hpp` l.2385). -/
def dI1 (l : Stretch) (a : Fin 3) : ℝ := 2 * l a

/-- `_dI_2a` (`src/gsMaterialMatrixNonlinear.hpp` l.2411). -/
def dI2 (l : Stretch) (a : Fin 3) : ℝ := 2 * l a * (I1 l - l a ^ 2)

/-- `d2I_1` (`src/gsMaterialMatrixNonlinear.hpp` l.2513). -/
def d2I1 (a b : Fin 3) : ℝ := 2 * delta a b

/-- `d2I_2` (`src/gsMaterialMatrixNonlinear.hpp` l.2550). -/
def d2I2 (l : Stretch) (a b : Fin 3) : ℝ :=
  idelta a b * 4 * l a * l b + delta a b * 2 * (I1 l - l a * l a)

/-- Squared Jacobian (`src/gsMaterialMatrixNonlinear.hpp` l.2645). -/
def Jsq (l : Stretch) : ℝ := (l 0 * l 1 * l 2) ^ 2

/-- First and second derivatives of an energy with respect to the stretches, as provided by
`_dPsi_da` and `_d2Psi_dab` (`src/gsMaterialMatrixNonlinear.hpp` l.2372-2376, 2496-2500). -/
structure Pot where
  d1 : Stretch → Fin 3 → ℝ
  d2 : Stretch → Fin 3 → Fin 3 → ℝ

/-- Incompressible neo-Hookean (`src/gsMaterialMatrixNonlinear.hpp` l.2394-2399,
2526-2531). -/
noncomputable def potNH (p : Par) : Pot where
  d1 l a := p.mu / 2 * dI1 l a
  d2 _ a b := p.mu / 2 * d2I1 a b

/-- Incompressible Mooney–Rivlin (`src/gsMaterialMatrixNonlinear.hpp` l.2424-2434,
2572-2586). -/
noncomputable def potMR (p : Par) : Pot where
  d1 l a := p.c1 / 2 * dI1 l a + p.c2 / 2 * dI2 l a
  d2 l a b := p.c1 / 2 * d2I1 a b + p.c2 / 2 * d2I2 l a b

/-- Incompressible Ogden with the terms `(mu_i, alpha_i)` (`src/gsMaterialMatrixNonlinear.hpp`
l.2457-2469, 2616-2627). -/
noncomputable def potOG (terms : List (ℝ × ℝ)) : Pot where
  d1 l a := (terms.map fun t => t.1 * l a ^ (t.2 - 1)).sum
  d2 l a b := (terms.map fun t => t.1 * l a ^ (t.2 - 2) * (t.2 - 1) * delta a b).sum

/-- `_dPsi_da_vol` with `beta = -2` (`src/gsMaterialMatrixNonlinear.hpp` l.2486-2492;
`pow(J_sq,-beta/2)` is `J_sq`). -/
noncomputable def vol1 (p : Par) (l : Stretch) (a : Fin 3) : ℝ :=
  p.K / (l a * (-2)) * (1 - Jsq l)

/-- `_d2Psi_dab_vol` with `beta = -2` (`src/gsMaterialMatrixNonlinear.hpp` l.2641-2650). -/
noncomputable def vol2 (p : Par) (l : Stretch) (a b : Fin 3) : ℝ :=
  p.K / (-2 * l a * l b) * (-2 * Jsq l + delta a b * (Jsq l - 1))

/-- Compressible neo-Hookean (`src/gsMaterialMatrixNonlinear.hpp` l.2379-2391,
2503-2523). -/
noncomputable def potNHc (p : Par) : Pot where
  d1 l a := p.mu / 2 * Jsq l ^ (-1 / 3 : ℝ) * (-2 / 3 * I1 l / l a + dI1 l a) + vol1 p l a
  d2 l a b := p.mu / 2 * Jsq l ^ (-1 / 3 : ℝ)
      * (-2 / 3 * 1 / l b * (-2 / 3 * I1 l / l a + dI1 l a) - 2 / 3 * 1 / l a * dI1 l b
        + d2I1 a b + 2 / 3 * delta a b * I1 l / (l a * l a))
    + vol2 p l a b

/-- Compressible Mooney–Rivlin (`src/gsMaterialMatrixNonlinear.hpp` l.2402-2421,
2534-2569). -/
noncomputable def potMRc (p : Par) : Pot where
  d1 l a := p.c1 / 2 * Jsq l ^ (-1 / 3 : ℝ) * (-2 / 3 * I1 l / l a + dI1 l a)
    + p.c2 / 2 * Jsq l ^ (-2 / 3 : ℝ) * (-4 / 3 * I2 l / l a + dI2 l a) + vol1 p l a
  d2 l a b := p.c1 / 2 * Jsq l ^ (-1 / 3 : ℝ)
      * (-2 / 3 * 1 / l b * (-2 / 3 * I1 l / l a + dI1 l a) - 2 / 3 * 1 / l a * dI1 l b
        + d2I1 a b + 2 / 3 * delta a b * I1 l / (l a * l a))
    + p.c2 / 2 * Jsq l ^ (-2 / 3 : ℝ)
      * (-4 / 3 * 1 / l b * (-4 / 3 * I2 l / l a + dI2 l a) - 4 / 3 * 1 / l a * dI2 l b
        + d2I2 l a b + 4 / 3 * delta a b * I2 l / (l a * l a))
    + vol2 p l a b

/-- `Lambda` of the Ogden model (`src/gsMaterialMatrixNonlinear.hpp` l.2449). -/
noncomputable def Lam (l : Stretch) (al : ℝ) : ℝ := l 0 ^ al + l 1 ^ al + l 2 ^ al

/-- Compressible Ogden (`src/gsMaterialMatrixNonlinear.hpp` l.2437-2454, 2589-2613). -/
noncomputable def potOGc (p : Par) (terms : List (ℝ × ℝ)) : Pot where
  d1 l a := (terms.map fun t => t.1 * Jsq l ^ (-t.2 / 6)
      * (l a ^ (t.2 - 1) - 1 / 3 * 1 / l a * Lam l t.2)).sum + vol1 p l a
  d2 l a b := (terms.map fun t => t.1 * Jsq l ^ (-t.2 / 6)
      * (-t.2 / 3 * (l a ^ (t.2 - 1) / l b + l b ^ (t.2 - 1) / l a
          - 1 / 3 * 1 / (l a * l b) * Lam l t.2)
        + delta a b * ((t.2 - 1) * l a ^ (t.2 - 2) + Lam l t.2 / 3 * l a ^ (-2 : ℝ)))).sum
    + vol2 p l a b

/-- Extended compressible neo-Hookean (`src/gsMaterialMatrixNonlinear.hpp` l.2472-2483,
2630-2639). -/
noncomputable def potNHe (p : Par) : Pot where
  d1 l a := p.mu / 2 * dI1 l a - p.mu / l a + p.lam / (l a * 2) * (Jsq l - 1)
  d2 l a b := p.mu / 2 * d2I1 a b + p.mu * delta a b / (l a * l b)
    + p.lam / (2 * l a * l b) * (2 * Jsq l - delta a b * (Jsq l - 1))

/-! ## Principal stresses and tangent coefficients -/

/-- `_dJ_da` (`src/gsMaterialMatrixNonlinear.hpp` l.2655-2658). -/
noncomputable def dJ (l : Stretch) (a : Fin 3) : ℝ := 1 / l a

/-- `_d2J_dab` (`src/gsMaterialMatrixNonlinear.hpp` l.2663-2666). -/
noncomputable def d2J (l : Stretch) (a b : Fin 3) : ℝ := if a = b then 0 else 1 / (l a * l b)

/-- `_p` (`src/gsMaterialMatrixNonlinear.hpp` l.2671-2674). -/
def pr (w : Pot) (l : Stretch) : ℝ := l 2 * w.d1 l 2

/-- `_dp_da` (`src/gsMaterialMatrixNonlinear.hpp` l.2679-2687). -/
def dpr (w : Pot) (l : Stretch) (a : Fin 3) : ℝ :=
  if a = 2 then l 2 * w.d2 l 2 a + w.d1 l 2 else l 2 * w.d2 l 2 a

/-- `_Sa`, compressible (`src/gsMaterialMatrixNonlinear.hpp` l.2699-2704). -/
noncomputable def SaC (w : Pot) (l : Stretch) (a : Fin 3) : ℝ := 1 / l a * w.d1 l a

/-- `_Sa`, incompressible (`src/gsMaterialMatrixNonlinear.hpp` l.2707-2712). -/
noncomputable def SaI (w : Pot) (l : Stretch) (a : Fin 3) : ℝ :=
  1 / l a * (w.d1 l a - pr w l * dJ l a)

/-- `_dSa_db`, compressible (`src/gsMaterialMatrixNonlinear.hpp` l.2723-2731). -/
noncomputable def dSaC (w : Pot) (l : Stretch) (a b : Fin 3) : ℝ :=
  1 / l a * w.d2 l a b + if a = b then -1 / l a ^ 2 * w.d1 l a else 0

/-- `_dSa_db`, incompressible (`src/gsMaterialMatrixNonlinear.hpp` l.2734-2742). -/
noncomputable def dSaI (w : Pot) (l : Stretch) (a b : Fin 3) : ℝ :=
  1 / l a * (w.d2 l a b - dpr w l a * dJ l b - dpr w l b * dJ l a - pr w l * d2J l a b)
    + if a = b then -1 / l a ^ 2 * (w.d1 l a - pr w l * dJ l a) else 0

open Classical in
/-- `frac` (`src/gsMaterialMatrixNonlinear.hpp` l.2757-2767, 2784-2794) from the principal
stresses `S` and their derivatives `dS`: a difference quotient, or its limit when the
stretches agree up to `1e-14`. -/
noncomputable def frac (S : Fin 3 → ℝ) (dS : Fin 3 → Fin 3 → ℝ) (l : Stretch) (a b : Fin 3) :
    ℝ :=
  if |(l a - l b) / l a| < 1 / 10 ^ 14 then 1 / (2 * l a) * (dS b b - dS a b)
  else (S b - S a) / (l b ^ 2 - l a ^ 2)

/-- `_Cabcd`, compressible (`src/gsMaterialMatrixNonlinear.hpp` l.2752-2776). -/
noncomputable def CabC (w : Pot) (l : Stretch) (a b c d : Fin 3) : ℝ :=
  if a = b ∧ c = d then 1 / l c * dSaC w l a c
  else if (a = d ∧ b = c ∧ a ≠ b) ∨ (a = c ∧ b = d ∧ a ≠ b) then
    frac (SaC w l) (dSaC w l) l a b
  else 0

/-- `_Cabcd`, incompressible (`src/gsMaterialMatrixNonlinear.hpp` l.2779-2804). -/
noncomputable def CabI (w : Pot) (l : Stretch) (a b c d : Fin 3) : ℝ :=
  if a = b ∧ c = d then 1 / l c * dSaI w l a c
    + 1 / (l a ^ 2 * l c ^ 2) * (l 2 ^ 2 * w.d2 l 2 2 + 2 * w.d1 l 2 * l 2)
  else if (a = d ∧ b = c ∧ a ≠ b) ∨ (a = c ∧ b = d ∧ a ≠ b) then
    frac (SaI w l) (dSaI w l) l a b
  else 0

/-- Coefficients condensed before the projection (`src/gsMaterialMatrixNonlinear.hpp`
l.1571-1619). -/
noncomputable def CabCond (w : Pot) (l : Stretch) (a b c d : Fin 3) : ℝ :=
  if a = b ∧ c = d ∧ a = c then CabC w l a a a a - CabC w l 2 2 a a ^ 2 / CabC w l 2 2 2 2
  else if a = b ∧ c = d then
    CabC w l a a c c - CabC w l a a 2 2 * CabC w l 2 2 c c / CabC w l 2 2 2 2
  else CabC w l a b c d - CabC w l 2 2 a b ^ 2 / CabC w l 2 2 2 2

/-! ## Projection to the curvilinear basis -/

/-- Stress components from principal stresses (`src/gsMaterialMatrixNonlinear.hpp`
l.1730-1736); `P i a` is `gcon_ori.col(i).dot(stretchvec.col(a))`.  For compressible
materials the loop runs to `a = 2` (l.1827), whose products vanish for in-plane `i`, `j`. -/
def sProj (S : Fin 3 → ℝ) (P : T2) (i j : Fin 2) : ℝ :=
  S 0 * (P i 0 * P j 0) + S 1 * (P i 1 * P j 1)

/-- Tangent components from the coefficients (`src/gsMaterialMatrixNonlinear.hpp`
l.1365-1398, 1571-1619). -/
def cProj (C : Fin 3 → Fin 3 → Fin 3 → Fin 3 → ℝ) (P : T2) (i j k l : Fin 2) : ℝ :=
  C 0 0 0 0 * (P i 0 * P j 0 * (P k 0 * P l 0))
    + C 0 0 1 1 * (P i 0 * P j 0 * (P k 1 * P l 1) + P i 1 * P j 1 * (P k 0 * P l 0))
    + C 0 1 0 1 * (P i 0 * P j 1 * (P k 0 * P l 1) + P i 1 * P j 0 * (P k 1 * P l 0)
      + P i 0 * P j 1 * (P k 1 * P l 0) + P i 1 * P j 0 * (P k 0 * P l 1))
    + C 1 1 1 1 * (P i 1 * P j 1 * (P k 1 * P l 1))

/-! ## Principal stretches -/

/-- Coordinates of three vectors; `g k` is the `k`-th column. -/
abbrev Cols := Fin 3 → Fin 3 → ℝ

/-- Dot product of two columns. -/
def cdot (u v : Fin 3 → ℝ) : ℝ := ∑ i, u i * v i

/-- `B` (`src/gsMaterialMatrixBaseDim.hpp` l.1342-1346). -/
def Bmat (C : T2) (g : Cols) : T3 := fun m n => ∑ k : Fin 2, ∑ l : Fin 2,
  C k l * (g (up k) m * g (up l) n)

/-- `std::numeric_limits<double>::epsilon()`. -/
noncomputable def eps : ℝ := 1 / 2 ^ 52

/-- The test for the shortcut (`src/gsMaterialMatrixBaseDim.hpp` l.1350). -/
def shortcut (B : T3) : Prop := |(B 0 0 - 1) + (B 1 1 - 1)| < 10 * eps

/-- Eigenvalues and eigenvectors as returned by `SelfAdjointEigenSolver`. -/
structure Eig where
  val : Fin 3 → ℝ
  vec : Fin 3 → Fin 3 → ℝ

open Classical in
/-- Eigenvalues and eigenvectors used by `_evalStretch` (`src/gsMaterialMatrixBaseDim.hpp`
l.1348-1362). -/
noncomputable def eigOf (solver : T3 → Eig) (B : T3) : Eig :=
  if shortcut B then ⟨vec3 0 1 1, mk3 0 0 1 0 1 0 1 0 0⟩ else solver B

/-- `_evalStretch`, stretches (`src/gsMaterialMatrixBaseDim.hpp` l.1365-1373); `C33` is the
entry (2,2) of the deformation tensor. -/
noncomputable def stretches (solver : T3 → Eig) (C : T2) (C33 : ℝ) (g : Cols) : Stretch :=
  let e := eigOf solver (Bmat C g)
  vec3 (Real.sqrt (e.val 1)) (Real.sqrt (e.val 2)) (Real.sqrt C33)

/-- The products `gcon_ori.col(i).dot(stretchvec.col(a))` with the vectors of `_evalStretch`
(`src/gsMaterialMatrixBaseDim.hpp` l.1365). -/
noncomputable def projection (solver : T3 → Eig) (C : T2) (g : Cols) : T2 :=
  let e := eigOf solver (Bmat C g)
  fun i a => cdot (g (up i)) (e.vec (if a = 0 then 1 else 2))

/-- Spectral stress of an incompressible material (`src/gsMaterialMatrixNonlinear.hpp`
l.1718-1738). -/
noncomputable def sSpecI (solver : T3 → Eig) (w : Pot) (C : T2) (J0 : ℝ) (g : Cols)
    (i j : Fin 2) : ℝ :=
  sProj (SaI w (stretches solver C (1 / J0) g)) (projection solver C g) i j

/-- Spectral tangent of an incompressible material (`src/gsMaterialMatrixNonlinear.hpp`
l.1349-1400). -/
noncomputable def cSpecI (solver : T3 → Eig) (w : Pot) (C : T2) (J0 : ℝ) (g : Cols)
    (i j k l : Fin 2) : ℝ :=
  cProj (CabI w (stretches solver C (1 / J0) g)) (projection solver C g) i j k l

/-- Spectral stress of a compressible material (`src/gsMaterialMatrixNonlinear.hpp`
l.1820-1834). -/
noncomputable def sSpecC (solver : T3 → Eig) (w : Pot) (C : T2) (C33 : ℝ) (g : Cols)
    (i j : Fin 2) : ℝ :=
  sProj (SaC w (stretches solver C C33 g)) (projection solver C g) i j

/-- Spectral tangent of a compressible material, condensed before the projection
(`src/gsMaterialMatrixNonlinear.hpp` l.1441-1448, 1556-1622). -/
noncomputable def cSpecC (solver : T3 → Eig) (w : Pot) (C : T2) (C33 : ℝ) (g : Cols)
    (i j k l : Fin 2) : ℝ :=
  cProj (CabCond w (stretches solver C C33 g)) (projection solver C g) i j k l

end Verif.Spectral
