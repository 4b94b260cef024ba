import Verif.Model.Buckling
import Verif.Outcome
import Mathlib.Data.List.Sort
import Mathlib.Analysis.SpecialFunctions.Sqrt
import Mathlib.MeasureTheory.Integral.IntervalIntegral.Basic

/-!
# Reference solutions of the example programs

The loads and the analytical values with which `examples/example_shell3D_DWR.cpp`,
`examples/example_shell3D_DWR_modal.cpp` and `examples/example_shell3D_DWR_buckling.cpp` compare their
results, on the unit square.  Simplifications: exact arithmetic (also for the conversions of the numbers to
text, `"%e"` and `std::to_string`), exact integrals and arbitrary functions as in `Model/Plate`, and only the
test cases of the square (0 of each program, 1 of the buckling program).
-/

namespace Verif.Examples

open V3 Verif.Geometry Verif.Balance Verif.Integrate Verif.Plate MeasureTheory

/-- The geometry `BSplineSquare`, embedded of side 1, the default (`examples/example_shell3D_DWR_buckling.cpp` l.42-43, 106-107). -/
def plate (q : ℝ × ℝ) : V3 := ⟨q.1, q.2, 0⟩

/-- Its parameters. -/
def square : Set (ℝ × ℝ) := Set.Icc 0 1 ×ˢ Set.Icc 0 1

/-! ## Static problem -/

/-- Load `fz` of test case 0 (`examples/example_shell3D_DWR.cpp` l.181-182). -/
noncomputable def staticLoad (ampl t E ν : ℝ) (q : ℝ × ℝ) : V3 :=
  let x := q.1;
  let y := q.2;
  ⟨0, 0, -6 * ampl * t ^ 3 * E * (x ^ 4 - 2 * x ^ 3 + 12 * (-1 / 2 + y) ^ 2 * x ^ 2
    + (-12 * y ^ 2 + 12 * y - 2) * x + y ^ 4 - 2 * y ^ 3 + 3 * y ^ 2 - 2 * y + 1 / 3) / (3 * ν ^ 2 - 3)⟩

/-- Exact solution of test case 0 (`examples/example_shell3D_DWR.cpp` l.211-218). -/
def staticExact (ampl : ℝ) (q : ℝ × ℝ) : V3 :=
  let x := q.1;
  let y := q.2;
  ⟨0, 0, ampl * x ^ 2 * (x - 1) ^ 2 * y ^ 2 * (y - 1) ^ 2⟩

/-! ## Tables of references -/

/-- The loops `m = 1, …, 9` and `n = 1, …, 9` (`examples/example_shell3D_DWR_modal.cpp` l.232-233,
`examples/example_shell3D_DWR_buckling.cpp` l.208-212). -/
def waves : List (ℕ × ℕ) := (List.range' 1 9).flatMap fun m => (List.range' 1 9).map fun n => (m, n)

/-- Values of all pairs, sorted (`std::sort`). -/
noncomputable def table (f : ℕ → ℕ → ℝ) : List ℝ :=
  (waves.map fun p => f p.1 p.2).insertionSort (· ≤ ·)

/-- `std::vector::operator[]` with an `index_t`: outside of the vector the behaviour is undefined. -/
def entry (l : List ℝ) (i : ℤ) : Outcome ℝ :=
  if i < 0 then .ub
  else match l[i.toNat]? with
    | some x => .ok x
    | none => .ub

/-- Bending stiffness `D` (`examples/example_shell3D_DWR_modal.cpp` l.219,
`examples/example_shell3D_DWR_buckling.cpp` l.168). -/
noncomputable def plateD (E ν t : ℝ) : ℝ := E * t ^ 3 / (12 * (1 - ν ^ 2))

/-- Frequency of test case 0 (`examples/example_shell3D_DWR_modal.cpp` l.234). -/
noncomputable def modalOmega (E ν ρ t : ℝ) (m n : ℕ) : ℝ :=
  (((m : ℝ) / 1.0) ^ 2 + ((n : ℝ) / 1.0) ^ 2) * 3.1415926535 ^ 2 * √(plateD E ν t / (ρ * t))

/-- Reference for the eigenvalue: `pow(omegas[modeIdx], 2)` (`examples/example_shell3D_DWR_modal.cpp`
l.302, 498). -/
noncomputable def modalReference (E ν ρ t : ℝ) (idx : ℤ) : Outcome ℝ :=
  (entry (table (modalOmega E ν ρ t)) idx).bind fun x => .ok (x ^ 2)

/-- The constant `pi` of the buckling program (`examples/example_shell3D_DWR_buckling.cpp` l.206, 256). -/
noncomputable def piConst : ℝ := 3.141592653589793238462

/-- Load of test case 0 (`examples/example_shell3D_DWR_buckling.cpp` l.215); `b = 1`. -/
noncomputable def biaxialGamma (E ν t : ℝ) (m n : ℕ) : ℝ :=
  plateD E ν t * piConst * piConst / (1 * 1) * ((m : ℝ) * m + n * n)

/-- `lambda_an` of test case 0 (`examples/example_shell3D_DWR_buckling.cpp` l.223). -/
noncomputable def biaxialReference (E ν t load : ℝ) (idx : ℤ) : Outcome ℝ :=
  (entry (table (biaxialGamma E ν t)) idx).bind fun x => .ok (x / load)

/-- `gammas_num` of test case 0 (`examples/example_shell3D_DWR_buckling.cpp` l.222). -/
noncomputable def gammasNum : List ℝ :=
  [1.8075565891994295801, 4.5188914729971290931, 4.5188914729971958067, 7.2302263567951903468,
    9.0377829459938644361, 9.0377829459938917719, 11.749117829791974691, 11.749117829791997193,
    15.364231008189425483, 15.364231008189449788]

/-- `lambda_num` of test case 0 (`examples/example_shell3D_DWR_buckling.cpp` l.225). -/
noncomputable def numericReference (load : ℝ) (idx : ℤ) : Outcome ℝ :=
  (entry gammasNum idx).bind fun x => .ok (x / load)

/-- Load of test case 1 (`examples/example_shell3D_DWR_buckling.cpp` l.263); `a = b = 1`. -/
noncomputable def uniaxialGamma (E ν t : ℝ) (m n : ℕ) : ℝ :=
  plateD E ν t * piConst * piConst * 1 * 1 / ((m : ℝ) * m) * (((m : ℝ) / 1) ^ 2 + ((n : ℝ) / 1) ^ 2) ^ 2

/-- `lambda_an` of test case 1 (`examples/example_shell3D_DWR_buckling.cpp` l.271). -/
noncomputable def uniaxialReference (E ν t load : ℝ) (idx : ℤ) : Outcome ℝ :=
  (entry (table (uniaxialGamma E ν t)) idx).bind fun x => .ok (x / load)

/-! ## Buckling problem -/

/-- Neumann terms of the sides with the forces `e`, `w`, `n` (east, west, north;
`examples/example_shell3D_DWR_buckling.cpp` l.181-195, 231-248, `src/gsThinShellAssembler.hpp` l.349-356);
the measure of the sides of the unit square is 1. -/
noncomputable def edgeForm (e w n : V3) (v : ℝ × ℝ → V3) : ℝ :=
  (∫ y in (0 : ℝ)..1, dot (v (1, y)) e) + (∫ y in (0 : ℝ)..1, dot (v (0, y)) w)
    + ∫ x in (0 : ℝ)..1, dot (v (x, 1)) n

/-- `Kdiff = K_NL - K_L` for the linear solution `s`: `mp_def` is the geometry with the solution added
(`examples/example_shell3D_DWR_buckling.cpp` l.369-396). -/
noncomputable def kDiff (r : Rule) (t E ν : ℝ) (s u v : ℝ × ℝ → V3) : ℝ :=
  tangentForm plate (fun q => plate q + s q) (linearSection r t E ν) 0 square u v
    - stiffForm plate (System.linearModuli r t E ν) square u v

end Verif.Examples
