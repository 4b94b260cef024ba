import Verif.Spec.Plate

/-!
# Specification: circular cylinders

Arcs, their frames, conditions at the edges, pressures and frequencies, independent of the model.
-/

namespace Verif.Spec.Cylinder

open V3 Fields Spec.Balloon

/-- Part of a cylinder about the second axis: radius `ρ`, angle `ω` times the first parameter, stretched by
`ly` along the axis, moved by `c` in the third direction. -/
noncomputable def arc (ρ ω ly c : ℝ) (q : ℝ × ℝ) : V3 :=
  ⟨ρ * Real.sin (ω * q.1), ly * q.2, ρ * Real.cos (ω * q.1) + c⟩

/-- Pipe of radius `R`, parametrised by angle and axis. -/
noncomputable def pipe (R : ℝ) : ℝ × ℝ → V3 := arc R 1 1 0

/-- A flat strip, parametrised by its coordinates, rolled to radius `ρ` and stretched by `lam` along the
first one. -/
noncomputable def rolled (ρ lam : ℝ) : ℝ × ℝ → V3 := arc ρ (lam / ρ) 1 (-ρ)

/-- Unit vectors away from the axis and around it. -/
noncomputable def outward (ω : ℝ) (q : ℝ × ℝ) : V3 := ⟨Real.sin (ω * q.1), 0, Real.cos (ω * q.1)⟩

/-- Unit vector around the axis. -/
noncomputable def around (ω : ℝ) (q : ℝ × ℝ) : V3 := ⟨Real.cos (ω * q.1), 0, -Real.sin (ω * q.1)⟩

/-- The two lateral edges do not move along the axis, and do not turn against each other. -/
def Sides (ω b : ℝ) (v : ℝ × ℝ → V3) : Prop :=
  ∀ x, (v (x, b)).y = (v (x, 0)).y ∧
    dot (vpd 1 v (x, b)) (outward ω (x, b)) = dot (vpd 1 v (x, 0)) (outward ω (x, 0))

/-- The two ends do not turn against each other. -/
def Ends (ω a : ℝ) (v : ℝ × ℝ → V3) : Prop :=
  ∀ y, dot (vpd 0 v (a, y)) (outward ω (a, y)) = dot (vpd 0 v (0, y)) (outward ω (0, y))

/-- Virtual displacements of a strip whose ends keep their angle. -/
structure Turned (ω a b : ℝ) (v : ℝ × ℝ → V3) : Prop where
  smooth : SmoothOn 2 v Set.univ
  sides : Sides ω b v
  ends : Ends ω a v

/-- Virtual displacements of a pipe: moreover the ends move equally around the axis.  This includes closed
pipes (periodic) and parts of a pipe between planes of symmetry. -/
structure Closed (ω a b : ℝ) (v : ℝ × ℝ → V3) : Prop extends Turned ω a b v where
  gap : ∀ y, dot (v (a, y)) (around ω (a, y)) = dot (v (0, y)) (around ω (0, y))

/-- Displacement with `n` waves around the pipe: `w` outward, `s` around. -/
noncomputable def ring (n : ℕ) (w s : ℝ) (q : ℝ × ℝ) : V3 :=
  (w * Real.cos (n * q.1)) • outward 1 q + (s * Real.sin (n * q.1)) • around 1 q

/-- Pressure that holds a pipe of radius `R`, thickness `t` at the radius `r` and the axial stretch `ly`. -/
noncomputable def pipePressure (E ν t R r ly : ℝ) : ℝ :=
  t * (E / (1 - ν ^ 2)) * ((r ^ 2 - R ^ 2) * r / (2 * R ^ 4) + ν * (ly ^ 2 - 1) * r / (2 * R ^ 2)
    + t ^ 2 / 12 * (r - R) / R ^ 4)

/-- Frequency (squared) of a ring in bending without extension, with `n` waves
(plane strain, mass `ρ t` per area). -/
noncomputable def ringFreq2 (E ν ρ t R : ℝ) (n : ℕ) : ℝ :=
  E * t ^ 2 / (12 * (1 - ν ^ 2) * ρ * R ^ 4) * (n ^ 2 * ((n : ℝ) ^ 2 - 1) ^ 2 / (n ^ 2 + 1))

end Verif.Spec.Cylinder
