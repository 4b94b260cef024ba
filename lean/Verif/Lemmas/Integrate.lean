import Verif.Spec.Integrate

/-! # Helper lemmas for the thickness integration -/

namespace Verif.Integrate

open intervalIntegral

theorem moment_const (t : ℝ) (m : Nat) (c : ℝ) :
    moment t m (fun _ => c) = c * (((t / 2) ^ (m + 1) - (-(t / 2)) ^ (m + 1)) / ((m : ℝ) + 1)) := by
  unfold moment
  rw [intervalIntegral.integral_mul_const, integral_pow]; ring

theorem moment_monomial (t : ℝ) (m k : Nat) (c : ℝ) :
    moment t m (fun z => c * z ^ k) = c * moment t (m + k) (fun _ => 1) := by
  unfold moment
  rw [← intervalIntegral.integral_const_mul]
  congr 1
  funext z
  ring

theorem moment_add (t : ℝ) (m : Nat) (F G : ℝ → ℝ) (hF : Continuous F) (hG : Continuous G) :
    moment t m (fun z => F z + G z) = moment t m F + moment t m G := by
  unfold moment
  rw [← intervalIntegral.integral_add]
  · congr 1; funext z; ring
  · exact Continuous.intervalIntegrable (by fun_prop) _ _
  · exact Continuous.intervalIntegrable (by fun_prop) _ _

theorem moment_sum (t : ℝ) (m : Nat) {ι : Type} (s : Finset ι) (F : ι → ℝ → ℝ)
    (hF : ∀ i, Continuous (F i)) :
    moment t m (fun z => ∑ i ∈ s, F i z) = ∑ i ∈ s, moment t m (F i) := by
  unfold moment
  rw [← intervalIntegral.integral_finsetSum]
  · congr 1; funext z; rw [Finset.mul_sum]
  · intro i _
    have := hF i
    exact Continuous.intervalIntegrable (by fun_prop) _ _

theorem moment_linear (t : ℝ) (m : Nat) (g h : ℝ) :
    moment t m (fun z => g + h * z) =
      g * (((t / 2) ^ (m + 1) - (-(t / 2)) ^ (m + 1)) / ((m : ℝ) + 1)) +
      h * (((t / 2) ^ (m + 2) - (-(t / 2)) ^ (m + 2)) / ((m : ℝ) + 2)) := by
  rw [moment_add t m (fun _ => g) (fun z => h * z) (by fun_prop) (by fun_prop), moment_const]
  have : moment t m (fun z => h * z) = moment t m (fun z => h * z ^ 1) := by simp
  rw [this, moment_monomial, moment_const]
  push_cast
  rw [one_mul, add_assoc (m : ℝ) 1 1]
  norm_num

/-- Scaling: the moment over a thickness `t` from the one over the unit thickness. -/
theorem moment_scale (t : ℝ) (m : Nat) :
    moment t m (fun _ => 1) = t ^ (m + 1) * ∫ x in (-(1 / 2 : ℝ))..(1 / 2), x ^ m := by
  rw [moment_const, integral_pow]
  have e1 : (t / 2) ^ (m + 1) = t ^ (m + 1) * (1 / 2) ^ (m + 1) := by
    rw [← mul_pow]; ring
  have e2 : (-(t / 2)) ^ (m + 1) = t ^ (m + 1) * (-(1 / 2)) ^ (m + 1) := by
    rw [← mul_pow]; congr 1; ring
  rw [e1, e2]; ring

end Verif.Integrate
