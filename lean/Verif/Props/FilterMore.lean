import Verif.Model.Filter
import Mathlib.Analysis.Calculus.Deriv.Add
import Mathlib.Analysis.Calculus.Deriv.Mul
import Mathlib.Tactic.Linarith

/-! # C02, C07: the permittivity step of the projection; index wrapping -/

namespace Angler

/-- **C02, second step.** `deps_drhob` is the derivative of `rhob2eps`. -/
theorem C02_permittivity_derivative (eps_m r : ℝ) : HasDerivAt (fun x => rhob2eps x eps_m) (deps_drhob r eps_m) r := by
  have h := ((hasDerivAt_id r).mul_const (eps_m - 1)).const_add 1
  rw [one_mul] at h
  exact h

/-- Non-vacuity: silicon. -/
example : deps_drhob 0.5 12.25 = 11.25 := by norm_num [deps_drhob]

/-- **C07, negation (3).** `wrap(i, N)` is the index modulo the grid length only where there is nothing to wrap: it is wrong for every index outside `0 ≤ i < N`. -/
theorem C07_wrap_false (i N : ℤ) (hN : 0 < N) : wrap i N = i % N ↔ 0 ≤ i ∧ i < N := by
  have h0 := Int.emod_nonneg i hN.ne'
  have h1 := Int.emod_lt_of_pos i hN
  have h2 : i < 0 → -N ≤ i → i % N = i + N := fun ha hb => by
    by_cases hc : i = -N
    · subst hc; simp
    · rw [← Int.add_emod_right]; exact Int.emod_eq_of_lt (by omega) (by omega)
  have h3 : 0 ≤ i → i < N → i % N = i := Int.emod_eq_of_lt
  unfold wrap
  split_ifs <;> omega

/-- The first index beyond either end of ten cells. -/
example : wrap 10 10 = 10 ∧ wrap (-1) 10 = 8 := by decide

end Angler
