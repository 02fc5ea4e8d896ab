import Verif.Model.Utils
import Verif.Model.Linalg
import Verif.Lemmas.Grid
import Verif.Spec.Calculus
import Mathlib.Analysis.Calculus.Deriv.Mul
import Mathlib.Analysis.Calculus.Deriv.Add
import Mathlib.Analysis.Convex.Basic
import Mathlib.Algebra.BigOperators.Field
import Mathlib.Tactic.Linarith
import Mathlib.Tactic.FieldSimp

/-! # C04 (utils half), C55, C57 -/

namespace Angler

/-- **C04** for `utils.py`. -/
theorem C04_utils_inverse (eps_m : ℝ) (h : eps_m ≠ 1) :
    (∀ eps, Utils.rho_bar2eps (Utils.eps2rho_bar eps eps_m) eps_m = eps) ∧ (∀ rho, Utils.eps2rho_bar (Utils.rho_bar2eps rho eps_m) eps_m = rho) ∧
    (1 < eps_m → ∀ rho, Utils.rho_bar2eps rho eps_m ∈ Set.Icc 1 eps_m ↔ rho ∈ Set.Icc (0 : ℝ) 1) := by
  have h' : eps_m - 1 ≠ 0 := sub_ne_zero.2 h
  refine ⟨fun e => ?_, fun r => ?_, fun hm r => ?_⟩
  · unfold Utils.rho_bar2eps Utils.eps2rho_bar; field_simp; ring
  · unfold Utils.rho_bar2eps Utils.eps2rho_bar; field_simp; ring
  · have hp : 0 < eps_m - 1 := by linarith
    unfold Utils.rho_bar2eps
    simp only [Set.mem_Icc]
    constructor
    · rintro ⟨a, b⟩
      exact ⟨by by_contra hc; nlinarith, by by_contra hc; nlinarith⟩
    · rintro ⟨a, b⟩
      exact ⟨by nlinarith, by nlinarith⟩

/-- Non-vacuity. -/
example : Utils.rho_bar2eps (1 / 4) 5 = 2 ∧ Utils.eps2rho_bar 2 5 = 1 / 4 := by
  constructor <;> norm_num [Utils.eps2rho_bar, Utils.rho_bar2eps]

/-! ## C57 -/

/-- **C57 (partial).** Full claim: `deps_drho_bar` is the derivative of `rho_bar2eps`, and the two other functions return values.  `deps_drho_bar` (`1/(eps_m-1)` instead of
`eps_m-1`) is the derivative only for `eps_m = 2` and `eps_m = 0`. -/
theorem C57_deps_drho_bar_partial (eps_m rho eps : ℝ) (h : eps_m ≠ 1) :
    HasDerivAt (fun r => Utils.rho_bar2eps r eps_m) (Utils.deps_drho_bar eps eps_m) rho ↔ eps_m = 2 ∨ eps_m = 0 := by
  have h' : eps_m - 1 ≠ 0 := sub_ne_zero.2 h
  have hd : HasDerivAt (fun r => Utils.rho_bar2eps r eps_m) (eps_m - 1) rho := by
    have := ((hasDerivAt_id rho).mul_const (eps_m - 1)).add_const 1
    exact this.congr_deriv (by ring)
  constructor
  · intro hx
    have e := hx.unique hd
    unfold Utils.deps_drho_bar at e
    rw [div_eq_iff h'] at e
    have : (eps_m - 2) * eps_m = 0 := by linarith
    rcases mul_eq_zero.1 this with h1 | h1
    · left; linarith
    · right; exact h1
  · intro hm
    refine hd.congr_deriv ?_
    rcases hm with rfl | rfl <;> norm_num [Utils.deps_drho_bar]

/-- **C57, negation.** For silicon-like `eps_m = 12` it is not the derivative; the two other functions raise `NameError` on every argument. -/
theorem C57_utils_broken :
    (∀ rho eps : ℝ, ¬ HasDerivAt (fun r => Utils.rho_bar2eps r 12) (Utils.deps_drho_bar eps 12) rho) ∧
    (∀ rho eta beta, Utils.drho_bar_drho rho eta beta = .error .nameError) ∧ ∀ chi3, Utils.n2_from_chi3 chi3 = .error .nameError := by
  refine ⟨fun rho eps h => ?_, fun _ _ _ => rfl, fun _ => rfl⟩
  rcases (C57_deps_drho_bar_partial 12 rho eps (by norm_num)).1 h with h | h <;> norm_num at h

/-! ## C55 -/

theorem rollBack_eq_prev {n : ℕ} (i : Fin n) : rollBack i = Spec.prev i := rfl

variable {Nx Ny : ℕ}

/-- **C55.** `grid_average` is the mean of each cell and its predecessor along the requested axis: it preserves constants, the total sum and every convex range of values, and the
result in a column (row) depends on that column (row) only. -/
theorem C55_grid_average (a b : Grid Nx Ny ℂ) :
    (∀ i j, grid_average a .x i j = (a (Spec.prev i) j + a i j) / 2 ∧ grid_average a .y i j = (a i (Spec.prev j) + a i j) / 2) ∧
    (∀ w, (∀ c : ℂ, grid_average (fun (_ : Fin Nx) (_ : Fin Ny) => c) w = fun _ _ => c) ∧ ∑ i, ∑ j, grid_average a w i j = ∑ i, ∑ j, a i j ∧
      ∀ S : Set ℂ, Convex ℝ S → (∀ i j, a i j ∈ S) → ∀ i j, grid_average a w i j ∈ S) ∧
    (∀ j, (∀ i, a i j = b i j) → ∀ i, grid_average a .x i j = grid_average b .x i j) ∧
    (∀ i, (∀ j, a i j = b i j) → ∀ j, grid_average a .y i j = grid_average b .y i j) := by
  refine ⟨fun i j => ⟨rfl, rfl⟩, fun w => ⟨fun c => ?_, ?_, fun S hS hin i j => ?_⟩, fun j h i => ?_, fun i h j => ?_⟩
  · cases w <;> funext i j <;> simp [grid_average]
  · cases w
    · rw [Finset.sum_comm]
      conv_rhs => rw [Finset.sum_comm]
      refine Finset.sum_congr rfl fun j _ => ?_
      simp only [grid_average, ← Finset.sum_div, Finset.sum_add_distrib]
      have : ∑ i, a (rollBack i) j = ∑ i, a i j := Equiv.sum_comp (nextEquiv Nx).symm fun i => a i j
      rw [this]; ring
    · refine Finset.sum_congr rfl fun i _ => ?_
      simp only [grid_average, ← Finset.sum_div, Finset.sum_add_distrib]
      have : ∑ j, a i (rollBack j) = ∑ j, a i j := Equiv.sum_comp (nextEquiv Ny).symm fun j => a i j
      rw [this]; ring
  · have mid : ∀ x ∈ S, ∀ y ∈ S, (x + y) / 2 ∈ S := by
      intro x hx y hy
      have := hS hx hy (a := 1 / 2) (b := 1 / 2) (by norm_num) (by norm_num) (by norm_num)
      have e : ((1 / 2 : ℝ)) • x + ((1 / 2 : ℝ)) • y = (x + y) / 2 := by
        simp only [Complex.real_smul]; push_cast; ring
      rwa [e] at this
    cases w
    · exact mid _ (hin _ _) _ (hin _ _)
    · exact mid _ (hin _ _) _ (hin _ _)
  · simp [grid_average, h]
  · simp [grid_average, h]

/-- A concrete average, with wrap-around. -/
example : grid_average (fun (i : Fin 3) (_ : Fin 1) => ((i : ℕ) : ℂ)) .x 0 0 = 1 := by
  simp [grid_average, rollBack]

end Angler
