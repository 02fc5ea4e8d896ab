import Verif.Lemmas.Witness
import Verif.Lemmas.Solvers
import Verif.Props.Complex2Real

/-! # A Kerr simulation that is never singular

`2 × 2` periodic grid, `ε = 10`, `3χ = 10` everywhere, Ez: on uniform fields one Born step is `f ↦ S / (10 (1 + |f|²))` and all the matrices met are nonsingular. -/

namespace Angler

open Matrix

/-- Injectivity of `f ↦ a f + b (f shifted in x) + b (f shifted in y)` on the `2 × 2` torus. -/
theorem torus_inj {a b : ℂ} (h1 : a + 2 * b ≠ 0) (h2 : a ≠ 0) (h3 : a - 2 * b ≠ 0) (f : Grid 2 2 ℂ)
    (h : ∀ i j, a * f i j + b * f (1 - i) j + b * f i (1 - j) = 0) : f = 0 := by
  have e00 := h 0 0
  have e01 := h 0 1
  have e10 := h 1 0
  have e11 := h 1 1
  simp only [sub_zero, sub_self] at e00 e01 e10 e11
  have u : f 0 0 + f 0 1 + f 1 0 + f 1 1 = 0 := (mul_eq_zero.1 (show (a + 2 * b) * (f 0 0 + f 0 1 + f 1 0 + f 1 1) = 0 by linear_combination e00 + e01 + e10 + e11)).resolve_left h1
  have v : f 0 0 + f 0 1 - f 1 0 - f 1 1 = 0 := (mul_eq_zero.1 (show a * (f 0 0 + f 0 1 - f 1 0 - f 1 1) = 0 by linear_combination e00 + e01 - e10 - e11)).resolve_left h2
  have w : f 0 0 - f 0 1 + f 1 0 - f 1 1 = 0 := (mul_eq_zero.1 (show a * (f 0 0 - f 0 1 + f 1 0 - f 1 1) = 0 by linear_combination e00 - e01 + e10 - e11)).resolve_left h2
  have z : f 0 0 - f 0 1 - f 1 0 + f 1 1 = 0 := (mul_eq_zero.1 (show (a - 2 * b) * (f 0 0 - f 0 1 - f 1 0 + f 1 1) = 0 by linear_combination e00 - e01 - e10 + e11)).resolve_left h3
  apply grid22_zero
  · linear_combination (u + v + w + z) / 4
  · linear_combination (u + v - w - z) / 4
  · linear_combination (u - v + w - z) / 4
  · linear_combination (u - v - w + z) / 4

/-- The Kerr witness. -/
noncomputable def psim (src : Grid 2 2 ℂ) : Sim 2 2 := { wsim .Ez (fun _ _ => 10) src with nonlinearity := [⟨10 / 3, fun _ _ => 1, none⟩] }

theorem psim_valid (src : Grid 2 2 ℂ) : (psim src).Valid :=
  ⟨(wsim_valid .Ez (fun _ _ => 10) src).L0_pos, (wsim_valid .Ez (fun _ _ => 10) src).omega_pos, rfl, rfl, rfl, (wsim_valid .Ez (fun _ _ => 10) src).derivs_eq⟩

theorem psim_sum (src : Grid 2 2 ℂ) (i j : Fin 2) : Spec.kerrSum (psim src).nonlinearity (psim src).eps_r i j = 10 := by
  simp [Spec.kerrSum, Spec.kerrCoef, psim]
  norm_num

theorem unit_coef (s : Sim 2 2) (ho : s.omega = 1) (hL : s.L0 = 1 / EPSILON_0) : ((s.omega ^ 2 * EPSILON_0 * s.L0 : ℝ) : ℂ) = 1 := by
  have : s.omega ^ 2 * EPSILON_0 * s.L0 = 1 := by
    rw [ho, hL]
    have := EPSILON_0_pos.ne'
    field_simp
  rw [this]; simp

/-- The Born matrix of the witness. -/
theorem psim_bornMat (src F f : Grid 2 2 ℂ) : bornMat (psim src) F *ᵥ flatten f = flatten fun i j =>
    2 * (f (1 - i) j - f i j) + 2 * (f i (1 - j) - f i j) + (10 + 10 * ((‖F i j‖ ^ 2 : ℝ) : ℂ)) * f i j := by
  have hA : (psim src).A = (wsim .Ez (fun _ _ => 10) src).A := rfl
  rw [bornMat, Matrix.add_mulVec, kerrMat_mulVec, hA, wsim_Ez_apply]
  refine flat_ext fun i j => ?_
  simp only [Pi.add_apply, flatten_pair, psim_sum, unit_coef (psim src) rfl rfl]
  ring

/-- At a uniform field the Born matrix is nonsingular. -/
theorem psim_bornMat_det (src : Grid 2 2 ℂ) (c : ℂ) : (bornMat (psim src) fun _ _ => c).det ≠ 0 := by
  refine det_ne_zero_of_inj fun v hv => ?_
  rw [← flatten_unflatten (Nx := 2) (Ny := 2) v] at hv ⊢
  generalize (unflatten v : Grid 2 2 ℂ) = f at hv ⊢
  rw [psim_bornMat, flatten_eq_zero] at hv
  rw [flatten_eq_zero]
  have ht : 0 ≤ ‖c‖ ^ 2 := by positivity
  have nz : ∀ r : ℝ, 0 < r → (r : ℂ) ≠ 0 := fun r hr => by exact_mod_cast hr.ne'
  refine torus_inj (a := ((6 + 10 * ‖c‖ ^ 2 : ℝ) : ℂ)) (b := 2) ?_ (nz _ (by linarith)) ?_ f fun i j => ?_
  · have := nz (10 + 10 * ‖c‖ ^ 2) (by linarith)
    intro h; apply this; rw [← h]; push_cast; ring
  · have := nz (2 + 10 * ‖c‖ ^ 2) (by linarith)
    intro h; apply this; rw [← h]; push_cast; ring
  · have := congrFun (congrFun hv i) j
    simp only [Pi.zero_apply] at this
    rw [← this]
    push_cast
    ring

/-- One Born step of the witness on uniform fields. -/
theorem psim_bornStep (env : Env) (he : env.Exact) (S c d : ℂ) (h : (10 + 10 * ((‖c‖ ^ 2 : ℝ) : ℂ)) * d = S * Complex.I) :
    (bornStep env (psim fun _ _ => S) fun _ _ => c).2.2 = fun _ _ => d := by
  rw [bornStep_third]
  apply flatten_injective
  rw [flatten_unflatten]
  refine solver_direct_unique he (psim_bornMat_det _ c) ?_
  rw [psim_bornMat]
  refine flat_ext fun i j => ?_
  have e : (psim fun _ _ => S).rhs (finProdFinEquiv (i, j)) = S * Complex.I * ((1 : ℝ) : ℂ) := rfl
  rw [e]
  simp only [flatten_pair, sub_self, mul_zero, zero_add]
  rw [h]; simp

theorem laNorm_uniform (c : ℂ) : laNorm (fun (_ : Fin 2) (_ : Fin 2) => c) = 2 * ‖c‖ := by
  unfold laNorm
  simp only [Fin.sum_univ_two]
  rw [show ‖c‖ ^ 2 + ‖c‖ ^ 2 + (‖c‖ ^ 2 + ‖c‖ ^ 2) = (2 * ‖c‖) ^ 2 by ring]
  exact Real.sqrt_sq (by positivity)

theorem convergence_uniform (a b : ℂ) (ha : a ≠ 0) :
    convergence (fun (_ : Fin 2) (_ : Fin 2) => a) (fun _ _ => b) = .fin (‖a - b‖ / ‖a‖) := by
  unfold convergence PyFloat.div
  rw [laNorm_uniform, laNorm_uniform (a - b)]
  have : ‖a‖ ≠ 0 := norm_ne_zero_iff.2 ha
  rw [if_pos (by positivity)]
  congr 1
  field_simp

end Angler
