import Verif.Lemmas.WellPosed
import Verif.Lemmas.Witness

/-! # Ez simulations on a coarse grid, with any permittivity of modulus at least one: nonsingular, with or without PML -/

namespace Angler

open Matrix

variable {Nx Ny : ℕ}

/-- An `Nx × Ny` Ez simulation with layers of `P` cells, in normalised units, `dl` three times the unit length. -/
noncomputable def fsim (P : ℕ) (eps src : Grid Nx Ny ℂ) : Sim Nx Ny :=
  let xr : ℝ × ℝ := (0, Nx * (3 / ETA_0))
  let yr : ℝ × ℝ := (0, Ny * (3 / ETA_0))
  let r := construct_A 1 xr yr eps (P, P) .Ez (1 / EPSILON_0)
  { L0 := 1 / EPSILON_0, omega := 1, dl := 3 / ETA_0, NPML := (P, P), pol := .Ez, xrange := xr, yrange := yr,
    src := src, eps_r := eps, A := r.1, derivs := r.2, fields := fun _ => none, fields_nl := fun _ => none, nonlinearity := [],
    eps_nl := fun _ _ => 0, dnl_de := fun _ _ => 0, dnl_deps := fun _ _ => 0, Anl := none, rho := none }

theorem fsim_valid (P : ℕ) (eps src : Grid Nx Ny ℂ) : (fsim P eps src).Valid where
  L0_pos := one_div_pos.2 EPSILON_0_pos
  omega_pos := one_pos
  xr := rfl
  yr := rfl
  A_eq := rfl
  derivs_eq := construct_A_derivs _ _ _ _ _ _ _ _

theorem fsim_dl_pos (P : ℕ) (eps src : Grid Nx Ny ℂ) : 0 < (fsim P eps src).dl := div_pos (by norm_num) ETA_0_pos

theorem fsim_det (hx : 1 < Nx) (hy : 1 < Ny) (P : ℕ) (eps src : Grid Nx Ny ℂ) (he : ∀ i j, 1 ≤ ‖eps i j‖) : (fsim P eps src).A.det ≠ 0 := by
  have h := wellposed_Ez (fsim P eps src) (fsim_valid P eps src) rfl (fsim_dl_pos P eps src) hx hy 0 (by
    intro i j
    show 8 / (MU_0 * (1 / EPSILON_0) * (3 / ETA_0) ^ 2) < (1 : ℝ) ^ 2 * EPSILON_0 * (1 / EPSILON_0) * ‖eps i j + 0‖
    rw [mu0_norm, add_zero, one_pow, one_mul, mul_one_div_cancel EPSILON_0_pos.ne', one_mul]
    have h1 : ETA_0 ^ 2 * (3 / ETA_0) ^ 2 = 9 := by
      have := ETA_0_pos.ne'
      field_simp; norm_num
    rw [h1]
    exact lt_of_lt_of_le (by norm_num) (he i j))
  have hz : (spdiag fun k => (((fsim P eps src).omega ^ 2 * EPSILON_0 * (fsim P eps src).L0 : ℝ) : ℂ) * flatten (0 : Grid Nx Ny ℂ) k) = 0 := by
    have : (fun k => (((fsim P eps src).omega ^ 2 * EPSILON_0 * (fsim P eps src).L0 : ℝ) : ℂ) * flatten (0 : Grid Nx Ny ℂ) k) = 0 := by
      funext k
      show _ * (0 : ℂ) = 0
      rw [mul_zero]
    rw [this]
    simp [spdiag]
  rwa [hz, add_zero] at h

/-- Without layers, the system matrix is the five-point stencil. -/
theorem fsim_apply (hx : 1 < Nx) (hy : 1 < Ny) (eps src f : Grid Nx Ny ℂ) :
    (fsim 0 eps src).A *ᵥ flatten f = flatten fun i j =>
      (f (Spec.next i) j + f (Spec.prev i) j + f i (Spec.next j) + f i (Spec.prev j) - 4 * f i j) / 9 + eps i j * f i j := by
  have hE : (ETA_0 : ℂ) ≠ 0 := by exact_mod_cast ETA_0_pos.ne'
  have hdL : dL Nx Ny ((0 : ℝ), (Nx : ℝ) * (3 / ETA_0)) ((0 : ℝ), (Ny : ℝ) * (3 / ETA_0)) = (3 / ETA_0, 3 / ETA_0) := (fsim_valid 0 eps src).dL_eq (by omega) (by omega)
  simp only [fsim, construct_A, Matrix.add_mulVec, smul_mulVec, ← Matrix.mulVec_mulVec,
    mkDerivs_Dxb _ _ _ _ _ hx, mkDerivs_Dyb _ _ _ _ _ hy, mkDerivs_Dxf _ _ _ _ _ hx, mkDerivs_Dyf _ _ _ _ _ hy, spdiag_mulVec, sfactor_zero, hdL,
    eps0_norm, mu0_norm]
  refine flat_ext fun i j => ?_
  simp only [Pi.add_apply, Pi.smul_apply, flatten_pair, Spec.fwdX, Spec.bwdX, Spec.fwdY, Spec.bwdY, prev_next, smul_eq_mul]
  push_cast
  field_simp
  ring

/-- The magnetic field of a solved simulation without layers. -/
theorem fsim_Hy (hx : 1 < Nx) (hy : 1 < Ny) (avg : Bool) (eps src f : Grid Nx Ny ℂ) : ((fsim 0 eps src).in_plane avg eps (flatten f)).2 =
    ((fun i j => (f i j - f (Spec.prev i) j) / (3 * Complex.I * ETA_0)), f) := by
  have hE : (ETA_0 : ℂ) ≠ 0 := by exact_mod_cast ETA_0_pos.ne'
  have hdL : dL Nx Ny ((0 : ℝ), (Nx : ℝ) * (3 / ETA_0)) ((0 : ℝ), (Ny : ℝ) * (3 / ETA_0)) = (3 / ETA_0, 3 / ETA_0) := (fsim_valid 0 eps src).dL_eq (by omega) (by omega)
  refine Prod.ext ?_ (by simp only [Sim.in_plane, fsim, unflatten_flatten])
  simp only [Sim.in_plane, fsim, construct_A, mkDerivs_Dxb _ _ _ _ _ hx, sfactor_zero, hdL, mu0_norm]
  funext i j
  simp only [unflatten, Pi.smul_apply, flatten_pair, Spec.bwdX, smul_eq_mul]
  push_cast
  have hI := Complex.I_ne_zero
  field_simp

end Angler
