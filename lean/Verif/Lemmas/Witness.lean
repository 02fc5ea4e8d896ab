import Verif.Lemmas.Sim
import Mathlib.Tactic.FinCases
import Mathlib.Tactic.FieldSimp
import Mathlib.Tactic.LinearCombination

/-! # Concrete simulations used in examples and counterexamples

A `2 × 2` periodic grid with units chosen so that `ε₀ L0 = 1`, `μ₀ L0 = η₀²`, `dl = 1/η₀`, `ω = 1`:
then `A` is, up to the factor `η₀²` for Hz, an explicit matrix with small rational entries.
-/

namespace Angler

open Matrix

/-- A `2 × 2` simulation in normalised units. -/
noncomputable def wsim (pol : Pol) (eps src : Grid 2 2 ℂ) : Sim 2 2 :=
  let xr : ℝ × ℝ := (0, (2 : ℕ) * (1 / ETA_0))
  let r := construct_A 1 xr xr eps (0, 0) pol (1 / EPSILON_0)
  { L0 := 1 / EPSILON_0, omega := 1, dl := 1 / ETA_0, NPML := (0, 0), pol := pol, xrange := xr, yrange := xr,
    src := src, eps_r := eps, A := r.1, derivs := r.2, fields := fun _ => none, fields_nl := fun _ => none, nonlinearity := [],
    eps_nl := fun _ _ => 0, dnl_de := fun _ _ => 0, dnl_deps := fun _ _ => 0, Anl := none, rho := none }

theorem wsim_valid (pol : Pol) (eps src : Grid 2 2 ℂ) : (wsim pol eps src).Valid where
  L0_pos := one_div_pos.2 EPSILON_0_pos
  omega_pos := one_pos
  xr := rfl
  yr := rfl
  A_eq := rfl
  derivs_eq := construct_A_derivs _ _ _ _ _ _ _ _

theorem wsim_dl_pos (pol : Pol) (eps src : Grid 2 2 ℂ) : 0 < (wsim pol eps src).dl := one_div_pos.2 ETA_0_pos

theorem eps0_norm : EPSILON_0 * (1 / EPSILON_0) = 1 := by
  have := EPSILON_0_pos.ne'
  field_simp

theorem mu0_norm : MU_0 * (1 / EPSILON_0) = ETA_0 ^ 2 := by
  rw [ETA_0, Real.sq_sqrt (div_pos MU_0_pos EPSILON_0_pos).le]
  ring

theorem sfactor_zero (xr : ℝ × ℝ) (L0 omega : ℝ) (d : Dir) (N : ℕ) (i : Fin N) : create_sfactor xr L0 d omega N 0 i = 1 := by
  simp [create_sfactor]

theorem dL22 : dL 2 2 ((0 : ℝ), ((2 : ℕ) : ℝ) * (1 / ETA_0)) ((0 : ℝ), ((2 : ℕ) : ℝ) * (1 / ETA_0)) = (1 / ETA_0, 1 / ETA_0) := by
  simp [dL]

/-- On two cells, the next and the previous cell are the other one. -/
theorem next2 (i : Fin 2) : Spec.next i = 1 - i ∧ Spec.prev i = 1 - i := by
  fin_cases i <;> decide

theorem wsim_Ez_apply (eps src f : Grid 2 2 ℂ) :
    (wsim .Ez eps src).A *ᵥ flatten f = flatten fun i j =>
      2 * (f (1 - i) j - f i j) + 2 * (f i (1 - j) - f i j) + eps i j * f i j := by
  have hE : (ETA_0 : ℂ) ≠ 0 := by exact_mod_cast ETA_0_pos.ne'
  simp only [wsim, construct_A, Matrix.add_mulVec, smul_mulVec, ← Matrix.mulVec_mulVec,
    mkDerivs_Dxb _ _ _ _ _ (by norm_num : 1 < 2), mkDerivs_Dyb _ _ _ _ _ (by norm_num : 1 < 2),
    mkDerivs_Dxf _ _ _ _ _ (by norm_num : 1 < 2), mkDerivs_Dyf _ _ _ _ _ (by norm_num : 1 < 2), spdiag_mulVec, sfactor_zero, dL22,
    eps0_norm, mu0_norm]
  refine flat_ext fun i j => ?_
  simp only [Pi.add_apply, Pi.smul_apply, flatten_pair, Spec.fwdX, Spec.bwdX, Spec.fwdY, Spec.bwdY, (next2 _).1, (next2 _).2, sub_sub_cancel, smul_eq_mul]
  push_cast
  field_simp
  ring

theorem wsim_Hz_apply (eps src f : Grid 2 2 ℂ) :
    (wsim .Hz eps src).A *ᵥ flatten f = flatten fun i j => (ETA_0 : ℂ) ^ 2 *
      (2 * (f (1 - i) j - f i j) / ((eps (1 - i) j + eps i j) / 2) + 2 * (f i (1 - j) - f i j) / ((eps i (1 - j) + eps i j) / 2) + f i j) := by
  have hE : (ETA_0 : ℂ) ≠ 0 := by exact_mod_cast ETA_0_pos.ne'
  have hr : ∀ i : Fin 2, rollBack i = 1 - i := by intro i; fin_cases i <;> decide
  simp only [wsim, construct_A, Matrix.add_mulVec, smul_mulVec, ← Matrix.mulVec_mulVec, Matrix.one_mulVec, if_true,
    mkDerivs_Dxb _ _ _ _ _ (by norm_num : 1 < 2), mkDerivs_Dyb _ _ _ _ _ (by norm_num : 1 < 2), spdiag_mulVec, sfactor_zero, dL22,
    eps0_norm, mu0_norm]
  rw [show (fun k : Fin (2 * 2) => 1 / flatten (grid_average (fun i j => ((1 : ℝ) : ℂ) * eps i j) Axis.x) k *
      flatten (fun i j => Spec.bwdX (1 / ETA_0, 1 / ETA_0).1 f i j / 1) k) =
      flatten (fun i j => 1 / grid_average (fun i j => ((1 : ℝ) : ℂ) * eps i j) Axis.x i j * (Spec.bwdX (1 / ETA_0) f i j / 1)) from rfl,
    show (fun k : Fin (2 * 2) => 1 / flatten (grid_average (fun i j => ((1 : ℝ) : ℂ) * eps i j) Axis.y) k *
      flatten (fun i j => Spec.bwdY (1 / ETA_0, 1 / ETA_0).2 f i j / 1) k) =
      flatten (fun i j => 1 / grid_average (fun i j => ((1 : ℝ) : ℂ) * eps i j) Axis.y i j * (Spec.bwdY (1 / ETA_0) f i j / 1)) from rfl]
  simp only [mkDerivs_Dxf _ _ _ _ _ (by norm_num : 1 < 2), mkDerivs_Dyf _ _ _ _ _ (by norm_num : 1 < 2), sfactor_zero, dL22]
  refine flat_ext fun i j => ?_
  simp only [Pi.add_apply, Pi.smul_apply, flatten_pair, Spec.fwdX, Spec.bwdX, Spec.fwdY, Spec.bwdY, (next2 _).1, (next2 _).2, sub_sub_cancel, smul_eq_mul,
    grid_average, hr]
  push_cast
  field_simp
  ring

/-- In-plane fields of the Hz witness with `averaging=False`. -/
theorem wsim_Hz_in_plane (eps src f : Grid 2 2 ℂ) :
    (wsim .Hz eps src).in_plane false eps (flatten f) =
      (fun i j => (1 / Complex.I) * (1 / eps i j * ((f i j - f i (1 - j)) * ETA_0)),
       fun i j => (-1 / Complex.I) * (1 / eps i j * ((f i j - f (1 - i) j) * ETA_0)), f) := by
  have hd : (wsim .Hz eps src).derivs = mkDerivs 1 (0, (2 : ℕ) * (1 / ETA_0)) (0, (2 : ℕ) * (1 / ETA_0)) 2 2 (0, 0) (1 / EPSILON_0) :=
    (wsim_valid .Hz eps src).derivs_eq
  have hp : (wsim .Hz eps src).pol = .Hz := rfl
  have hL : (wsim .Hz eps src).L0 = 1 / EPSILON_0 := rfl
  have ho : (wsim .Hz eps src).omega = 1 := rfl
  simp only [Sim.in_plane, hp, hd, hL, ho, Sim.eps_xy, Bool.false_eq_true, if_false, ← Matrix.mulVec_mulVec, mkDerivs_Dxb _ _ _ _ _ (by norm_num : 1 < 2),
    mkDerivs_Dyb _ _ _ _ _ (by norm_num : 1 < 2), spdiag_mulVec, dL22, sfactor_zero, unflatten_flatten, eps0_norm]
  refine Prod.ext ?_ (Prod.ext ?_ rfl) <;>
  · apply flatten_injective
    rw [flatten_unflatten]
    refine flat_ext fun i j => ?_
    simp only [Pi.smul_apply, flatten_pair, Spec.bwdX, Spec.bwdY, (next2 _).2, smul_eq_mul]
    simp

/-- Nonsingularity by injectivity. -/
theorem det_ne_zero_of_inj {n : ℕ} {A : Mat n ℂ} (h : ∀ v, A *ᵥ v = 0 → v = 0) : A.det ≠ 0 := by
  intro hd
  obtain ⟨v, hv, h0⟩ := Matrix.exists_mulVec_eq_zero_iff.2 hd
  exact hv (h v h0)

theorem flatten_eq_zero {Nx Ny : ℕ} {f : Grid Nx Ny ℂ} : flatten f = 0 ↔ f = 0 :=
  ⟨fun h => flatten_injective (by rw [h]; rfl), fun h => by rw [h]; rfl⟩

theorem grid22_zero {f : Grid 2 2 ℂ} (h00 : f 0 0 = 0) (h01 : f 0 1 = 0) (h10 : f 1 0 = 0) (h11 : f 1 1 = 0) : f = 0 := by
  funext i j
  fin_cases i <;> fin_cases j <;> simp [h00, h01, h10, h11]

/-- Vacuum Ez simulation: nonsingular (eigenvalues 1, -3, -3, -7). -/
theorem wsim_Ez_det (src : Grid 2 2 ℂ) : (wsim .Ez (fun _ _ => 1) src).A.det ≠ 0 := by
  refine det_ne_zero_of_inj fun v hv => ?_
  rw [← flatten_unflatten (Nx := 2) (Ny := 2) v] at hv ⊢
  generalize (unflatten v : Grid 2 2 ℂ) = f at hv ⊢
  rw [wsim_Ez_apply, flatten_eq_zero] at hv
  rw [flatten_eq_zero]
  have e00 := congrFun (congrFun hv 0) 0
  have e01 := congrFun (congrFun hv 0) 1
  have e10 := congrFun (congrFun hv 1) 0
  have e11 := congrFun (congrFun hv 1) 1
  simp at e00 e01 e10 e11
  apply grid22_zero
  · linear_combination (1 / 21) * e00 + (2 / 7) * e01 + (2 / 7) * e10 + (8 / 21) * e11
  · linear_combination (2 / 7) * e00 + (1 / 21) * e01 + (8 / 21) * e10 + (2 / 7) * e11
  · linear_combination (2 / 7) * e00 + (8 / 21) * e01 + (1 / 21) * e10 + (2 / 7) * e11
  · linear_combination (8 / 21) * e00 + (2 / 7) * e01 + (2 / 7) * e10 + (1 / 21) * e11

end Angler
