import Verif.Lemmas.WellPosed

/-! # A sufficient condition for a nonsingular Hz system, with PML -/

namespace Angler

open Matrix

variable {Nx Ny : ℕ}

theorem inv_mul_flatten (a b : Grid Nx Ny ℂ) : (fun k => 1 / flatten a k * flatten b k) = flatten fun i j => 1 / a i j * b i j := rfl

theorem grid_average_smul (c : ℂ) (a : Grid Nx Ny ℂ) (w : Axis) (i : Fin Nx) (j : Fin Ny) : grid_average (fun i j => c * a i j) w i j = c * grid_average a w i j := by
  cases w <;> simp only [grid_average] <;> ring

/-- If the grid is coarse compared to the wavelength (in a medium whose averaged permittivities are at least `m`), the Hz system matrix is nonsingular. -/
theorem wellposed_Hz (s : Sim Nx Ny) (hv : s.Valid) (hp : s.pol = .Hz) (hd : 0 < s.dl) (hx : 1 < Nx) (hy : 1 < Ny) (m : ℝ) (hm : 0 < m)
    (hm' : ∀ w i j, m ≤ ‖grid_average s.eps_r w i j‖) (h : 8 / (EPSILON_0 * s.L0 * m * s.dl ^ 2) < s.omega ^ 2 * (MU_0 * s.L0)) : s.A.det ≠ 0 := by
  refine det_ne_zero_of_inj fun v hv0 => ?_
  rw [← flatten_unflatten (Nx := Nx) (Ny := Ny) v] at hv0 ⊢
  generalize (unflatten v : Grid Nx Ny ℂ) = f at hv0 ⊢
  rw [flatten_eq_zero]
  have hr := hv.range_lt hd (by omega) (by omega)
  have hfac : ∀ d i, ‖1 / create_sfactor s.xrange s.L0 d s.omega Nx s.NPML.1 i‖ ≤ 1 := fun d i =>
    (C10_pml_factors s.xrange hr.1 s.L0 s.omega hv.L0_pos hv.omega_pos d Nx s.NPML.1 i).2.2.2.1
  have hfay : ∀ d i, ‖1 / create_sfactor s.yrange s.L0 d s.omega Ny s.NPML.2 i‖ ≤ 1 := fun d i =>
    (C10_pml_factors s.yrange hr.2 s.L0 s.omega hv.L0_pos hv.omega_pos d Ny s.NPML.2 i).2.2.2.1
  have hE : (0 : ℝ) < EPSILON_0 * s.L0 := mul_pos EPSILON_0_pos hv.L0_pos
  have hM : (0 : ℝ) < MU_0 * s.L0 := mul_pos MU_0_pos hv.L0_pos
  rw [hv.A_eq, hp] at hv0
  simp only [construct_A, Matrix.add_mulVec, smul_mulVec, ← Matrix.mulVec_mulVec, Matrix.one_mulVec, if_true, mkDerivs_Dxb _ _ _ _ _ hx, mkDerivs_Dyb _ _ _ _ _ hy, spdiag_mulVec, inv_mul_flatten] at hv0
  simp only [mkDerivs_Dxf _ _ _ _ _ hx, mkDerivs_Dyf _ _ _ _ _ hy, hv.dL_eq (show 0 < Nx by omega) (show 0 < Ny by omega), grid_average_smul] at hv0
  have hinv : ∀ (w : Axis) (i : Fin Nx) (j : Fin Ny) (z : ℂ) (B : ℝ), ‖z‖ ≤ B → ‖1 / (((EPSILON_0 * s.L0 : ℝ) : ℂ) * grid_average s.eps_r w i j) * z‖ ≤ 1 / (EPSILON_0 * s.L0 * m) * B := by
    intro w i j z B hz
    have hB : 0 ≤ B := (norm_nonneg _).trans hz
    rw [norm_mul, norm_div, norm_one, norm_mul, Complex.norm_real, Real.norm_of_nonneg hE.le]
    have := hm' w i j
    gcongr
  have key : ∀ i j, s.omega ^ 2 * (MU_0 * s.L0) * ‖f i j‖ ≤ 8 / (EPSILON_0 * s.L0 * m * s.dl ^ 2) * ‖f‖ := by
    intro i j
    have hij := congrFun hv0 (finProdFinEquiv (i, j))
    simp only [Pi.add_apply, Pi.smul_apply, flatten_pair, smul_eq_mul, Pi.zero_apply] at hij
    set gx : Grid Nx Ny ℂ := fun i j => 1 / (((EPSILON_0 * s.L0 : ℝ) : ℂ) * grid_average s.eps_r .x i j) * (Spec.bwdX s.dl f i j / create_sfactor s.xrange s.L0 .b s.omega Nx s.NPML.1 i) with hgx
    set gy : Grid Nx Ny ℂ := fun i j => 1 / (((EPSILON_0 * s.L0 : ℝ) : ℂ) * grid_average s.eps_r .y i j) * (Spec.bwdY s.dl f i j / create_sfactor s.yrange s.L0 .b s.omega Ny s.NPML.2 j) with hgy
    have bx : ∀ i j, ‖gx i j‖ ≤ 1 / (EPSILON_0 * s.L0 * m) * (2 / s.dl * ‖f‖) := fun i j => hinv _ _ _ _ _ (norm_quot_le hd _ _ _ (norm_entry_le _ _ _) (norm_entry_le _ _ _) (hfac _ _))
    have by' : ∀ i j, ‖gy i j‖ ≤ 1 / (EPSILON_0 * s.L0 * m) * (2 / s.dl * ‖f‖) := fun i j => hinv _ _ _ _ _ (norm_quot_le hd _ _ _ (norm_entry_le _ _ _) (norm_entry_le _ _ _) (hfay _ _))
    have cx : ‖Spec.fwdX s.dl gx i j / create_sfactor s.xrange s.L0 .f s.omega Nx s.NPML.1 i‖ ≤ 2 / s.dl * (1 / (EPSILON_0 * s.L0 * m) * (2 / s.dl * ‖f‖)) :=
      norm_quot_le hd _ _ _ (bx _ _) (bx _ _) (hfac _ _)
    have cy : ‖Spec.fwdY s.dl gy i j / create_sfactor s.yrange s.L0 .f s.omega Ny s.NPML.2 j‖ ≤ 2 / s.dl * (1 / (EPSILON_0 * s.L0 * m) * (2 / s.dl * ‖f‖)) :=
      norm_quot_le hd _ _ _ (by' _ _) (by' _ _) (hfay _ _)
    generalize Spec.fwdX s.dl gx i j / create_sfactor s.xrange s.L0 .f s.omega Nx s.NPML.1 i = P at hij cx
    generalize Spec.fwdY s.dl gy i j / create_sfactor s.yrange s.L0 .f s.omega Ny s.NPML.2 j = Q at hij cy
    have e1 : ((s.omega ^ 2 * (MU_0 * s.L0) : ℝ) : ℂ) * f i j = -(P + Q) := by
      rw [← sub_eq_zero, ← hij]
      push_cast
      ring
    have e2 := congrArg norm e1
    have hw : 0 ≤ s.omega ^ 2 * (MU_0 * s.L0) := by positivity
    rw [norm_mul, Complex.norm_real, Real.norm_of_nonneg hw, norm_neg] at e2
    rw [e2]
    calc ‖P + Q‖ ≤ 2 / s.dl * (1 / (EPSILON_0 * s.L0 * m) * (2 / s.dl * ‖f‖)) + 2 / s.dl * (1 / (EPSILON_0 * s.L0 * m) * (2 / s.dl * ‖f‖)) :=
          (norm_add_le _ _).trans (add_le_add cx cy)
      _ = 8 / (EPSILON_0 * s.L0 * m * s.dl ^ 2) * ‖f‖ := by
        generalize EPSILON_0 * s.L0 = q at hE
        field_simp; ring
  by_contra hf
  have hpos : 0 < ‖f‖ := norm_pos_iff.2 hf
  obtain ⟨⟨i, j⟩, -, hij⟩ := Finset.exists_max_image (Finset.univ : Finset (Fin Nx × Fin Ny)) (fun p => ‖f p.1 p.2‖) ⟨(⟨0, by omega⟩, ⟨0, by omega⟩), Finset.mem_univ _⟩
  have hle : ‖f‖ ≤ ‖f i j‖ := (pi_norm_le_iff_of_nonneg (norm_nonneg _)).2 fun a => (pi_norm_le_iff_of_nonneg (norm_nonneg _)).2 fun b => hij (a, b) (Finset.mem_univ _)
  have hk := key i j
  have : s.omega ^ 2 * (MU_0 * s.L0) * ‖f‖ ≤ s.omega ^ 2 * (MU_0 * s.L0) * ‖f i j‖ := by gcongr
  nlinarith [mul_lt_mul_of_pos_right h hpos]

end Angler
