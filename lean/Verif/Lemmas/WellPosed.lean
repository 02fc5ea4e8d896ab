import Verif.Lemmas.Witness
import Verif.Props.Pml
import Mathlib.Analysis.Normed.Group.Constructions

/-! # A sufficient condition for a nonsingular system, with PML -/

namespace Angler

open Matrix

variable {Nx Ny : ℕ}

theorem norm_entry_le (f : Grid Nx Ny ℂ) (i : Fin Nx) (j : Fin Ny) : ‖f i j‖ ≤ ‖f‖ :=
  (norm_le_pi_norm (f i) j).trans (norm_le_pi_norm f i)

/-- A difference quotient divided by a PML factor is at most `2/h` times the size of the field. -/
theorem norm_quot_le {h : ℝ} (hh : 0 < h) (a b s : ℂ) {M : ℝ} (ha : ‖a‖ ≤ M) (hb : ‖b‖ ≤ M) (hs : ‖1 / s‖ ≤ 1) : ‖(a - b) / (h : ℂ) / s‖ ≤ 2 / h * M := by
  have h1 : ‖a - b‖ ≤ 2 * M := (norm_sub_le a b).trans (by linarith)
  have h2 : ‖(a - b) / (h : ℂ)‖ ≤ 2 / h * M := by
    rw [norm_div, Complex.norm_real, Real.norm_of_nonneg hh.le, div_le_iff₀ hh]
    calc ‖a - b‖ ≤ 2 * M := h1
      _ = 2 / h * M * h := by field_simp
  calc ‖(a - b) / (h : ℂ) / s‖ = ‖(a - b) / (h : ℂ)‖ * ‖1 / s‖ := by rw [← norm_mul]; congr 1; ring
    _ ≤ ‖(a - b) / (h : ℂ)‖ * 1 := by gcongr
    _ ≤ 2 / h * M := by rw [mul_one]; exact h2

/-- If the grid is coarse compared to the wavelength the system matrix (with any added permittivity) is nonsingular. -/
theorem wellposed_Ez (s : Sim Nx Ny) (hv : s.Valid) (hp : s.pol = .Ez) (hd : 0 < s.dl) (hx : 1 < Nx) (hy : 1 < Ny) (e : Grid Nx Ny ℂ)
    (h : ∀ i j, 8 / (MU_0 * s.L0 * s.dl ^ 2) < s.omega ^ 2 * EPSILON_0 * s.L0 * ‖s.eps_r i j + e i j‖) :
    (s.A + spdiag fun k => ((s.omega ^ 2 * EPSILON_0 * s.L0 : ℝ) : ℂ) * flatten e k).det ≠ 0 := by
  refine det_ne_zero_of_inj fun v hv0 => ?_
  rw [← flatten_unflatten (Nx := Nx) (Ny := Ny) v] at hv0 ⊢
  generalize (unflatten v : Grid Nx Ny ℂ) = f at hv0 ⊢
  rw [flatten_eq_zero]
  have hr := hv.range_lt hd (by omega) (by omega)
  have hfac : ∀ d i, ‖1 / create_sfactor s.xrange s.L0 d s.omega Nx s.NPML.1 i‖ ≤ 1 := fun d i =>
    (C10_pml_factors s.xrange hr.1 s.L0 s.omega hv.L0_pos hv.omega_pos d Nx s.NPML.1 i).2.2.2.1
  have hfay : ∀ d i, ‖1 / create_sfactor s.yrange s.L0 d s.omega Ny s.NPML.2 i‖ ≤ 1 := fun d i =>
    (C10_pml_factors s.yrange hr.2 s.L0 s.omega hv.L0_pos hv.omega_pos d Ny s.NPML.2 i).2.2.2.1
  have hM : (0 : ℝ) < MU_0 * s.L0 := mul_pos MU_0_pos hv.L0_pos
  rw [hv.A_eq, hp] at hv0
  simp only [construct_A, Matrix.add_mulVec, smul_mulVec, ← Matrix.mulVec_mulVec, mkDerivs_Dxb _ _ _ _ _ hx, mkDerivs_Dyb _ _ _ _ _ hy,
    mkDerivs_Dxf _ _ _ _ _ hx, mkDerivs_Dyf _ _ _ _ _ hy, spdiag_mulVec, hv.dL_eq (show 0 < Nx by omega) (show 0 < Ny by omega)] at hv0
  have key : ∀ i j, s.omega ^ 2 * EPSILON_0 * s.L0 * ‖s.eps_r i j + e i j‖ * ‖f i j‖ ≤ 8 / (MU_0 * s.L0 * s.dl ^ 2) * ‖f‖ := by
    intro i j
    have hij := congrFun hv0 (finProdFinEquiv (i, j))
    simp only [Pi.add_apply, Pi.smul_apply, flatten_pair, smul_eq_mul, Pi.zero_apply] at hij
    set gx : Grid Nx Ny ℂ := fun i j => Spec.bwdX s.dl f i j / create_sfactor s.xrange s.L0 .b s.omega Nx s.NPML.1 i with hgx
    set gy : Grid Nx Ny ℂ := fun i j => Spec.bwdY s.dl f i j / create_sfactor s.yrange s.L0 .b s.omega Ny s.NPML.2 j with hgy
    have bx : ∀ i j, ‖gx i j‖ ≤ 2 / s.dl * ‖f‖ := fun i j => norm_quot_le hd _ _ _ (norm_entry_le _ _ _) (norm_entry_le _ _ _) (hfac _ _)
    have by' : ∀ i j, ‖gy i j‖ ≤ 2 / s.dl * ‖f‖ := fun i j => norm_quot_le hd _ _ _ (norm_entry_le _ _ _) (norm_entry_le _ _ _) (hfay _ _)
    have cx : ‖Spec.fwdX s.dl gx i j / create_sfactor s.xrange s.L0 .f s.omega Nx s.NPML.1 i‖ ≤ 2 / s.dl * (2 / s.dl * ‖f‖) :=
      norm_quot_le hd _ _ _ (bx _ _) (bx _ _) (hfac _ _)
    have cy : ‖Spec.fwdY s.dl gy i j / create_sfactor s.yrange s.L0 .f s.omega Ny s.NPML.2 j‖ ≤ 2 / s.dl * (2 / s.dl * ‖f‖) :=
      norm_quot_le hd _ _ _ (by' _ _) (by' _ _) (hfay _ _)
    generalize Spec.fwdX s.dl gx i j / create_sfactor s.xrange s.L0 .f s.omega Nx s.NPML.1 i = P at hij cx
    generalize Spec.fwdY s.dl gy i j / create_sfactor s.yrange s.L0 .f s.omega Ny s.NPML.2 j = Q at hij cy
    have e1 : ((s.omega ^ 2 * EPSILON_0 * s.L0 : ℝ) : ℂ) * (s.eps_r i j + e i j) * f i j = -(1 / ((MU_0 * s.L0 : ℝ) : ℂ) * (P + Q)) := by
      rw [← sub_eq_zero, ← hij]
      push_cast
      ring
    have e2 := congrArg norm e1
    have hw : 0 ≤ s.omega ^ 2 * EPSILON_0 * s.L0 := by have := EPSILON_0_pos; have := hv.L0_pos; positivity
    rw [norm_mul, norm_mul, Complex.norm_real, Real.norm_of_nonneg hw, norm_neg, norm_mul, norm_div, norm_one, Complex.norm_real, Real.norm_of_nonneg hM.le] at e2
    rw [e2]
    calc 1 / (MU_0 * s.L0) * ‖P + Q‖ ≤ 1 / (MU_0 * s.L0) * (2 / s.dl * (2 / s.dl * ‖f‖) + 2 / s.dl * (2 / s.dl * ‖f‖)) := by
          gcongr
          exact (norm_add_le _ _).trans (add_le_add cx cy)
      _ = 8 / (MU_0 * s.L0 * s.dl ^ 2) * ‖f‖ := by field_simp; ring
  by_contra hf
  have hpos : 0 < ‖f‖ := norm_pos_iff.2 hf
  have : ‖f‖ ≤ 0 := by
    by_contra hc
    -- a largest entry
    obtain ⟨⟨i, j⟩, -, hij⟩ := Finset.exists_max_image (Finset.univ : Finset (Fin Nx × Fin Ny)) (fun p => ‖f p.1 p.2‖) ⟨(⟨0, by omega⟩, ⟨0, by omega⟩), Finset.mem_univ _⟩
    have hle : ‖f‖ ≤ ‖f i j‖ := (pi_norm_le_iff_of_nonneg (norm_nonneg _)).2 fun a => (pi_norm_le_iff_of_nonneg (norm_nonneg _)).2 fun b => hij (a, b) (Finset.mem_univ _)
    have hk := key i j
    have hs := h i j
    have : s.omega ^ 2 * EPSILON_0 * s.L0 * ‖s.eps_r i j + e i j‖ * ‖f‖ ≤ s.omega ^ 2 * EPSILON_0 * s.L0 * ‖s.eps_r i j + e i j‖ * ‖f i j‖ := by
      have := EPSILON_0_pos; have := hv.L0_pos
      gcongr
    nlinarith [mul_lt_mul_of_pos_right hs hpos]
  linarith

end Angler
