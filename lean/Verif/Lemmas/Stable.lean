import Verif.Lemmas.Solvers
import Verif.Lemmas.CoarseSim
import Verif.Props.Maxwell
import Verif.Props.Kerr
import Verif.Props.Units
import Mathlib.LinearAlgebra.Matrix.DotProduct

/-! # Bounds that make the linear systems nonsingular: loss everywhere, or a coarse grid -/

namespace Angler

open Matrix

variable {Nx Ny : ℕ}

/-! ## Loss everywhere -/

theorem star_dot_weighted {n : ℕ} (D : Mat n ℂ) (w v : Vec n ℂ) : star v ⬝ᵥ ((Dᴴ * spdiag w * D) *ᵥ v) = ∑ k, w k * ((‖(D *ᵥ v) k‖ ^ 2 : ℝ) : ℂ) := by
  have h : star v ⬝ᵥ ((Dᴴ * spdiag w * D) *ᵥ v) = star (D *ᵥ v) ⬝ᵥ (spdiag w *ᵥ (D *ᵥ v)) := by
    rw [← Matrix.mulVec_mulVec, ← Matrix.mulVec_mulVec, Matrix.dotProduct_mulVec, ← Matrix.star_mulVec]
  rw [h, spdiag_mulVec]
  unfold dotProduct
  refine Finset.sum_congr rfl fun k _ => ?_
  rw [Pi.star_apply, ← Complex.normSq_eq_norm_sq, Complex.normSq_eq_conj_mul_self]
  simp only [RCLike.star_def]
  ring

/-- Without layers the forward operators are minus the adjoints of the backward ones. -/
theorem mkDerivs_adjoint (hx : 1 < Nx) (hy : 1 < Ny) (omega L0 : ℝ) (xr yr : ℝ × ℝ) :
    let D := mkDerivs omega xr yr Nx Ny (0, 0) L0
    D.Dxf = -(D.Dxb)ᴴ ∧ D.Dyf = -(D.Dyb)ᴴ := by
  intro D
  have h1 : ∀ (w : ℝ × ℝ) (d : Dir) (N : ℕ) (i : Fin N), create_sfactor w L0 d omega N 0 i = 1 := fun w d N i => by simp [create_sfactor]
  have hone : (spdiag (flatten fun (_ : Fin Nx) (_ : Fin Ny) => (1 : ℂ)) : Mat (Nx * Ny) ℂ) = 1 := Matrix.diagonal_one
  obtain ⟨tx, ty⟩ := C09_negative_transpose (Nx := Nx) (Ny := Ny) (dL Nx Ny xr yr).1 (dL Nx Ny xr yr).2
  have cc : ∀ w, (createDws w .b (dL Nx Ny xr yr).1 (dL Nx Ny xr yr).2 Nx Ny)ᴴ = (createDws w .b (dL Nx Ny xr yr).1 (dL Nx Ny xr yr).2 Nx Ny)ᵀ := fun w => by
    ext r c; simpa [Matrix.conjTranspose_apply] using createDws_real w .b _ _ c r
  constructor
  · simp only [D, mkDerivs, S_create, h1, div_one, hone, Matrix.one_mul, cc, tx hx]
  · simp only [D, mkDerivs, S_create, h1, div_one, hone, Matrix.one_mul, cc, ty hy]

/-- If the permittivity `ε + e` has loss everywhere (or gain everywhere), the Ez system without layers is nonsingular, however fine the grid. -/
theorem lossy_Ez (s : Sim Nx Ny) (hv : s.Valid) (hp : s.pol = .Ez) (hP : s.NPML = (0, 0)) (hx : 1 < Nx) (hy : 1 < Ny) (e : Grid Nx Ny ℂ) (τ : ℝ)
    (h : ∀ i j, 0 < τ * (s.eps_r i j + e i j).im) : (s.A + spdiag fun k => ((s.omega ^ 2 * EPSILON_0 * s.L0 : ℝ) : ℂ) * flatten e k).det ≠ 0 := by
  refine det_ne_zero_of_inj fun v hv0 => ?_
  obtain ⟨ax, ay⟩ := mkDerivs_adjoint (Nx := Nx) (Ny := Ny) hx hy s.omega s.L0 s.xrange s.yrange
  have hc : 0 < s.omega ^ 2 * EPSILON_0 * s.L0 := by have := EPSILON_0_pos; have := hv.L0_pos; have := hv.omega_pos; positivity
  have hM : 0 < MU_0 * s.L0 := mul_pos MU_0_pos hv.L0_pos
  have h0 : star v ⬝ᵥ ((s.A + spdiag fun k => ((s.omega ^ 2 * EPSILON_0 * s.L0 : ℝ) : ℂ) * flatten e k) *ᵥ v) = 0 := by rw [hv0, dotProduct_zero]
  rw [hv.A_eq, hp, hP] at h0
  simp only [construct_A] at h0
  rw [ax, ay] at h0
  have w1 : ∀ D : Mat (Nx * Ny) ℂ, -Dᴴ * D = -(Dᴴ * spdiag (fun _ => 1) * D) := fun D => by
    rw [show (spdiag (fun _ => 1) : Mat (Nx * Ny) ℂ) = 1 from Matrix.diagonal_one, Matrix.mul_one, Matrix.neg_mul]
  have w2 : ∀ w : Vec (Nx * Ny) ℂ, spdiag w = (1 : Mat (Nx * Ny) ℂ)ᴴ * spdiag w * 1 := fun w => by rw [Matrix.conjTranspose_one, Matrix.one_mul, Matrix.mul_one]
  rw [w1, w1, w2 (fun k => ((EPSILON_0 * s.L0 : ℝ) : ℂ) * flatten s.eps_r k), w2 (fun k => ((s.omega ^ 2 * EPSILON_0 * s.L0 : ℝ) : ℂ) * flatten e k)] at h0
  simp only [Matrix.add_mulVec, smul_mulVec, Matrix.neg_mulVec, smul_neg, dotProduct_add, dotProduct_neg, dotProduct_smul, star_dot_weighted, Matrix.one_mulVec, one_mul, smul_eq_mul] at h0
  rw [← Complex.ofReal_sum, ← Complex.ofReal_sum] at h0
  generalize (∑ k, ‖((mkDerivs s.omega s.xrange s.yrange Nx Ny (0, 0) s.L0).Dxb *ᵥ v) k‖ ^ 2) = P at h0
  generalize (∑ k, ‖((mkDerivs s.omega s.xrange s.yrange Nx Ny (0, 0) s.L0).Dyb *ᵥ v) k‖ ^ 2) = Q at h0
  have h1 : ((1 / (MU_0 * s.L0) * (P + Q) : ℝ) : ℂ) = ∑ k, ((s.omega ^ 2 * EPSILON_0 * s.L0 : ℝ) : ℂ) * ((flatten s.eps_r k + flatten e k) * ((‖v k‖ ^ 2 : ℝ) : ℂ)) := by
    rw [Finset.mul_sum] at h0
    rw [← sub_eq_zero, ← neg_eq_zero, ← h0]
    simp only [mul_add, add_mul, Finset.sum_add_distrib]
    push_cast
    simp only [mul_assoc]
    ring
  have him := congrArg Complex.im h1
  rw [Complex.ofReal_im, Complex.im_sum] at him
  have hnn : ∀ k ∈ (Finset.univ : Finset (Fin (Nx * Ny))), 0 ≤ τ * (((s.omega ^ 2 * EPSILON_0 * s.L0 : ℝ) : ℂ) * ((flatten s.eps_r k + flatten e k) * ((‖v k‖ ^ 2 : ℝ) : ℂ))).im := fun k _ => by
    rw [Complex.im_ofReal_mul, Complex.im_mul_ofReal]
    have := h (finProdFinEquiv.symm k).1 (finProdFinEquiv.symm k).2
    have e3 : τ * ((s.omega ^ 2 * EPSILON_0 * s.L0) * ((flatten s.eps_r k + flatten e k).im * ‖v k‖ ^ 2)) = (s.omega ^ 2 * EPSILON_0 * s.L0) * (τ * (flatten s.eps_r k + flatten e k).im) * ‖v k‖ ^ 2 := by ring
    rw [e3]
    exact mul_nonneg (mul_nonneg hc.le this.le) (sq_nonneg _)
  have hz := (Finset.sum_eq_zero_iff_of_nonneg hnn).1 (by rw [← Finset.mul_sum, ← him, mul_zero])
  funext k
  have hk := hz k (Finset.mem_univ _)
  rw [Complex.im_ofReal_mul, Complex.im_mul_ofReal] at hk
  have hne : τ * (flatten s.eps_r k + flatten e k).im ≠ 0 := (h (finProdFinEquiv.symm k).1 (finProdFinEquiv.symm k).2).ne'
  have e4 : (s.omega ^ 2 * EPSILON_0 * s.L0) * (τ * (flatten s.eps_r k + flatten e k).im) * ‖v k‖ ^ 2 = 0 := by rw [← hk]; ring
  rcases mul_eq_zero.1 e4 with h5 | h5
  · exact absurd h5 (mul_ne_zero hc.ne' hne)
  · simpa using h5

/-- The same for Hz: the averaged permittivity has loss everywhere; a further term `e` on the diagonal may have loss too. -/
theorem lossy_Hz (s : Sim Nx Ny) (hv : s.Valid) (hp : s.pol = .Hz) (hP : s.NPML = (0, 0)) (hx : 1 < Nx) (hy : 1 < Ny) (e : Grid Nx Ny ℂ) (τ : ℝ)
    (h : ∀ i j, 0 < τ * (s.eps_r i j).im) (he : ∀ i j, 0 ≤ τ * (e i j).im) (her : ∀ i j, 0 ≤ (e i j).re) : (s.A + spdiag fun k => ((s.omega ^ 2 * EPSILON_0 * s.L0 : ℝ) : ℂ) * flatten e k).det ≠ 0 := by
  refine det_ne_zero_of_inj fun v hv0 => ?_
  obtain ⟨ax, ay⟩ := mkDerivs_adjoint (Nx := Nx) (Ny := Ny) hx hy s.omega s.L0 s.xrange s.yrange
  have hc : 0 < s.omega ^ 2 * EPSILON_0 * s.L0 := by have := EPSILON_0_pos; have := hv.L0_pos; have := hv.omega_pos; positivity
  have hM : 0 < s.omega ^ 2 * (MU_0 * s.L0) := mul_pos (pow_pos hv.omega_pos 2) (mul_pos MU_0_pos hv.L0_pos)
  have hE : 0 < EPSILON_0 * s.L0 := mul_pos EPSILON_0_pos hv.L0_pos
  have h0 : star v ⬝ᵥ ((s.A + spdiag fun k => ((s.omega ^ 2 * EPSILON_0 * s.L0 : ℝ) : ℂ) * flatten e k) *ᵥ v) = 0 := by rw [hv0, dotProduct_zero]
  rw [hv.A_eq, hp, hP] at h0 hv0
  simp only [construct_A, if_true] at h0 hv0
  rw [ax, ay] at h0
  set D := mkDerivs s.omega s.xrange s.yrange Nx Ny (0, 0) s.L0
  set ex := flatten (grid_average (fun i j => ((EPSILON_0 * s.L0 : ℝ) : ℂ) * s.eps_r i j) .x) with hex
  set ey := flatten (grid_average (fun i j => ((EPSILON_0 * s.L0 : ℝ) : ℂ) * s.eps_r i j) .y) with hey
  have avg : ∀ a b : ℂ, 0 < τ * a.im → 0 < τ * b.im → 0 < τ * (((EPSILON_0 * s.L0 : ℝ) : ℂ) * ((a + b) / 2)).im := by
    intro a b ha hb
    have e1 : (((EPSILON_0 * s.L0 : ℝ) : ℂ) * ((a + b) / 2)).im = EPSILON_0 * s.L0 * ((a.im + b.im) / 2) := by
      rw [Complex.im_ofReal_mul, show (2 : ℂ) = ((2 : ℝ) : ℂ) by norm_num, Complex.div_ofReal_im, Complex.add_im]
    rw [e1, show τ * (EPSILON_0 * s.L0 * ((a.im + b.im) / 2)) = EPSILON_0 * s.L0 * ((τ * a.im + τ * b.im) / 2) by ring]
    exact mul_pos hE (by linarith)
  have ix : ∀ k, 0 < τ * (ex k).im := by
    intro k
    rw [hex, ← edgeX_eq]
    exact avg _ _ (h _ _) (h _ _)
  have iy : ∀ k, 0 < τ * (ey k).im := by
    intro k
    rw [hey, ← edgeY_eq]
    exact avg _ _ (h _ _) (h _ _)
  have w2 : ∀ w : Vec (Nx * Ny) ℂ, spdiag w = (1 : Mat (Nx * Ny) ℂ)ᴴ * spdiag w * 1 := fun w => by rw [Matrix.conjTranspose_one, Matrix.one_mul, Matrix.mul_one]
  have w3 : (1 : Mat (Nx * Ny) ℂ) = (1 : Mat (Nx * Ny) ℂ)ᴴ * spdiag (fun _ => 1) * 1 := by rw [← w2]; exact Matrix.diagonal_one.symm
  rw [w2 (fun k => ((s.omega ^ 2 * EPSILON_0 * s.L0 : ℝ) : ℂ) * flatten e k)] at h0
  have h1 : star v ⬝ᵥ ((((s.omega : ℂ) ^ 2 * ((MU_0 * s.L0 : ℝ) : ℂ)) • (1 : Mat (Nx * Ny) ℂ)) *ᵥ v) = ((s.omega ^ 2 * (MU_0 * s.L0) * ∑ k, ‖v k‖ ^ 2 : ℝ) : ℂ) := by
    rw [smul_mulVec, dotProduct_smul, w3, star_dot_weighted]
    simp only [Matrix.one_mulVec, one_mul, smul_eq_mul]
    push_cast
    rfl
  simp only [Matrix.add_mulVec, Matrix.neg_mul, Matrix.neg_mulVec, dotProduct_add, dotProduct_neg, h1, star_dot_weighted, Matrix.one_mulVec] at h0
  have him := congrArg Complex.im h0
  simp only [Complex.add_im, Complex.neg_im, Complex.im_sum, Complex.im_mul_ofReal, Complex.ofReal_im, add_zero, Complex.im_ofReal_mul, Complex.zero_im] at him
  have inv : ∀ z : ℂ, 0 < τ * z.im → 0 < τ * -(1 / z).im := by
    intro z hz
    have hz0 : z ≠ 0 := by rintro rfl; simp at hz
    rw [one_div, Complex.inv_im, neg_div, neg_neg, ← mul_div_assoc]
    exact div_pos hz (Complex.normSq_pos.2 hz0)
  have sx : ∀ k ∈ (Finset.univ : Finset (Fin (Nx * Ny))), 0 ≤ τ * -(1 / ex k).im * ‖(D.Dxb *ᵥ v) k‖ ^ 2 := fun k _ => mul_nonneg (inv _ (ix k)).le (sq_nonneg _)
  have sy : ∀ k ∈ (Finset.univ : Finset (Fin (Nx * Ny))), 0 ≤ τ * -(1 / ey k).im * ‖(D.Dyb *ᵥ v) k‖ ^ 2 := fun k _ => mul_nonneg (inv _ (iy k)).le (sq_nonneg _)
  have se : ∀ k ∈ (Finset.univ : Finset (Fin (Nx * Ny))), 0 ≤ τ * (s.omega ^ 2 * EPSILON_0 * s.L0 * (flatten e k).im) * ‖v k‖ ^ 2 := fun k _ => by
    have := he (finProdFinEquiv.symm k).1 (finProdFinEquiv.symm k).2
    refine mul_nonneg ?_ (sq_nonneg _)
    rw [show τ * (s.omega ^ 2 * EPSILON_0 * s.L0 * (flatten e k).im) = s.omega ^ 2 * EPSILON_0 * s.L0 * (τ * (flatten e k).im) by ring]
    exact mul_nonneg hc.le this
  have tot : ∑ k, τ * -(1 / ex k).im * ‖(D.Dxb *ᵥ v) k‖ ^ 2 + ∑ k, τ * -(1 / ey k).im * ‖(D.Dyb *ᵥ v) k‖ ^ 2 +
      ∑ k, τ * (s.omega ^ 2 * EPSILON_0 * s.L0 * (flatten e k).im) * ‖v k‖ ^ 2 = 0 := by
    simp only [mul_assoc τ, neg_mul, ← Finset.mul_sum, Finset.sum_neg_distrib]
    rw [← mul_add, ← mul_add, him, mul_zero]
  have px := Finset.sum_nonneg sx
  have py := Finset.sum_nonneg sy
  have pe := Finset.sum_nonneg se
  have zx := (Finset.sum_eq_zero_iff_of_nonneg sx).1 (by linarith)
  have zy := (Finset.sum_eq_zero_iff_of_nonneg sy).1 (by linarith)
  have dx : D.Dxb *ᵥ v = 0 := by
    funext k
    rcases mul_eq_zero.1 (zx k (Finset.mem_univ _)) with h5 | h5
    · exact absurd h5 (inv _ (ix k)).ne'
    · simpa using h5
  have dy : D.Dyb *ᵥ v = 0 := by
    funext k
    rcases mul_eq_zero.1 (zy k (Finset.mem_univ _)) with h5 | h5
    · exact absurd h5 (inv _ (iy k)).ne'
    · simpa using h5
  simp only [Matrix.add_mulVec, ← Matrix.mulVec_mulVec, dx, dy, Matrix.mulVec_zero, zero_add, smul_mulVec, Matrix.one_mulVec, spdiag_mulVec] at hv0
  funext k
  have hk : ((s.omega : ℂ) ^ 2 * ((MU_0 * s.L0 : ℝ) : ℂ)) * v k + ((s.omega ^ 2 * EPSILON_0 * s.L0 : ℝ) : ℂ) * flatten e k * v k = 0 := congrFun hv0 k
  have hfac : (s.omega : ℂ) ^ 2 * ((MU_0 * s.L0 : ℝ) : ℂ) + ((s.omega ^ 2 * EPSILON_0 * s.L0 : ℝ) : ℂ) * flatten e k ≠ 0 := by
    intro hz
    have hre := congrArg Complex.re hz
    rw [← Complex.ofReal_pow, ← Complex.ofReal_mul, Complex.add_re, Complex.ofReal_re, Complex.re_ofReal_mul, Complex.zero_re] at hre
    have := her (finProdFinEquiv.symm k).1 (finProdFinEquiv.symm k).2
    have h6 : 0 ≤ s.omega ^ 2 * EPSILON_0 * s.L0 * (flatten e k).re := mul_nonneg hc.le this
    linarith
  rw [← add_mul] at hk
  exact (mul_eq_zero.1 hk).resolve_left hfac

/-! ## Coarse grids -/

/-- The largest entry of a grid. -/
theorem exists_norm_entry (hx : 0 < Nx) (hy : 0 < Ny) (f : Grid Nx Ny ℂ) : ∃ i j, ‖f i j‖ = ‖f‖ := by
  obtain ⟨⟨i, j⟩, -, hij⟩ := Finset.exists_max_image (Finset.univ : Finset (Fin Nx × Fin Ny)) (fun p => ‖f p.1 p.2‖) ⟨(⟨0, hx⟩, ⟨0, hy⟩), Finset.mem_univ _⟩
  exact ⟨i, j, le_antisymm (norm_entry_le _ _ _)
    ((pi_norm_le_iff_of_nonneg (norm_nonneg _)).2 fun a => (pi_norm_le_iff_of_nonneg (norm_nonneg _)).2 fun b => hij (a, b) (Finset.mem_univ _))⟩

/-- A bound on solutions, with layers or without: if at every pixel the permittivity term plus a further term `g` is at least `m` times the field, the field is at most `1/(m - 8/(μ dl²))` times the
right-hand side. -/
theorem stable_Ez (s : Sim Nx Ny) (hv : s.Valid) (hp : s.pol = .Ez) (hd : 0 < s.dl) (hx : 1 < Nx) (hy : 1 < Ny) (f g b : Grid Nx Ny ℂ) (m : ℝ)
    (hg : ∀ i j, m * ‖f i j‖ ≤ ‖((s.omega ^ 2 * EPSILON_0 * s.L0 : ℝ) : ℂ) * s.eps_r i j * f i j + g i j‖) (h0 : s.A *ᵥ flatten f + flatten g = flatten b) :
    (m - 8 / (MU_0 * s.L0 * s.dl ^ 2)) * ‖f‖ ≤ ‖b‖ := by
  have hr := hv.range_lt hd (by omega) (by omega)
  have hfac : ∀ d i, ‖1 / create_sfactor s.xrange s.L0 d s.omega Nx s.NPML.1 i‖ ≤ 1 := fun d i =>
    (C10_pml_factors s.xrange hr.1 s.L0 s.omega hv.L0_pos hv.omega_pos d Nx s.NPML.1 i).2.2.2.1
  have hfay : ∀ d i, ‖1 / create_sfactor s.yrange s.L0 d s.omega Ny s.NPML.2 i‖ ≤ 1 := fun d i =>
    (C10_pml_factors s.yrange hr.2 s.L0 s.omega hv.L0_pos hv.omega_pos d Ny s.NPML.2 i).2.2.2.1
  have hM : (0 : ℝ) < MU_0 * s.L0 := mul_pos MU_0_pos hv.L0_pos
  rw [hv.A_eq, hp] at h0
  simp only [construct_A, Matrix.add_mulVec, smul_mulVec, ← Matrix.mulVec_mulVec, mkDerivs_Dxb _ _ _ _ _ hx, mkDerivs_Dyb _ _ _ _ _ hy,
    mkDerivs_Dxf _ _ _ _ _ hx, mkDerivs_Dyf _ _ _ _ _ hy, spdiag_mulVec, hv.dL_eq (show 0 < Nx by omega) (show 0 < Ny by omega)] at h0
  obtain ⟨i, j, hij0⟩ := exists_norm_entry (by omega) (by omega) f
  have hij := congrFun h0 (finProdFinEquiv (i, j))
  simp only [Pi.add_apply, Pi.smul_apply, flatten_pair, smul_eq_mul] at hij
  set gx : Grid Nx Ny ℂ := fun i j => Spec.bwdX s.dl f i j / create_sfactor s.xrange s.L0 .b s.omega Nx s.NPML.1 i with hgx
  set gy : Grid Nx Ny ℂ := fun i j => Spec.bwdY s.dl f i j / create_sfactor s.yrange s.L0 .b s.omega Ny s.NPML.2 j with hgy
  have bx : ∀ i j, ‖gx i j‖ ≤ 2 / s.dl * ‖f‖ := fun i j => norm_quot_le hd _ _ _ (norm_entry_le _ _ _) (norm_entry_le _ _ _) (hfac _ _)
  have by' : ∀ i j, ‖gy i j‖ ≤ 2 / s.dl * ‖f‖ := fun i j => norm_quot_le hd _ _ _ (norm_entry_le _ _ _) (norm_entry_le _ _ _) (hfay _ _)
  have cx : ‖Spec.fwdX s.dl gx i j / create_sfactor s.xrange s.L0 .f s.omega Nx s.NPML.1 i‖ ≤ 2 / s.dl * (2 / s.dl * ‖f‖) :=
    norm_quot_le hd _ _ _ (bx _ _) (bx _ _) (hfac _ _)
  have cy : ‖Spec.fwdY s.dl gy i j / create_sfactor s.yrange s.L0 .f s.omega Ny s.NPML.2 j‖ ≤ 2 / s.dl * (2 / s.dl * ‖f‖) :=
    norm_quot_le hd _ _ _ (by' _ _) (by' _ _) (hfay _ _)
  generalize Spec.fwdX s.dl gx i j / create_sfactor s.xrange s.L0 .f s.omega Nx s.NPML.1 i = P at hij cx
  generalize Spec.fwdY s.dl gy i j / create_sfactor s.yrange s.L0 .f s.omega Ny s.NPML.2 j = Q at hij cy
  have e1 : ((s.omega ^ 2 * EPSILON_0 * s.L0 : ℝ) : ℂ) * s.eps_r i j * f i j + g i j = b i j + -(1 / ((MU_0 * s.L0 : ℝ) : ℂ) * (P + Q)) := by
    rw [← sub_eq_zero, ← sub_eq_zero.2 hij]
    push_cast
    ring
  have e2 := hg i j
  rw [e1, hij0] at e2
  have e3 : ‖-(1 / ((MU_0 * s.L0 : ℝ) : ℂ) * (P + Q))‖ ≤ 8 / (MU_0 * s.L0 * s.dl ^ 2) * ‖f‖ := by
    rw [norm_neg, norm_mul, norm_div, norm_one, Complex.norm_real, Real.norm_of_nonneg hM.le]
    calc 1 / (MU_0 * s.L0) * ‖P + Q‖ ≤ 1 / (MU_0 * s.L0) * (2 / s.dl * (2 / s.dl * ‖f‖) + 2 / s.dl * (2 / s.dl * ‖f‖)) := by
          gcongr
          exact (norm_add_le _ _).trans (add_le_add cx cy)
      _ = 8 / (MU_0 * s.L0 * s.dl ^ 2) * ‖f‖ := by field_simp; ring
  have e4 := norm_add_le (b i j) (-(1 / ((MU_0 * s.L0 : ℝ) : ℂ) * (P + Q)))
  have e5 := norm_entry_le b i j
  linarith

end Angler
