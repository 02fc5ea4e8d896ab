import Verif.Lemmas.NewtonWitness

/-! # The Kerr witness at arbitrary fields: the Born matrix and the Jacobian are nonsingular -/

namespace Angler

open Matrix

/-- A pixel whose own term outweighs its neighbours. -/
theorem torus_dominant (f L : Grid 2 2 ℂ) (hL : ∀ i j, 6 * ‖f i j‖ ≤ ‖L i j‖) (h : ∀ i j, L i j + 2 * f (1 - i) j + 2 * f i (1 - j) = 0) : f = 0 := by
  obtain ⟨⟨i, j⟩, -, hm⟩ := Finset.exists_max_image (Finset.univ : Finset (Fin 2 × Fin 2)) (fun p => ‖f p.1 p.2‖) ⟨(0, 0), Finset.mem_univ _⟩
  have h1 : L i j = -(2 * f (1 - i) j + 2 * f i (1 - j)) := by linear_combination h i j
  have h2 : ‖L i j‖ ≤ 2 * ‖f (1 - i) j‖ + 2 * ‖f i (1 - j)‖ := by
    rw [h1, norm_neg]
    refine (norm_add_le _ _).trans (le_of_eq ?_)
    rw [norm_mul, norm_mul]
    simp
  have h3 := hm (1 - i, j) (Finset.mem_univ _)
  have h4 := hm (i, 1 - j) (Finset.mem_univ _)
  have h5 := hL i j
  simp only at h3 h4
  have h6 : ‖f i j‖ ≤ 0 := by linarith
  funext k l
  have h7 := hm (k, l) (Finset.mem_univ _)
  simp only at h7
  exact norm_le_zero_iff.1 (h7.trans h6)

theorem psim_bornMat_det_all (src F : Grid 2 2 ℂ) : (bornMat (psim src) F).det ≠ 0 := by
  refine det_ne_zero_of_inj fun v hv => ?_
  rw [← flatten_unflatten (Nx := 2) (Ny := 2) v] at hv ⊢
  generalize (unflatten v : Grid 2 2 ℂ) = f at hv ⊢
  rw [psim_bornMat, flatten_eq_zero] at hv
  rw [flatten_eq_zero]
  refine torus_dominant f (fun i j => ((6 + 10 * ‖F i j‖ ^ 2 : ℝ) : ℂ) * f i j) (fun i j => ?_) fun i j => ?_
  · rw [norm_mul, Complex.norm_real, Real.norm_eq_abs, abs_of_nonneg (by positivity)]
    exact mul_le_mul_of_nonneg_right (by nlinarith [sq_nonneg ‖F i j‖]) (norm_nonneg _)
  · have := congrFun (congrFun hv i) j
    simp only [Pi.zero_apply] at this
    rw [← this]
    push_cast
    ring

theorem psim_jac_det_all (src F : Grid 2 2 ℂ) : (Areal (nl_eq_and_jac (psim src) F).1.2.1 (nl_eq_and_jac (psim src) F).1.2.2).det ≠ 0 := by
  rw [Areal_det_ne_zero_iff]
  intro x hx
  rw [← flatten_unflatten (Nx := 2) (Ny := 2) x] at hx ⊢
  generalize (unflatten x : Grid 2 2 ℂ) = f at hx ⊢
  rw [flatten_eq_zero]
  have hA : (psim src).A = (wsim .Ez (fun _ _ => 10) src).A := rfl
  have hpix : ∀ i j, 2 * (f (1 - i) j - f i j) + 2 * (f i (1 - j) - f i j) + (10 + 20 * (F i j * (starRingEnd ℂ) (F i j))) * f i j + 10 * F i j ^ 2 * (starRingEnd ℂ) (f i j) = 0 := by
    intro i j
    have h : ((nl_eq_and_jac (psim src) F).1.2.1 *ᵥ flatten f) (finProdFinEquiv (i, j)) +
        ((nl_eq_and_jac (psim src) F).1.2.2 *ᵥ flatten fun i j => (starRingEnd ℂ) (f i j)) (finProdFinEquiv (i, j)) = 0 := congrFun hx (finProdFinEquiv (i, j))
    rw [nl_jac11, nl_jac12, hA, wsim_Ez_apply] at h
    simp only [flatten_pair, psim_sum, unit_coef (psim src) rfl rfl, map_ofNat] at h
    rw [← h]
    ring
  refine torus_dominant f (fun i j => ((6 + 20 * ‖F i j‖ ^ 2 : ℝ) : ℂ) * f i j + 10 * F i j ^ 2 * (starRingEnd ℂ) (f i j)) (fun i j => ?_) fun i j => ?_
  · have h1 : ‖((6 + 20 * ‖F i j‖ ^ 2 : ℝ) : ℂ) * f i j‖ = (6 + 20 * ‖F i j‖ ^ 2) * ‖f i j‖ := by
      rw [norm_mul, Complex.norm_real, Real.norm_eq_abs, abs_of_nonneg (by positivity)]
    have h2 : ‖10 * F i j ^ 2 * (starRingEnd ℂ) (f i j)‖ = 10 * ‖F i j‖ ^ 2 * ‖f i j‖ := by
      rw [norm_mul, norm_mul, norm_pow, RCLike.norm_conj]
      simp
    have h3 := norm_sub_le_norm_add (((6 + 20 * ‖F i j‖ ^ 2 : ℝ) : ℂ) * f i j) (10 * F i j ^ 2 * (starRingEnd ℂ) (f i j))
    rw [h1, h2] at h3
    have h4 : 0 ≤ ‖F i j‖ ^ 2 * ‖f i j‖ := by positivity
    linarith
  · rw [← hpix i j, Complex.mul_conj, Complex.normSq_eq_norm_sq]
    push_cast
    ring

end Angler
