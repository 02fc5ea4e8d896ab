import Verif.Props.BornConverges

/-! # Newton's method near a solution -/

namespace Angler

open Matrix

variable {Nx Ny : ℕ}

/-- A coarse device whose Kerr coefficient is real and between `0` and `κ`. -/
structure Spec.RealKerr (s : Sim Nx Ny) (m κ : ℝ) : Prop where
  perm : ∀ i j, m ≤ (s.eps_r i j).re
  coarse : Spec.Coarse s m
  coef : ∀ i j, ∃ k : ℝ, 0 ≤ k ∧ k ≤ κ ∧ Spec.kerrSum s.nonlinearity s.eps_r i j = (k : ℂ)

/-- The Kerr term over the margin. -/
noncomputable def Spec.kerrRatio (s : Sim Nx Ny) (m κ : ℝ) : ℝ := s.omega ^ 2 * EPSILON_0 * s.L0 * κ / Spec.margin s m

theorem Spec.RealKerr.ratio_nonneg {s : Sim Nx Ny} {m κ : ℝ} (h : Spec.RealKerr s m κ) (hv : s.Valid) (hx : 1 < Nx) (hy : 1 < Ny) : 0 ≤ Spec.kerrRatio s m κ := by
  obtain ⟨k, h0, h1, -⟩ := h.coef ⟨0, by omega⟩ ⟨0, by omega⟩
  have hc : 0 ≤ s.omega ^ 2 * EPSILON_0 * s.L0 := by have := EPSILON_0_pos; have := hv.L0_pos; positivity
  exact div_nonneg (mul_nonneg hc (h0.trans h1)) (margin_pos h.coarse).le

/-- A solution of Newton's system linearised at `E`, with right-hand side `b`, is at most `‖b‖` over the margin. -/
theorem Spec.RealKerr.jac_bound {s : Sim Nx Ny} {m κ : ℝ} (h : Spec.RealKerr s m κ) (hv : s.Valid) (hp : s.pol = .Ez) (hx : 1 < Nx) (hy : 1 < Ny) (F f b : Grid Nx Ny ℂ)
    (hf : (nl_eq_and_jac s F).1.2.1 *ᵥ flatten f + (nl_eq_and_jac s F).1.2.2 *ᵥ flatten (fun i j => (starRingEnd ℂ) (f i j)) = flatten b) : Spec.margin s m * ‖f‖ ≤ ‖b‖ := by
  have hc : 0 ≤ s.omega ^ 2 * EPSILON_0 * s.L0 := by have := EPSILON_0_pos; have := hv.L0_pos; positivity
  unfold Spec.margin
  set c : ℝ := s.omega ^ 2 * EPSILON_0 * s.L0 with hcdef
  refine stable_Ez s hv hp h.coarse.1 hx hy f (fun i j => 2 * ((c : ℂ) * Spec.kerrSum s.nonlinearity s.eps_r i j * (F i j * (starRingEnd ℂ) (F i j)) * f i j) +
      (c : ℂ) * (starRingEnd ℂ) (Spec.kerrSum s.nonlinearity s.eps_r i j) * F i j * F i j * (starRingEnd ℂ) (f i j)) b (c * m) (fun i j => ?_) ?_
  · obtain ⟨k, hk0, -, hk⟩ := h.coef i j
    rw [← hcdef, hk, Complex.conj_ofReal]
    have e1 : (c : ℂ) * s.eps_r i j * f i j + (2 * ((c : ℂ) * (k : ℂ) * (F i j * (starRingEnd ℂ) (F i j)) * f i j) + (c : ℂ) * (k : ℂ) * F i j * F i j * (starRingEnd ℂ) (f i j)) =
        (c : ℂ) * ((s.eps_r i j + ((2 * k * ‖F i j‖ ^ 2 : ℝ) : ℂ)) * f i j + (k : ℂ) * F i j ^ 2 * (starRingEnd ℂ) (f i j)) := by
      rw [Complex.mul_conj, Complex.normSq_eq_norm_sq]
      push_cast
      ring
    rw [e1, norm_mul, Complex.norm_real, Real.norm_of_nonneg hc, mul_assoc]
    refine mul_le_mul_of_nonneg_left ?_ hc
    have h1 : ‖(k : ℂ) * F i j ^ 2 * (starRingEnd ℂ) (f i j)‖ = k * ‖F i j‖ ^ 2 * ‖f i j‖ := by
      rw [norm_mul, norm_mul, norm_pow, RCLike.norm_conj, Complex.norm_real, Real.norm_of_nonneg hk0]
    have h2 : m + 2 * k * ‖F i j‖ ^ 2 ≤ ‖s.eps_r i j + ((2 * k * ‖F i j‖ ^ 2 : ℝ) : ℂ)‖ := by
      refine le_trans ?_ (Complex.re_le_norm _)
      rw [Complex.add_re, Complex.ofReal_re]
      linarith [h.perm i j]
    have h3 := norm_sub_le_norm_add ((s.eps_r i j + ((2 * k * ‖F i j‖ ^ 2 : ℝ) : ℂ)) * f i j) ((k : ℂ) * F i j ^ 2 * (starRingEnd ℂ) (f i j))
    rw [h1, norm_mul] at h3
    have h4 := mul_le_mul_of_nonneg_right h2 (norm_nonneg (f i j))
    have h5 : 0 ≤ k * ‖F i j‖ ^ 2 * ‖f i j‖ := by positivity
    nlinarith
  · refine flat_ext fun i j => ?_
    have h : ((nl_eq_and_jac s F).1.2.1 *ᵥ flatten f) (finProdFinEquiv (i, j)) +
        ((nl_eq_and_jac s F).1.2.2 *ᵥ flatten fun i j => (starRingEnd ℂ) (f i j)) (finProdFinEquiv (i, j)) = flatten b (finProdFinEquiv (i, j)) := congrFun hf (finProdFinEquiv (i, j))
    rw [nl_jac11, nl_jac12, ← hcdef] at h
    rw [Pi.add_apply, flatten_pair, ← h]
    ring

theorem Spec.RealKerr.jac_det {s : Sim Nx Ny} {m κ : ℝ} (h : Spec.RealKerr s m κ) (hv : s.Valid) (hp : s.pol = .Ez) (hx : 1 < Nx) (hy : 1 < Ny) (F : Grid Nx Ny ℂ) :
    (Areal (nl_eq_and_jac s F).1.2.1 (nl_eq_and_jac s F).1.2.2).det ≠ 0 := by
  rw [Areal_det_ne_zero_iff]
  intro x hx0
  rw [← flatten_unflatten (Nx := Nx) (Ny := Ny) x] at hx0 ⊢
  have h1 := h.jac_bound hv hp hx hy F (unflatten x) 0 hx0
  rw [norm_zero] at h1
  have h2 : ‖(unflatten x : Grid Nx Ny ℂ)‖ = 0 := le_antisymm (by nlinarith [margin_pos h.coarse, norm_nonneg (unflatten x : Grid Nx Ny ℂ)]) (norm_nonneg _)
  rw [flatten_eq_zero]
  exact norm_eq_zero.1 h2

/-- One Newton step squares the distance to a solution. -/
theorem Spec.RealKerr.newton_step {s : Sim Nx Ny} {m κ : ℝ} (h : Spec.RealKerr s m κ) {env : Env} (he : env.Exact) (hb : env.backend = .pardiso) (hv : s.Valid) (hp : s.pol = .Ez)
    (hx : 1 < Nx) (hy : 1 < Ny) {Z : Grid Nx Ny ℂ} (hZ : ∀ i j, Spec.nlResidual s Z i j = 0) (E F : Grid Nx Ny ℂ) (hF : newtonStep env s E = .ok F) :
    ‖F - Z‖ ≤ Spec.kerrRatio s m κ * (3 * ‖Z‖ + 2 * ‖E - Z‖) * ‖E - Z‖ ^ 2 := by
  have hm := margin_pos h.coarse
  have hc : 0 ≤ s.omega ^ 2 * EPSILON_0 * s.L0 := by have := EPSILON_0_pos; have := hv.L0_pos; positivity
  obtain ⟨x, hx1, hx2⟩ := C16_complex2real_partial env he _ _ (nl_eq_and_jac s E).1.1 (Or.inl hb) (Or.inl (h.jac_det hv hp hx hy E))
  unfold newtonStep at hF
  rw [hx1] at hF
  obtain rfl : (fun i j => E i j - (unflatten x : Grid Nx Ny ℂ) i j) = F := Except.ok.inj hF
  rw [← flatten_unflatten (Nx := Nx) (Ny := Ny) x] at hx2
  set u : Grid Nx Ny ℂ := unflatten x with hu
  set c : ℝ := s.omega ^ 2 * EPSILON_0 * s.L0 with hcdef
  set K := Spec.kerrSum s.nonlinearity s.eps_r with hK
  set d : Grid Nx Ny ℂ := E - Z with hd
  have hsub : (fun i j => E i j - u i j) - Z = d - u := by
    funext i j
    simp only [hd, Pi.sub_apply]
    ring
  rw [hsub]
  have hbd := h.jac_bound hv hp hx hy E (d - u) (fun i j => (c : ℂ) * K i j *
      ((starRingEnd ℂ) (Z i j) * d i j ^ 2 + 2 * Z i j * ((starRingEnd ℂ) (d i j) * d i j) + 2 * ((starRingEnd ℂ) (d i j) * d i j) * d i j)) (by
    refine flat_ext fun i j => ?_
    have h1 : ((nl_eq_and_jac s E).1.2.1 *ᵥ flatten u) (finProdFinEquiv (i, j)) +
        ((nl_eq_and_jac s E).1.2.2 *ᵥ flatten fun i j => (starRingEnd ℂ) (u i j)) (finProdFinEquiv (i, j)) = (nl_eq_and_jac s E).1.1 (finProdFinEquiv (i, j)) :=
      congrFun hx2 (finProdFinEquiv (i, j))
    have h2 := hZ i j
    unfold Spec.nlResidual at h2
    rw [nl_jac11, nl_jac12, nl_eq_residual] at h1
    simp only [flatten_pair] at h1
    rw [Pi.add_apply, nl_jac11, nl_jac12, flatten_pair]
    have e1 : (s.A *ᵥ flatten (d - u)) (finProdFinEquiv (i, j)) = (s.A *ᵥ flatten E) (finProdFinEquiv (i, j)) - (s.A *ᵥ flatten Z) (finProdFinEquiv (i, j)) -
        (s.A *ᵥ flatten u) (finProdFinEquiv (i, j)) := by
      have : flatten (d - u) = flatten E - flatten Z - flatten u := rfl
      rw [this, Matrix.mulVec_sub, Matrix.mulVec_sub]
      rfl
    rw [e1]
    obtain ⟨k, -, -, hk⟩ := h.coef i j
    have hkc : (starRingEnd ℂ) (K i j) = K i j := by rw [hK, hk, Complex.conj_ofReal]
    rw [← hcdef, ← hK] at h1 h2 ⊢
    rw [hkc] at h1 ⊢
    have n1 : (((‖E i j‖ ^ 2 : ℝ)) : ℂ) = E i j * (starRingEnd ℂ) (E i j) := by rw [← Complex.normSq_eq_norm_sq, ← Complex.mul_conj]
    have n2 : ((‖Z i j‖ : ℝ) : ℂ) ^ 2 = Z i j * (starRingEnd ℂ) (Z i j) := by rw [← Complex.ofReal_pow, ← Complex.normSq_eq_norm_sq, ← Complex.mul_conj]
    rw [n1] at h1
    rw [n2] at h2
    have hE : E i j = Z i j + d i j := by simp only [hd, Pi.sub_apply]; ring
    simp only [Pi.sub_apply, map_sub]
    rw [hE] at h1 ⊢
    simp only [map_add] at h1 ⊢
    linear_combination -h1 - h2)
  unfold Spec.kerrRatio
  rw [← hcdef, mul_assoc, div_mul_eq_mul_div, le_div_iff₀ hm, mul_comm]
  refine hbd.trans ?_
  obtain ⟨k0, hk0, hk1, -⟩ := h.coef ⟨0, by omega⟩ ⟨0, by omega⟩
  have hκ : 0 ≤ κ := hk0.trans hk1
  refine (pi_norm_le_iff_of_nonneg (by positivity)).2 fun i => (pi_norm_le_iff_of_nonneg (by positivity)).2 fun j => ?_
  obtain ⟨k, hk0, hk1, hk⟩ := h.coef i j
  rw [norm_mul, norm_mul, Complex.norm_real, Real.norm_of_nonneg hc, hK, hk, Complex.norm_real, Real.norm_of_nonneg hk0]
  have hz := norm_entry_le Z i j
  have hdd := norm_entry_le d i j
  have hin : ‖(starRingEnd ℂ) (Z i j) * d i j ^ 2 + 2 * Z i j * ((starRingEnd ℂ) (d i j) * d i j) + 2 * ((starRingEnd ℂ) (d i j) * d i j) * d i j‖ ≤ (3 * ‖Z‖ + 2 * ‖d‖) * ‖d‖ ^ 2 := by
    refine (norm_add₃_le).trans ?_
    simp only [norm_mul, norm_pow, RCLike.norm_conj, RCLike.norm_ofNat]
    calc ‖Z i j‖ * ‖d i j‖ ^ 2 + 2 * ‖Z i j‖ * (‖d i j‖ * ‖d i j‖) + 2 * (‖d i j‖ * ‖d i j‖) * ‖d i j‖
        ≤ ‖Z‖ * ‖d‖ ^ 2 + 2 * ‖Z‖ * (‖d‖ * ‖d‖) + 2 * (‖d‖ * ‖d‖) * ‖d‖ := by gcongr
      _ = (3 * ‖Z‖ + 2 * ‖d‖) * ‖d‖ ^ 2 := by ring
  exact mul_le_mul (mul_le_mul_of_nonneg_left hk1 hc) hin (norm_nonneg _) (mul_nonneg hc hκ)

/-- One Born pass near a solution. -/
theorem Spec.RealKerr.born_step {s : Sim Nx Ny} {m κ : ℝ} (h : Spec.RealKerr s m κ) {env : Env} (he : env.Exact) (hv : s.Valid) (hp : s.pol = .Ez)
    (hx : 1 < Nx) (hy : 1 < Ny) {Z : Grid Nx Ny ℂ} (hZ : ∀ i j, Spec.nlResidual s Z i j = 0) (E : Grid Nx Ny ℂ) :
    ‖(bornStep env s E).2.2 - Z‖ ≤ Spec.kerrRatio s m κ * (‖Z‖ * (2 * ‖Z‖ + ‖E - Z‖)) * ‖E - Z‖ := by
  have hm := margin_pos h.coarse
  have hc : 0 ≤ s.omega ^ 2 * EPSILON_0 * s.L0 := by have := EPSILON_0_pos; have := hv.L0_pos; positivity
  set c : ℝ := s.omega ^ 2 * EPSILON_0 * s.L0 with hcdef
  set K := Spec.kerrSum s.nonlinearity s.eps_r with hK
  have frozen : ∀ f b : Grid Nx Ny ℂ, bornMat s E *ᵥ flatten f = flatten b → Spec.margin s m * ‖f‖ ≤ ‖b‖ := by
    intro f b hf
    refine stable_Ez s hv hp h.coarse.1 hx hy f (fun i j => (c : ℂ) * (K i j * ((‖E i j‖ ^ 2 : ℝ) : ℂ)) * f i j) b (c * m) (fun i j => ?_) ?_
    · rw [← hcdef, show ∀ c e k x : ℂ, c * e * x + c * k * x = c * (e + k) * x from fun c e k x => by ring]
      refine norm_permittivity_ge s hv m _ _ (le_trans ?_ (Complex.re_le_norm _))
      obtain ⟨k, hk0, -, hk⟩ := h.coef i j
      rw [hK, hk, Complex.add_re, Complex.re_mul_ofReal, Complex.ofReal_re]
      have := mul_nonneg hk0 (sq_nonneg ‖E i j‖)
      linarith [h.perm i j]
    · rw [← hf, bornMat_spdiag, Matrix.add_mulVec, spdiag_mulVec]
      rfl
  have hdet : (bornMat s E).det ≠ 0 := by
    refine det_ne_zero_of_inj fun v hv0 => ?_
    have h1 := frozen (unflatten v) 0 (by rw [flatten_unflatten]; exact hv0)
    rw [norm_zero] at h1
    have h2 : ‖(unflatten v : Grid Nx Ny ℂ)‖ = 0 := le_antisymm (by nlinarith [norm_nonneg (unflatten v : Grid Nx Ny ℂ)]) (norm_nonneg _)
    rw [← flatten_unflatten (Nx := Nx) (Ny := Ny) v, flatten_eq_zero]
    exact norm_eq_zero.1 h2
  have hsol := bornStep_solves he E hdet
  set f := (bornStep env s E).2.2 with hf
  have hbd := frozen (f - Z) (fun i j => (c : ℂ) * (K i j * ((‖Z i j‖ ^ 2 - ‖E i j‖ ^ 2 : ℝ) : ℂ)) * Z i j) (by
    have e : flatten (f - Z) = flatten f - flatten Z := rfl
    rw [e, Matrix.mulVec_sub, hsol, bornMat_spdiag, Matrix.add_mulVec, spdiag_mulVec]
    refine flat_ext fun i j => ?_
    have h2 := hZ i j
    unfold Spec.nlResidual at h2
    have hr : s.rhs (finProdFinEquiv (i, j)) = s.src i j * Complex.I * s.omega := by simp only [Sim.rhs, flatten_pair]
    rw [← hcdef, ← hK] at h2 ⊢
    simp only [Pi.sub_apply, Pi.add_apply, flatten_pair, hr]
    push_cast at h2 ⊢
    linear_combination -h2)
  unfold Spec.kerrRatio
  rw [← hcdef, mul_assoc, div_mul_eq_mul_div, le_div_iff₀ hm, mul_comm]
  refine hbd.trans ?_
  obtain ⟨k0, hk0, hk1, -⟩ := h.coef ⟨0, by omega⟩ ⟨0, by omega⟩
  have hκ : 0 ≤ κ := hk0.trans hk1
  refine (pi_norm_le_iff_of_nonneg (by positivity)).2 fun i => (pi_norm_le_iff_of_nonneg (by positivity)).2 fun j => ?_
  obtain ⟨k, hk0, hk1, hk⟩ := h.coef i j
  rw [norm_mul, norm_mul, norm_mul, Complex.norm_real, Real.norm_of_nonneg hc, hK, hk, Complex.norm_real, Real.norm_of_nonneg hk0, Complex.norm_real, Real.norm_eq_abs]
  have hz := norm_entry_le Z i j
  have hdd := norm_entry_le (E - Z) i j
  have h1 : |‖Z i j‖ ^ 2 - ‖E i j‖ ^ 2| ≤ (2 * ‖Z‖ + ‖E - Z‖) * ‖E - Z‖ := by
    rw [show ‖Z i j‖ ^ 2 - ‖E i j‖ ^ 2 = (‖Z i j‖ + ‖E i j‖) * (‖Z i j‖ - ‖E i j‖) by ring, abs_mul, abs_of_nonneg (by positivity)]
    have h2 : |‖Z i j‖ - ‖E i j‖| ≤ ‖E - Z‖ := by
      refine (abs_norm_sub_norm_le _ _).trans ?_
      rw [norm_sub_rev]
      exact hdd
    have h3 : ‖E i j‖ ≤ ‖Z‖ + ‖E - Z‖ := by
      have := abs_le.1 h2
      linarith
    exact mul_le_mul (by linarith) h2 (abs_nonneg _) (by positivity)
  calc c * (k * |‖Z i j‖ ^ 2 - ‖E i j‖ ^ 2|) * ‖Z i j‖ ≤ c * (κ * ((2 * ‖Z‖ + ‖E - Z‖) * ‖E - Z‖)) * ‖Z‖ := by gcongr
    _ = c * κ * (‖Z‖ * (2 * ‖Z‖ + ‖E - Z‖) * ‖E - Z‖) := by ring

end Angler
