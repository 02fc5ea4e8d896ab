import Verif.Props.NewtonConverges
import Verif.Props.Inexact
import Verif.Props.BornInexact

/-! # C114 — Newton's method with inexact linear solvers: the iteration corrects the errors of its solver -/

namespace Angler

open Matrix

variable {Nx Ny : ℕ}

/-- A real linear solver whose relative residual is at most `τ` on every nonsingular system. -/
def Env.WithinR (env : Env) (τ : ℝ) : Prop :=
  ∀ {n : ℕ} (A : Matrix (Fin n ⊕ Fin n) (Fin n ⊕ Fin n) ℝ) (b : Fin n ⊕ Fin n → ℝ), A.det ≠ 0 → ‖A *ᵥ env.solveR A b - b‖ ≤ τ * ‖b‖

/-- The start is near enough (`NewtonNear`), `Λ` bounds the row sums of the system matrix, and the accuracy `τ` of the solver times the slope of the residual is at most `θ/2` times the margin. -/
structure Spec.InexactNear (s : Sim Nx Ny) (m κ : ℝ) (Z : Grid Nx Ny ℂ) (r τ Λ θ : ℝ) : Prop where
  near : Spec.NewtonNear s m κ Z r
  rows : ∀ k, ∑ l, ‖s.A k l‖ ≤ Λ
  acc : 2 * τ * (Λ + s.omega ^ 2 * EPSILON_0 * s.L0 * κ * (3 * ‖Z‖ ^ 2 + 3 * ‖Z‖ * r + r ^ 2)) ≤ θ * Spec.margin s m

/-! ## The real system -/

/-- The complex system is solved with twice the relative residual of the real one. -/
theorem complex2real_within {env : Env} {τ : ℝ} (hτ : 0 ≤ τ) (hw : env.WithinR τ) (hb : env.backend = .pardiso) {n : ℕ} (A11 A12 : Mat n ℂ) (b : Vec n ℂ) (hdet : (Areal A11 A12).det ≠ 0) :
    ∃ x, solver_complex2real env A11 A12 b = .ok x ∧ ‖A11 *ᵥ x + A12 *ᵥ (fun k => (starRingEnd ℂ) (x k)) - b‖ ≤ 2 * τ * ‖b‖ := by
  by_cases h0 : b = 0
  · refine ⟨0, by simp [solver_complex2real, h0], ?_⟩
    have : (fun k : Fin n => (starRingEnd ℂ) ((0 : Vec n ℂ) k)) = 0 := by funext k; simp
    rw [this, h0]; simp
  · set B : Fin n ⊕ Fin n → ℝ := Sum.elim (fun k => (b k).re) (fun k => (b k).im) with hB
    set z := env.solveR (Areal A11 A12) B with hz
    have hs := hw (Areal A11 A12) B hdet
    rw [← hz] at hs
    refine ⟨fun k => (z (Sum.inl k) : ℂ) + Complex.I * (z (Sum.inr k) : ℂ), by simp [solver_complex2real, h0, hb, ← hz, ← hB], ?_⟩
    have hBn : ‖B‖ ≤ ‖b‖ := by
      refine (pi_norm_le_iff_of_nonneg (norm_nonneg _)).2 fun k => ?_
      rcases k with k | k
      · exact (Complex.abs_re_le_norm _).trans (norm_le_pi_norm b k)
      · exact (Complex.abs_im_le_norm _).trans (norm_le_pi_norm b k)
    have hs' : ‖Areal A11 A12 *ᵥ z - B‖ ≤ τ * ‖b‖ := hs.trans (mul_le_mul_of_nonneg_left hBn hτ)
    refine (pi_norm_le_iff_of_nonneg (by positivity)).2 fun k => ?_
    have e1 : ((A11 *ᵥ fun k => (z (Sum.inl k) : ℂ) + Complex.I * (z (Sum.inr k) : ℂ)) + A12 *ᵥ (fun k => (starRingEnd ℂ) ((z (Sum.inl k) : ℂ) + Complex.I * (z (Sum.inr k) : ℂ))) - b) k =
        (((Areal A11 A12 *ᵥ z - B) (Sum.inl k) : ℝ) : ℂ) + (((Areal A11 A12 *ᵥ z - B) (Sum.inr k) : ℝ) : ℂ) * Complex.I := by
      have hre : ∀ x y : ℝ, ((x : ℂ) + (y : ℂ) * Complex.I).re = x := fun x y => by simp
      have him : ∀ x y : ℝ, ((x : ℂ) + (y : ℂ) * Complex.I).im = y := fun x y => by simp
      apply Complex.ext
      · rw [hre]
        simp only [Pi.sub_apply, Pi.add_apply, mulVec, dotProduct, Fintype.sum_sum_type, Areal_ll, Areal_lr, hB, Sum.elim_inl, ← Finset.sum_add_distrib]
        rw [Complex.sub_re, Complex.re_sum]
        congr 1
        refine Finset.sum_congr rfl fun j _ => ?_
        simp
        ring
      · rw [him]
        simp only [Pi.sub_apply, Pi.add_apply, mulVec, dotProduct, Fintype.sum_sum_type, Areal_rl, Areal_rr, hB, Sum.elim_inr, ← Finset.sum_add_distrib]
        rw [Complex.sub_im, Complex.im_sum]
        congr 1
        refine Finset.sum_congr rfl fun j _ => ?_
        simp
        ring
    rw [e1]
    refine (norm_add_le _ _).trans ?_
    rw [norm_mul, Complex.norm_I, mul_one, Complex.norm_real, Complex.norm_real]
    have h1 := (norm_le_pi_norm (Areal A11 A12 *ᵥ z - B) (Sum.inl k)).trans hs'
    have h2 := (norm_le_pi_norm (Areal A11 A12 *ᵥ z - B) (Sum.inr k)).trans hs'
    linarith

/-! ## One step -/

theorem rows_mulVec {n : ℕ} (A : Mat n ℂ) (Λ : ℝ) (hΛ : ∀ k, ∑ l, ‖A k l‖ ≤ Λ) (v : Vec n ℂ) (k : Fin n) : ‖(A *ᵥ v) k‖ ≤ Λ * ‖v‖ := by
  rw [mulVec_eq_sum']
  refine (norm_sum_le _ _).trans ?_
  calc ∑ l, ‖A k l * v l‖ ≤ ∑ l, ‖A k l‖ * ‖v‖ := Finset.sum_le_sum fun l _ => by
        rw [norm_mul]
        exact mul_le_mul_of_nonneg_left (norm_le_pi_norm v l) (norm_nonneg _)
    _ = (∑ l, ‖A k l‖) * ‖v‖ := (Finset.sum_mul _ _ _).symm
    _ ≤ Λ * ‖v‖ := mul_le_mul_of_nonneg_right (hΛ k) (norm_nonneg _)

/-- The residual near a solution is at most its slope times the distance. -/
theorem Spec.RealKerr.residual_slope {s : Sim Nx Ny} {m κ : ℝ} (h : Spec.RealKerr s m κ) (hv : s.Valid) (hx : 1 < Nx) (hy : 1 < Ny) {Z : Grid Nx Ny ℂ} (hZ : ∀ i j, Spec.nlResidual s Z i j = 0)
    (Λ : ℝ) (hΛ : ∀ k, ∑ l, ‖s.A k l‖ ≤ Λ) (E : Grid Nx Ny ℂ) :
    ‖(nl_eq_and_jac s E).1.1‖ ≤ (Λ + s.omega ^ 2 * EPSILON_0 * s.L0 * κ * (3 * ‖Z‖ ^ 2 + 3 * ‖Z‖ * ‖E - Z‖ + ‖E - Z‖ ^ 2)) * ‖E - Z‖ := by
  have hc : 0 ≤ s.omega ^ 2 * EPSILON_0 * s.L0 := by have := EPSILON_0_pos; have := hv.L0_pos; positivity
  obtain ⟨k0, hk0, hk1, -⟩ := h.coef ⟨0, by omega⟩ ⟨0, by omega⟩
  have hκ : 0 ≤ κ := hk0.trans hk1
  have hΛ0 : 0 ≤ Λ := le_trans (Finset.sum_nonneg fun l _ => norm_nonneg _) (hΛ (finProdFinEquiv ((⟨0, by omega⟩ : Fin Nx), (⟨0, by omega⟩ : Fin Ny))))
  set c : ℝ := s.omega ^ 2 * EPSILON_0 * s.L0 with hcdef
  set K := Spec.kerrSum s.nonlinearity s.eps_r with hK
  set d : Grid Nx Ny ℂ := E - Z with hd
  refine (pi_norm_le_iff_of_nonneg (by positivity)).2 fun a => ?_
  obtain ⟨⟨i, j⟩, rfl⟩ := finProdFinEquiv.surjective a
  have e0 : (nl_eq_and_jac s E).1.1 (finProdFinEquiv (i, j)) = (s.A *ᵥ flatten d) (finProdFinEquiv (i, j)) +
      (c : ℂ) * K i j * (2 * Z i j * (starRingEnd ℂ) (Z i j) * d i j + Z i j ^ 2 * (starRingEnd ℂ) (d i j) + d i j ^ 2 * (starRingEnd ℂ) (Z i j) + 2 * Z i j * d i j * (starRingEnd ℂ) (d i j) +
        d i j ^ 2 * (starRingEnd ℂ) (d i j)) := by
    have h2 := hZ i j
    unfold Spec.nlResidual at h2
    rw [nl_eq_residual]
    have e1 : (s.A *ᵥ flatten d) (finProdFinEquiv (i, j)) = (s.A *ᵥ flatten E) (finProdFinEquiv (i, j)) - (s.A *ᵥ flatten Z) (finProdFinEquiv (i, j)) := by
      have : flatten d = flatten E - flatten Z := rfl
      rw [this, Matrix.mulVec_sub]
      rfl
    rw [e1]
    rw [← hcdef, ← hK] at h2 ⊢
    have n1 : (((‖E i j‖ ^ 2 : ℝ)) : ℂ) = E i j * (starRingEnd ℂ) (E i j) := by rw [← Complex.normSq_eq_norm_sq, ← Complex.mul_conj]
    have n2 : ((‖Z i j‖ : ℝ) : ℂ) ^ 2 = Z i j * (starRingEnd ℂ) (Z i j) := by rw [← Complex.ofReal_pow, ← Complex.normSq_eq_norm_sq, ← Complex.mul_conj]
    simp only [flatten_pair]
    rw [n1]
    rw [n2] at h2
    have hE : E i j = Z i j + d i j := by simp only [hd, Pi.sub_apply]; ring
    rw [hE]
    simp only [map_add]
    linear_combination h2
  rw [e0]
  refine (norm_add_le _ _).trans ?_
  have hfl : ‖flatten d‖ ≤ ‖d‖ := (pi_norm_le_iff_of_nonneg (norm_nonneg _)).2 fun k => norm_entry_le d _ _
  have h1 := (rows_mulVec s.A Λ hΛ (flatten d) (finProdFinEquiv (i, j))).trans (mul_le_mul_of_nonneg_left hfl hΛ0)
  obtain ⟨k, hk0, hk1, hk⟩ := h.coef i j
  have hz := norm_entry_le Z i j
  have hdd := norm_entry_le d i j
  have hin : ‖2 * Z i j * (starRingEnd ℂ) (Z i j) * d i j + Z i j ^ 2 * (starRingEnd ℂ) (d i j) + d i j ^ 2 * (starRingEnd ℂ) (Z i j) + 2 * Z i j * d i j * (starRingEnd ℂ) (d i j) +
      d i j ^ 2 * (starRingEnd ℂ) (d i j)‖ ≤ (3 * ‖Z‖ ^ 2 + 3 * ‖Z‖ * ‖d‖ + ‖d‖ ^ 2) * ‖d‖ := by
    refine (norm_add_le _ _).trans ((add_le_add_left ((norm_add_le _ _).trans (add_le_add_left norm_add₃_le _)) _).trans ?_)
    simp only [norm_mul, norm_pow, RCLike.norm_conj, RCLike.norm_ofNat]
    calc 2 * ‖Z i j‖ * ‖Z i j‖ * ‖d i j‖ + ‖Z i j‖ ^ 2 * ‖d i j‖ + ‖d i j‖ ^ 2 * ‖Z i j‖ + 2 * ‖Z i j‖ * ‖d i j‖ * ‖d i j‖ + ‖d i j‖ ^ 2 * ‖d i j‖
        ≤ 2 * ‖Z‖ * ‖Z‖ * ‖d‖ + ‖Z‖ ^ 2 * ‖d‖ + ‖d‖ ^ 2 * ‖Z‖ + 2 * ‖Z‖ * ‖d‖ * ‖d‖ + ‖d‖ ^ 2 * ‖d‖ := by gcongr
      _ = (3 * ‖Z‖ ^ 2 + 3 * ‖Z‖ * ‖d‖ + ‖d‖ ^ 2) * ‖d‖ := by ring
  have h2 : ‖(c : ℂ) * K i j * (2 * Z i j * (starRingEnd ℂ) (Z i j) * d i j + Z i j ^ 2 * (starRingEnd ℂ) (d i j) + d i j ^ 2 * (starRingEnd ℂ) (Z i j) + 2 * Z i j * d i j * (starRingEnd ℂ) (d i j) +
        d i j ^ 2 * (starRingEnd ℂ) (d i j))‖ ≤ c * κ * ((3 * ‖Z‖ ^ 2 + 3 * ‖Z‖ * ‖d‖ + ‖d‖ ^ 2) * ‖d‖) := by
    rw [norm_mul, norm_mul, Complex.norm_real, Real.norm_of_nonneg hc, hK, hk, Complex.norm_real, Real.norm_of_nonneg hk0]
    exact mul_le_mul (mul_le_mul_of_nonneg_left hk1 hc) hin (norm_nonneg _) (mul_nonneg hc hκ)
  linarith

/-- One inexact Newton step: the quadratic error of the exact step, and the residual of the solve over the margin. -/
theorem Spec.RealKerr.newton_step_inexact {s : Sim Nx Ny} {m κ τ : ℝ} (h : Spec.RealKerr s m κ) {env : Env} (hτ : 0 ≤ τ) (hw : env.WithinR τ) (hb : env.backend = .pardiso) (hv : s.Valid)
    (hp : s.pol = .Ez) (hx : 1 < Nx) (hy : 1 < Ny) {Z : Grid Nx Ny ℂ} (hZ : ∀ i j, Spec.nlResidual s Z i j = 0) (E F : Grid Nx Ny ℂ) (hF : newtonStep env s E = .ok F) :
    Spec.margin s m * ‖F - Z‖ ≤ s.omega ^ 2 * EPSILON_0 * s.L0 * κ * ((3 * ‖Z‖ + 2 * ‖E - Z‖) * ‖E - Z‖ ^ 2) + 2 * τ * ‖(nl_eq_and_jac s E).1.1‖ := by
  have hm := margin_pos h.coarse
  have hc : 0 ≤ s.omega ^ 2 * EPSILON_0 * s.L0 := by have := EPSILON_0_pos; have := hv.L0_pos; positivity
  obtain ⟨x, hx1, hx2⟩ := complex2real_within hτ hw hb _ _ (nl_eq_and_jac s E).1.1 (h.jac_det hv hp hx hy E)
  unfold newtonStep at hF
  rw [hx1] at hF
  obtain rfl : (fun i j => E i j - (unflatten x : Grid Nx Ny ℂ) i j) = F := Except.ok.inj hF
  rw [← flatten_unflatten (Nx := Nx) (Ny := Ny) x] at hx2
  set u : Grid Nx Ny ℂ := unflatten x with hu
  set c : ℝ := s.omega ^ 2 * EPSILON_0 * s.L0 with hcdef
  set K := Spec.kerrSum s.nonlinearity s.eps_r with hK
  set d : Grid Nx Ny ℂ := E - Z with hd
  obtain ⟨ρ, hρ⟩ : ∃ ρ : Vec (Nx * Ny) ℂ, ρ = (nl_eq_and_jac s E).1.2.1 *ᵥ flatten u + (nl_eq_and_jac s E).1.2.2 *ᵥ (flatten fun i j => (starRingEnd ℂ) (u i j)) - (nl_eq_and_jac s E).1.1 := ⟨_, rfl⟩
  have hρn : ‖ρ‖ ≤ 2 * τ * ‖(nl_eq_and_jac s E).1.1‖ := by rw [hρ]; exact hx2
  have hsub : (fun i j => E i j - u i j) - Z = d - u := by
    funext i j
    simp only [hd, Pi.sub_apply]
    ring
  rw [hsub]
  have hbd := h.jac_bound hv hp hx hy E (d - u) ((fun i j => (c : ℂ) * K i j *
      ((starRingEnd ℂ) (Z i j) * d i j ^ 2 + 2 * Z i j * ((starRingEnd ℂ) (d i j) * d i j) + 2 * ((starRingEnd ℂ) (d i j) * d i j) * d i j)) - unflatten ρ) (by
    refine flat_ext fun i j => ?_
    have h1 : ρ (finProdFinEquiv (i, j)) = ((nl_eq_and_jac s E).1.2.1 *ᵥ flatten u) (finProdFinEquiv (i, j)) +
        ((nl_eq_and_jac s E).1.2.2 *ᵥ flatten fun i j => (starRingEnd ℂ) (u i j)) (finProdFinEquiv (i, j)) - (nl_eq_and_jac s E).1.1 (finProdFinEquiv (i, j)) :=
      congrFun hρ (finProdFinEquiv (i, j))
    have h2 := hZ i j
    unfold Spec.nlResidual at h2
    rw [nl_jac11, nl_jac12, nl_eq_residual] at h1
    simp only [flatten_pair] at h1
    rw [Pi.add_apply, nl_jac11, nl_jac12, flatten_pair]
    have e1 : (s.A *ᵥ flatten (d - u)) (finProdFinEquiv (i, j)) = (s.A *ᵥ flatten E) (finProdFinEquiv (i, j)) - (s.A *ᵥ flatten Z) (finProdFinEquiv (i, j)) -
        (s.A *ᵥ flatten u) (finProdFinEquiv (i, j)) := by
      have : flatten (d - u) = flatten E - flatten Z - flatten u := rfl
      rw [this, Matrix.mulVec_sub, Matrix.mulVec_sub]
      rfl
    rw [e1]
    obtain ⟨k, -, -, hk⟩ := h.coef i j
    have hkc : (starRingEnd ℂ) (K i j) = K i j := by rw [hK, hk, Complex.conj_ofReal]
    rw [← hcdef, ← hK] at h1 h2 ⊢
    rw [hkc] at h1 ⊢
    have n1 : (((‖E i j‖ ^ 2 : ℝ)) : ℂ) = E i j * (starRingEnd ℂ) (E i j) := by rw [← Complex.normSq_eq_norm_sq, ← Complex.mul_conj]
    have n2 : ((‖Z i j‖ : ℝ) : ℂ) ^ 2 = Z i j * (starRingEnd ℂ) (Z i j) := by rw [← Complex.ofReal_pow, ← Complex.normSq_eq_norm_sq, ← Complex.mul_conj]
    rw [n1] at h1
    rw [n2] at h2
    have hE : E i j = Z i j + d i j := by simp only [hd, Pi.sub_apply]; ring
    have hρu : (unflatten ρ : Grid Nx Ny ℂ) i j = ρ (finProdFinEquiv (i, j)) := rfl
    simp only [Pi.sub_apply, map_sub, hρu]
    rw [hE] at h1 ⊢
    simp only [map_add] at h1 ⊢
    linear_combination h1 - h2)
  refine hbd.trans ((norm_sub_le _ _).trans (add_le_add ?_ ?_))
  · obtain ⟨k0, hk0, hk1, -⟩ := h.coef ⟨0, by omega⟩ ⟨0, by omega⟩
    have hκ : 0 ≤ κ := hk0.trans hk1
    refine grid_le_of_entries (by positivity) _ fun i j => ?_
    obtain ⟨k, hk0, hk1, hk⟩ := h.coef i j
    rw [norm_mul, norm_mul, Complex.norm_real, Real.norm_of_nonneg hc, hK, hk, Complex.norm_real, Real.norm_of_nonneg hk0]
    have hz := norm_entry_le Z i j
    have hdd := norm_entry_le d i j
    have hin : ‖(starRingEnd ℂ) (Z i j) * d i j ^ 2 + 2 * Z i j * ((starRingEnd ℂ) (d i j) * d i j) + 2 * ((starRingEnd ℂ) (d i j) * d i j) * d i j‖ ≤ (3 * ‖Z‖ + 2 * ‖d‖) * ‖d‖ ^ 2 := by
      refine (norm_add₃_le).trans ?_
      simp only [norm_mul, norm_pow, RCLike.norm_conj, RCLike.norm_ofNat]
      calc ‖Z i j‖ * ‖d i j‖ ^ 2 + 2 * ‖Z i j‖ * (‖d i j‖ * ‖d i j‖) + 2 * (‖d i j‖ * ‖d i j‖) * ‖d i j‖
          ≤ ‖Z‖ * ‖d‖ ^ 2 + 2 * ‖Z‖ * (‖d‖ * ‖d‖) + 2 * (‖d‖ * ‖d‖) * ‖d‖ := by gcongr
        _ = (3 * ‖Z‖ + 2 * ‖d‖) * ‖d‖ ^ 2 := by ring
    exact mul_le_mul (mul_le_mul_of_nonneg_left hk1 hc) hin (norm_nonneg _) (mul_nonneg hc hκ)
  · exact grid_le_of_entries (by positivity) _ fun i j => norm_unflatten _ _ hρn i j

/-- The last pass of the solver, a linear solve with the Kerr term frozen. -/
theorem Spec.RealKerr.born_step_inexact {s : Sim Nx Ny} {m κ τ : ℝ} (h : Spec.RealKerr s m κ) {env : Env} (hw : env.Within τ) (hv : s.Valid) (hp : s.pol = .Ez)
    (hx : 1 < Nx) (hy : 1 < Ny) {Z : Grid Nx Ny ℂ} (hZ : ∀ i j, Spec.nlResidual s Z i j = 0) (E : Grid Nx Ny ℂ) :
    ‖(bornStep env s E).2.2 - Z‖ ≤ Spec.kerrRatio s m κ * (‖Z‖ * (2 * ‖Z‖ + ‖E - Z‖)) * ‖E - Z‖ + τ * ‖s.rhs‖ / Spec.margin s m := by
  have hm := margin_pos h.coarse
  have hc : 0 ≤ s.omega ^ 2 * EPSILON_0 * s.L0 := by have := EPSILON_0_pos; have := hv.L0_pos; positivity
  have he := exactEnv_exact .pardiso
  set c : ℝ := s.omega ^ 2 * EPSILON_0 * s.L0 with hcdef
  set K := Spec.kerrSum s.nonlinearity s.eps_r with hK
  have frozen : ∀ f b : Grid Nx Ny ℂ, bornMat s E *ᵥ flatten f = flatten b → Spec.margin s m * ‖f‖ ≤ ‖b‖ := by
    intro f b hf
    refine stable_Ez s hv hp h.coarse.1 hx hy f (fun i j => (c : ℂ) * (K i j * ((‖E i j‖ ^ 2 : ℝ) : ℂ)) * f i j) b (c * m) (fun i j => ?_) ?_
    · rw [← hcdef, show ∀ c e k x : ℂ, c * e * x + c * k * x = c * (e + k) * x from fun c e k x => by ring]
      refine norm_permittivity_ge s hv m _ _ (le_trans ?_ (Complex.re_le_norm _))
      obtain ⟨k, hk0, -, hk⟩ := h.coef i j
      rw [hK, hk, Complex.add_re, Complex.re_mul_ofReal, Complex.ofReal_re]
      have := mul_nonneg hk0 (sq_nonneg ‖E i j‖)
      linarith [h.perm i j]
    · rw [← hf, bornMat_spdiag, Matrix.add_mulVec, spdiag_mulVec]
      rfl
  have hvec : ∀ v : Vec (Nx * Ny) ℂ, Spec.margin s m * ‖v‖ ≤ ‖bornMat s E *ᵥ v‖ := by
    intro v
    have h1 := frozen (unflatten v) (unflatten (bornMat s E *ᵥ v)) (by rw [flatten_unflatten, flatten_unflatten])
    have h2 : ‖(unflatten (bornMat s E *ᵥ v) : Grid Nx Ny ℂ)‖ ≤ ‖bornMat s E *ᵥ v‖ := grid_le_of_entries (norm_nonneg _) _ fun i j => norm_unflatten _ _ le_rfl i j
    have h3 : ‖v‖ ≤ ‖(unflatten v : Grid Nx Ny ℂ)‖ := by
      refine (pi_norm_le_iff_of_nonneg (norm_nonneg _)).2 fun k => ?_
      obtain ⟨⟨i, j⟩, rfl⟩ := finProdFinEquiv.surjective k
      exact norm_entry_le (unflatten v : Grid Nx Ny ℂ) i j
    exact (mul_le_mul_of_nonneg_left h3 hm.le).trans (h1.trans h2)
  have hdet : (bornMat s E).det ≠ 0 := by
    refine det_ne_zero_of_inj fun v hv0 => ?_
    have h1 := hvec v
    rw [hv0, norm_zero] at h1
    exact norm_eq_zero.1 (le_antisymm (by nlinarith [norm_nonneg v]) (norm_nonneg v))
  have h1 := h.born_step he hv hp hx hy hZ E
  have h2 := within_error hw he (bornMat s E) s.rhs hdet _ hm hvec
  have h3 : ‖(bornStep env s E).2.2 - (bornStep (exactEnv .pardiso) s E).2.2‖ ≤ τ * ‖s.rhs‖ / Spec.margin s m := by
    rw [bornStep_third, bornStep_third]
    refine grid_le_of_entries (le_trans (norm_nonneg _) h2) _ fun i j => ?_
    exact norm_unflatten (solver_direct env (bornMat s E) s.rhs - solver_direct (exactEnv .pardiso) (bornMat s E) s.rhs) _ h2 i j
  have h4 := norm_add_le ((bornStep env s E).2.2 - (bornStep (exactEnv .pardiso) s E).2.2) ((bornStep (exactEnv .pardiso) s E).2.2 - Z)
  rw [sub_add_sub_cancel] at h4
  linarith

/-- The iterates approach the solution itself, by a factor `1/2 + θ` at every step. -/
theorem newton_iterates_inexact {s : Sim Nx Ny} {m κ τ Λ θ : ℝ} (h : Spec.RealKerr s m κ) {env : Env} (hτ : 0 ≤ τ) (hw : env.WithinR τ) (hb : env.backend = .pardiso) (hv : s.Valid) (hp : s.pol = .Ez)
    (hx : 1 < Nx) (hy : 1 < Ny) {Z : Grid Nx Ny ℂ} (hZ : ∀ i j, Spec.nlResidual s Z i j = 0) {r : ℝ} (hr : Spec.InexactNear s m κ Z r τ Λ θ) (hθ0 : 0 ≤ θ) (hθ : θ ≤ 1 / 2) (it : ℕ → Grid Nx Ny ℂ) (M : ℕ)
    (h0 : ‖it 0 - Z‖ ≤ r) (hstep : ∀ k < M, newtonStep env s (it k) = .ok (it (k + 1))) : ∀ k ≤ M, ‖it k - Z‖ ≤ r * (1 / 2 + θ) ^ k := by
  intro k
  induction k with
  | zero => intro _; simpa using h0
  | succ k ih =>
    intro hk
    have ih' := ih (by omega)
    have hr0 := hr.near.nonneg
    have hm := margin_pos h.coarse
    have hc : 0 ≤ s.omega ^ 2 * EPSILON_0 * s.L0 := by have := EPSILON_0_pos; have := hv.L0_pos; positivity
    obtain ⟨k0, hk0, hk1, -⟩ := h.coef ⟨0, by omega⟩ ⟨0, by omega⟩
    have hκ : 0 ≤ κ := hk0.trans hk1
    have hle : ‖it k - Z‖ ≤ r := ih'.trans (by
      have : (1 / 2 + θ) ^ k ≤ 1 := pow_le_one₀ (by linarith) (by linarith)
      nlinarith)
    have h1 := h.newton_step_inexact hτ hw hb hv hp hx hy hZ _ _ (hstep k (by omega))
    have h2 := h.residual_slope hv hx hy hZ Λ hr.rows (it k)
    have hhalf := hr.near.half
    have hacc := hr.acc
    unfold Spec.kerrRatio at hhalf
    set c : ℝ := s.omega ^ 2 * EPSILON_0 * s.L0 with hcdef
    set μ := Spec.margin s m with hμ
    set d := ‖it k - Z‖ with hd
    have hd0 : 0 ≤ d := norm_nonneg _
    have h3 : c * κ * ((3 * ‖Z‖ + 2 * d) * d ^ 2) ≤ μ * (1 / 2 * d) := by
      have e1 : c * κ * ((3 * ‖Z‖ + 2 * d) * d ^ 2) ≤ c * κ * ((3 * ‖Z‖ + 2 * r) * (r * d)) := by
        rw [pow_two]
        gcongr
      have e2 : c * κ * ((3 * ‖Z‖ + 2 * r) * (r * d)) = μ * ((c * κ / μ * (3 * ‖Z‖ + 2 * r) * r) * d) := by
        field_simp
      rw [e2] at e1
      exact e1.trans (mul_le_mul_of_nonneg_left (mul_le_mul_of_nonneg_right hhalf hd0) hm.le)
    have h4 : 2 * τ * ‖(nl_eq_and_jac s (it k)).1.1‖ ≤ μ * (θ * d) := by
      have e1 : 2 * τ * ‖(nl_eq_and_jac s (it k)).1.1‖ ≤ 2 * τ * ((Λ + c * κ * (3 * ‖Z‖ ^ 2 + 3 * ‖Z‖ * r + r ^ 2)) * d) := by
        refine mul_le_mul_of_nonneg_left (h2.trans ?_) (by positivity)
        gcongr
      have e2 := mul_le_mul_of_nonneg_right hacc hd0
      linarith
    have h5 : μ * ‖it (k + 1) - Z‖ ≤ μ * ((1 / 2 + θ) * d) := by linarith
    have h6 := le_of_mul_le_mul_left h5 hm
    refine h6.trans ?_
    rw [pow_succ]
    have := mul_le_mul_of_nonneg_left ih' (show 0 ≤ 1 / 2 + θ by linarith)
    linarith

/-! ## The theorems -/

/-- **C114, the error.** Near a solution, with linear solves of relative residual at most `τ`, Newton's solver returns, and after `k + 1` steps the field it returns is off by at most a constant times
`r (1/2 + θ)^{k+1}`, plus the error of the one linear solve that follows the iteration. -/
theorem C114_error (env : Env) (hb : env.backend = .pardiso) (τ : ℝ) (hτ : 0 ≤ τ) (hw : env.Within τ) (hwR : env.WithinR τ) (s : Sim Nx Ny) (hv : s.Valid) (hp : s.pol = .Ez) (hx : 1 < Nx) (hy : 1 < Ny)
    (m κ : ℝ) (h : Spec.RealKerr s m κ) (Z : Grid Nx Ny ℂ) (hZ : ∀ i j, Spec.nlResidual s Z i j = 0) (r Λ θ : ℝ) (hr : Spec.InexactNear s m κ Z r τ Λ θ) (hθ0 : 0 ≤ θ) (hθ : θ ≤ 1 / 2)
    (S : ℝ) (hS0 : 0 ≤ S) (hS : ∀ i j, ‖s.src i j‖ ≤ S) (E : Option (Grid Nx Ny ℂ)) (hE : ∀ E0, Spec.StartsAt env s E E0 → ∀ i j, ‖E0 i j - Z i j‖ ≤ r) (thr : ℝ) (n : ℕ) :
    ∃ R s' k c, solve_fields_nl env s E .newton thr (n + 1) = (.ok R, s') ∧ s'.fields_nl .Ez = some R.Fz ∧ k ≤ n ∧ R.conv[k]? = some c ∧ (c.Lt thr ∨ k = n) ∧
      (∀ l, k < l → l ≤ n → R.conv[l]? = some (.fin 0)) ∧
      ∀ i j, ‖R.Fz i j - Z i j‖ ≤ Spec.kerrRatio s m κ * (‖Z‖ * (2 * ‖Z‖ + r)) * (r * (1 / 2 + θ) ^ (k + 1)) + τ * (s.omega * S) / Spec.margin s m := by
  obtain ⟨R, s1, hR⟩ := newton_solve_ok env hb s hp E thr n
  obtain ⟨E0, fl, k, it, -, hst, hk, h0, hstep, hfin, hs', hnot, hstop, hlen, hrow, hzero⟩ := newton_solve_spec env s E thr n R s1 hR
  have hpol : s1.pol = .Ez := by rw [hs']; exact hp
  refine ⟨R, { s1 with fields_nl := Sim.store s1.pol s1.fields_nl (R.Fx, R.Fy, R.Fz) }, k, _, ?_, ?_, hk, hrow k le_rfl, hstop, fun l h1 h2 => hzero l h1 (by omega), fun i j => ?_⟩
  · unfold solve_fields_nl
    simp only [hR]
  · show Sim.store s1.pol _ _ _ = _
    rw [hpol]
    rfl
  have hr0 := hr.near.nonneg
  have hst0 : ‖it 0 - Z‖ ≤ r := by
    rw [h0]
    exact grid_le_of_entries hr0 _ fun i j => hE E0 hst i j
  have hit := newton_iterates_inexact h hτ hwR hb hv hp hx hy hZ hr hθ0 hθ it (k + 1) hst0 (fun l hl => hstep l (by omega)) (k + 1) le_rfl
  have hFz : R.Fz = (bornStep env s (it (k + 1))).2.2 := by rw [← hfin]
  have hβ := h.ratio_nonneg hv hx hy
  have hle : ‖it (k + 1) - Z‖ ≤ r := hit.trans (by
    have : (1 / 2 + θ) ^ (k + 1) ≤ 1 := pow_le_one₀ (by linarith) (by linarith)
    nlinarith)
  refine (norm_entry_le (R.Fz - Z) i j).trans ?_
  rw [hFz]
  refine (h.born_step_inexact hw hv hp hx hy hZ (it (k + 1))).trans (add_le_add ?_ ?_)
  · gcongr
  · have := norm_rhs s hv.omega_pos S hS0 hS
    have hm := margin_pos h.coarse
    gcongr

/-- **C114, the threshold is reached.** If moreover `θ < 1/2`, the source is not zero and the threshold positive, Newton's solver stops below its threshold after a number of steps that depends neither on the
start nor on the solver: however small the threshold, the accuracy `τ` need not be improved (compare `C112_stall`). -/
theorem C114_converges (τ : ℝ) (hτ : 0 ≤ τ) (s : Sim Nx Ny) (hv : s.Valid) (hp : s.pol = .Ez) (hx : 1 < Nx) (hy : 1 < Ny) (m κ : ℝ) (h : Spec.RealKerr s m κ) (Z : Grid Nx Ny ℂ)
    (hZ : ∀ i j, Spec.nlResidual s Z i j = 0) (r Λ θ : ℝ) (hr : Spec.InexactNear s m κ Z r τ Λ θ) (hθ0 : 0 ≤ θ) (hθ : θ < 1 / 2) (hsrc : s.src ≠ 0) (thr : ℝ) (ht : 0 < thr) :
    ∃ N, ∀ env : Env, env.backend = .pardiso → env.WithinR τ → ∀ n, N ≤ n → ∀ E : Option (Grid Nx Ny ℂ), (∀ E0, Spec.StartsAt env s E E0 → ∀ i j, ‖E0 i j - Z i j‖ ≤ r) →
      ∃ R s' k c, solve_fields_nl env s E .newton thr n = (.ok R, s') ∧ k ≤ N ∧ R.conv[k]? = some c ∧ c.Lt thr := by
  have hZ0 : Z ≠ 0 := by
    rintro rfl
    apply hsrc
    funext i j
    have h1 := hZ i j
    unfold Spec.nlResidual at h1
    rw [show flatten (0 : Grid Nx Ny ℂ) = 0 from rfl, Matrix.mulVec_zero] at h1
    have h2 : Complex.I * (s.omega : ℂ) * s.src i j = 0 := by
      simp only [Pi.zero_apply, mul_zero, zero_add, zero_sub, neg_eq_zero] at h1
      exact h1
    have h3 : (s.omega : ℂ) ≠ 0 := by exact_mod_cast hv.omega_pos.ne'
    simpa [h3, Complex.I_ne_zero] using h2
  have hZn : 0 < ‖Z‖ := norm_pos_iff.2 hZ0
  have hr0 := hr.near.nonneg
  set C : ℝ := Real.sqrt (Nx * Ny) with hC
  have hC0 : 0 ≤ C := Real.sqrt_nonneg _
  have hlim : Filter.Tendsto (fun k : ℕ => r * (1 / 2 + θ) ^ k) Filter.atTop (nhds 0) := by
    simpa using (tendsto_pow_atTop_nhds_zero_of_lt_one (by linarith : (0 : ℝ) ≤ 1 / 2 + θ) (by linarith)).const_mul r
  obtain ⟨K, hK⟩ := (hlim.eventually (gt_mem_nhds (show 0 < min (‖Z‖ / 2) (thr * (‖Z‖ / 2) / (2 * C + 1)) by positivity))).exists
  have hsmall : ∀ k, K ≤ k → r * (1 / 2 + θ) ^ k < min (‖Z‖ / 2) (thr * (‖Z‖ / 2) / (2 * C + 1)) := fun k hk =>
    lt_of_le_of_lt (mul_le_mul_of_nonneg_left (pow_le_pow_of_le_one (by linarith) (by linarith) hk) hr0) hK
  have hconv : ∀ F G : Grid Nx Ny ℂ, ‖F - Z‖ < min (‖Z‖ / 2) (thr * (‖Z‖ / 2) / (2 * C + 1)) → ‖G - Z‖ < min (‖Z‖ / 2) (thr * (‖Z‖ / 2) / (2 * C + 1)) → (convergence F G).Lt thr := by
    intro F G s2 s1
    have hFlow : ‖Z‖ / 2 < ‖F‖ := by
      have h1 : ‖Z‖ ≤ ‖F‖ + ‖F - Z‖ := by
        have := norm_sub_le F (F - Z)
        rwa [sub_sub_cancel] at this
      have := lt_of_lt_of_le s2 (min_le_left _ _)
      linarith
    have hF0 : F ≠ 0 := by
      rintro h0
      rw [h0, norm_zero] at hFlow
      linarith
    have hd : ‖F - G‖ ≤ 2 * (thr * (‖Z‖ / 2) / (2 * C + 1)) := by
      have h1 : ‖F - G‖ ≤ ‖F - Z‖ + ‖G - Z‖ := by
        have := norm_sub_le (F - Z) (G - Z)
        rwa [sub_sub_sub_cancel_right] at this
      have a1 := lt_of_lt_of_le s1 (min_le_right _ _)
      have a2 := lt_of_lt_of_le s2 (min_le_right _ _)
      linarith
    rw [(convergence_spec F G).1 hF0]
    show _ / _ < thr
    have hnum : Real.sqrt (∑ i, ∑ j, ‖F i j - G i j‖ ^ 2) ≤ C * ‖F - G‖ := laNorm_le_sqrt (F - G)
    have hden : ‖F‖ ≤ Real.sqrt (∑ i, ∑ j, ‖F i j‖ ^ 2) := norm_le_laNorm' F
    rw [div_lt_iff₀ (by linarith)]
    calc Real.sqrt (∑ i, ∑ j, ‖F i j - G i j‖ ^ 2) ≤ C * (2 * (thr * (‖Z‖ / 2) / (2 * C + 1))) := hnum.trans (mul_le_mul_of_nonneg_left hd hC0)
      _ = thr * (‖Z‖ / 2) * (2 * C / (2 * C + 1)) := by ring
      _ ≤ thr * (‖Z‖ / 2) * 1 := by
        refine mul_le_mul_of_nonneg_left ?_ (by positivity)
        rw [div_le_one (by positivity)]
        linarith
      _ < thr * Real.sqrt (∑ i, ∑ j, ‖F i j‖ ^ 2) := by
        rw [mul_one]
        exact mul_lt_mul_of_pos_left (by linarith) ht
  refine ⟨K + 1, fun env hb hwR n hn E hE => ?_⟩
  obtain ⟨n, rfl⟩ : ∃ p, n = p + 1 := ⟨n - 1, by omega⟩
  obtain ⟨R, s1, hR⟩ := newton_solve_ok env hb s hp E thr n
  obtain ⟨E0, fl, k, it, -, hst, hk, h0, hstep, hfin, hs', hnot, hstop, hlen, hrow, hzero⟩ := newton_solve_spec env s E thr n R s1 hR
  have hst0 : ‖it 0 - Z‖ ≤ r := by
    rw [h0]
    exact grid_le_of_entries hr0 _ fun i j => hE E0 hst i j
  have hit := newton_iterates_inexact h hτ hwR hb hv hp hx hy hZ hr hθ0 hθ.le it (k + 1) hst0 (fun l hl => hstep l (by omega))
  have hbelow : K ≤ k → (convergence (it (K + 1)) (it K)).Lt thr := fun hKk =>
    hconv _ _ (lt_of_le_of_lt (hit (K + 1) (by omega)) (hsmall _ (by omega))) (lt_of_le_of_lt (hit K (by omega)) (hsmall _ le_rfl))
  have hkK : k ≤ K := by
    by_contra hlt
    exact hnot K (by omega) (hbelow (by omega))
  have hlt : (convergence (it (k + 1)) (it k)).Lt thr := by
    rcases hstop with h1 | h1
    · exact h1
    · obtain rfl : k = K := by omega
      exact hbelow le_rfl
  refine ⟨R, { s1 with fields_nl := Sim.store s1.pol s1.fields_nl (R.Fx, R.Fy, R.Fz) }, k, _, ?_, by omega, hrow k le_rfl, hlt⟩
  unfold solve_fields_nl
  simp only [hR]

/-- **C114, one accuracy for all thresholds.** Every solution `Z ≠ 0` of a coarse device with a real Kerr coefficient has a neighbourhood and an accuracy of the linear solver with which Newton's solver started in the
neighbourhood reaches every positive threshold. -/
theorem C114_accuracy (s : Sim Nx Ny) (hv : s.Valid) (hp : s.pol = .Ez) (hx : 1 < Nx) (hy : 1 < Ny) (m κ : ℝ) (h : Spec.RealKerr s m κ) (Z : Grid Nx Ny ℂ)
    (hZ : ∀ i j, Spec.nlResidual s Z i j = 0) (hsrc : s.src ≠ 0) :
    ∃ τ r : ℝ, 0 < τ ∧ 0 < r ∧ ∀ thr, 0 < thr → ∃ N, ∀ env : Env, env.backend = .pardiso → env.WithinR τ → ∀ n, N ≤ n → ∀ E : Grid Nx Ny ℂ, (∀ i j, ‖E i j - Z i j‖ ≤ r) →
      ∃ R s' k c, solve_fields_nl env s (some E) .newton thr n = (.ok R, s') ∧ k ≤ N ∧ R.conv[k]? = some c ∧ c.Lt thr := by
  have hm := margin_pos h.coarse
  have hβ := h.ratio_nonneg hv hx hy
  have hc : 0 ≤ s.omega ^ 2 * EPSILON_0 * s.L0 := by have := EPSILON_0_pos; have := hv.L0_pos; positivity
  obtain ⟨k0, hk0, hk1, -⟩ := h.coef ⟨0, by omega⟩ ⟨0, by omega⟩
  have hκ : 0 ≤ κ := hk0.trans hk1
  set β := Spec.kerrRatio s m κ with hβd
  obtain ⟨r, hrd⟩ : ∃ r, r = min 1 (1 / (2 * (β * (3 * ‖Z‖ + 2) + 1))) := ⟨_, rfl⟩
  have hD : 0 < 2 * (β * (3 * ‖Z‖ + 2) + 1) := by positivity
  have hr0 : 0 < r := by rw [hrd]; positivity
  have hr1 : r ≤ 1 := hrd ▸ min_le_left _ _
  have hr2 : r * (2 * (β * (3 * ‖Z‖ + 2) + 1)) ≤ 1 := by
    have : r ≤ 1 / (2 * (β * (3 * ‖Z‖ + 2) + 1)) := hrd ▸ min_le_right _ _
    rwa [le_div_iff₀ hD] at this
  have hnear : Spec.NewtonNear s m κ Z r := by
    refine ⟨hr0.le, ?_⟩
    rw [← hβd]
    have h1 : β * (3 * ‖Z‖ + 2 * r) * r ≤ β * (3 * ‖Z‖ + 2) * r := by
      have : 3 * ‖Z‖ + 2 * r ≤ 3 * ‖Z‖ + 2 := by linarith
      gcongr
    linarith
  set Λ : ℝ := ∑ k, ∑ l, ‖s.A k l‖ with hΛ
  have hΛ0 : 0 ≤ Λ := Finset.sum_nonneg fun k _ => Finset.sum_nonneg fun l _ => norm_nonneg _
  set L : ℝ := Λ + s.omega ^ 2 * EPSILON_0 * s.L0 * κ * (3 * ‖Z‖ ^ 2 + 3 * ‖Z‖ * r + r ^ 2) with hL
  have hL0 : 0 ≤ L := by positivity
  refine ⟨Spec.margin s m / (8 * (L + 1)), r, by positivity, hr0, fun thr ht => ?_⟩
  have hI : Spec.InexactNear s m κ Z r (Spec.margin s m / (8 * (L + 1))) Λ (1 / 4) := by
    refine ⟨hnear, fun k => ?_, ?_⟩
    · exact Finset.single_le_sum (f := fun k => ∑ l, ‖s.A k l‖) (fun k _ => Finset.sum_nonneg fun l _ => norm_nonneg _) (Finset.mem_univ k)
    · rw [← hL]
      have h1 : 2 * (Spec.margin s m / (8 * (L + 1))) * L = 1 / 4 * Spec.margin s m * (L / (L + 1)) := by
        field_simp
        ring
      rw [h1]
      refine mul_le_of_le_one_right (by positivity) ?_
      rw [div_le_one (by positivity)]
      linarith
  obtain ⟨N, hN⟩ := C114_converges (Spec.margin s m / (8 * (L + 1))) (by positivity) s hv hp hx hy m κ h Z hZ r Λ (1 / 4) hI (by norm_num) (by norm_num) hsrc thr ht
  exact ⟨N, fun env hb hw n hn E hE => hN env hb hw n hn (some E) fun E0 hst i j => by rw [hst.1 E rfl]; exact hE i j⟩

/-! ## An example -/

/-- A solver that makes every right-hand side larger by `τ`. -/
noncomputable def swellEnv (τ : ℝ) : Env := ⟨.pardiso, fun A b => A⁻¹ *ᵥ (((1 + τ : ℝ) : ℂ) • b), fun A b => A⁻¹ *ᵥ ((1 + τ) • b)⟩

theorem swellEnv_within (τ : ℝ) (hτ : 0 ≤ τ) : (swellEnv τ).Within τ ∧ (swellEnv τ).WithinR τ := by
  constructor
  · intro n A b hA
    have h1 : A *ᵥ (swellEnv τ).solveC A b = ((1 + τ : ℝ) : ℂ) • b := by
      show A *ᵥ (A⁻¹ *ᵥ _) = _
      rw [Matrix.mulVec_mulVec, Matrix.mul_nonsing_inv A (isUnit_iff_ne_zero.2 hA), Matrix.one_mulVec]
    rw [h1, Complex.ofReal_add, Complex.ofReal_one, add_smul, one_smul, add_sub_cancel_left, norm_smul, Complex.norm_real, Real.norm_of_nonneg hτ]
  · intro n A b hA
    have h1 : A *ᵥ (swellEnv τ).solveR A b = (1 + τ) • b := by
      show A *ᵥ (A⁻¹ *ᵥ _) = _
      rw [Matrix.mulVec_mulVec, Matrix.mul_nonsing_inv A (isUnit_iff_ne_zero.2 hA), Matrix.one_mulVec]
    rw [h1, add_smul, one_smul, add_sub_cancel_left, norm_smul, Real.norm_of_nonneg hτ]

/-- Devices of every size with absorbing layers, driven at one pixel, and a solver that is never exact: Newton's solver reaches every threshold. -/
example (hx : 1 < Nx) (hy : 1 < Ny) (x : Fin Nx) (y : Fin Ny) (eps : Grid Nx Ny ℂ) (hr : ∀ i j, 1 ≤ (eps i j).re) :
    ∃ (Z : Grid Nx Ny ℂ) (τ r : ℝ), 0 < τ ∧ 0 < r ∧ (∀ i j, Spec.nlResidual (cksim 5 1 eps fun i j => if i = x ∧ j = y then 1 / 100 else 0) Z i j = 0) ∧
      ∀ thr, 0 < thr → ∃ (n k : ℕ) (R : NlResult Nx Ny) (s' : Sim Nx Ny) (c : PyFloat),
        solve_fields_nl (swellEnv τ) (cksim 5 1 eps fun i j => if i = x ∧ j = y then 1 / 100 else 0) (some fun i j => Z i j + r) .newton thr n = (.ok R, s') ∧ R.conv[k]? = some c ∧ c.Lt thr := by
  set src : Grid Nx Ny ℂ := fun i j => if i = x ∧ j = y then 1 / 100 else 0 with hs
  have hw := cksim_weak 5 1 (1 / 100) zero_le_one (by norm_num) (by norm_num) eps src hr fun i j => by
    simp only [hs]
    split_ifs <;> norm_num
  have hk : Spec.RealKerr (cksim 5 1 eps src) 1 (3 * 1) := by
    refine ⟨hr, cksim_coarse 5 1 eps src, fun i j => ⟨3, by norm_num, by norm_num, ?_⟩⟩
    simp [Spec.kerrSum, Spec.kerrCoef, cksim]
  have hsrc : (cksim 5 1 eps src).src ≠ 0 := fun h => by
    have := congrFun (congrFun h x) y
    simp [cksim, fsim, hs] at this
  obtain ⟨Z, hZ, -, -⟩ := C76_unique_solution _ (cksim_valid 5 1 eps src) rfl hx hy _ _ _ hw
  obtain ⟨τ, r, hτ, hr0, hall⟩ := C114_accuracy _ (cksim_valid 5 1 eps src) rfl hx hy _ _ hk Z hZ hsrc
  refine ⟨Z, τ, r, hτ, hr0, hZ, fun thr ht => ?_⟩
  obtain ⟨N, hN⟩ := hall thr ht
  obtain ⟨R, s', k, c, h1, -, h2, h3⟩ := hN (swellEnv τ) rfl (swellEnv_within τ hτ.le).2 N le_rfl (fun i j => Z i j + r) fun i j => by
    rw [add_sub_cancel_left, Complex.norm_real, Real.norm_of_nonneg hr0.le]
  exact ⟨N, k, R, s', c, h1, h2, h3⟩

end Angler
