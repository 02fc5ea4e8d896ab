import Verif.Model.Krylov
import Verif.Props.Tolerance

/-! # C83 — the Krylov solver -/

namespace Angler

open Matrix

variable {Nx Ny : ℕ}

/-! ## Specification -/

/-- The contract of the external root finder (`scipy` default: largest residual at most `f_tol`): what it returns, if it returns, is a root up to `tol`. -/
def Spec.Meets (rf : RootFinder) (tol : ℝ) : Prop := ∀ n f x0 x, (rf n f x0).2 = some x → ∀ k, ‖f x k‖ ≤ tol

/-! ## Auxiliary facts -/

theorem krylov_residual (s : Sim Nx Ny) (F E : Grid Nx Ny ℂ) (i : Fin Nx) (j : Fin Ny) :
    (nl_eq_and_jac (s.compute_nl F) E).1.1 (finProdFinEquiv (i, j)) = Spec.nlResidual s E i j := by
  have h1 : (nl_eq_and_jac (s.compute_nl F) E).1.1 = (nl_eq_and_jac s E).1.1 := rfl
  rw [h1, nl_eq_residual]
  beta_reduce
  simp only [flatten_pair]
  unfold Spec.nlResidual
  push_cast
  ring

theorem krylovStart_state (env : Env) (s : Sim Nx Ny) (E : Option (Grid Nx Ny ℂ)) : ∃ E0 fl, krylovStart env s E = (.ok E0, { s with fields := fl }) := by
  unfold krylovStart
  cases E with
  | some e => exact ⟨_, s.fields, rfl⟩
  | none =>
    cases s.fields .Ez with
    | some f => exact ⟨_, s.fields, rfl⟩
    | none => exact ⟨_, _, rfl⟩

theorem krylov_ok {rf : RootFinder} {env : Env} {s : Sim Nx Ny} {E : Option (Grid Nx Ny ℂ)} {thr : ℝ} {n : ℕ} {r : KrylovResult Nx Ny} {s' : Sim Nx Ny}
    (h : newton_krylov_solve rf env s E thr n = (.ok r, s')) :
    s.pol = .Ez ∧ ∃ fl E0 s1 pts, s1 = ({ s with fields := fl } : Sim Nx Ny) ∧ rf (Nx * Ny) (fun x => (nl_eq_and_jac (s1.compute_nl E0) (unflatten x)).1.1) (flatten E0) = (pts, some r.Fz) ∧
      r = ⟨r.Fz, r.Fz, r.Fz, List.replicate n (.fin 0)⟩ ∧ s' = pts.foldl (fun s x => (nl_eq_and_jac s (unflatten x)).2) (s1.compute_nl E0) := by
  obtain ⟨E0, fl, hst⟩ := krylovStart_state env s E
  unfold newton_krylov_solve at h
  generalize hs1 : ({ s with fields := fl } : Sim Nx Ny) = s1 at hst
  have hp1 : s1.pol = s.pol := by rw [← hs1]
  rw [hst] at h
  simp only [hp1] at h
  have hpp : s.pol = .Hz ∨ s.pol = .Ez := by cases s.pol <;> simp
  rcases hpp with hp | hp
  · simp [hp] at h
  · simp only [hp] at h
    refine ⟨hp, fl, E0, s1, ?_⟩
    have e2 : (nl_eq_and_jac s1 E0).2 = s1.compute_nl E0 := rfl
    rw [e2] at h
    generalize hr : rf (Nx * Ny) (fun x => (nl_eq_and_jac (s1.compute_nl E0) (unflatten x)).1.1) (flatten E0) = R at h
    obtain ⟨pts, res⟩ := R
    cases res with
    | none => simp at h
    | some x =>
      simp only [Prod.mk.injEq, Except.ok.injEq] at h
      obtain ⟨rfl, rfl⟩ := h
      exact ⟨pts, hs1.symm, rfl, rfl, rfl⟩

/-! ## The theorems -/

/-- **C83, what is returned.** Whenever the Krylov solver returns, the field it returns (reshaped) satisfies the Kerr equation of the device up to the tolerance of the root finder at every cell, and all
convergence entries are 0, whether or not the field is accurate. -/
theorem C83_residual (rf : RootFinder) (tol : ℝ) (hrf : Spec.Meets rf tol) (env : Env) (s : Sim Nx Ny) (E : Option (Grid Nx Ny ℂ)) (thr : ℝ) (n : ℕ) (r : KrylovResult Nx Ny) (s' : Sim Nx Ny)
    (h : newton_krylov_solve rf env s E thr n = (.ok r, s')) :
    s.pol = .Ez ∧ (∀ i j, ‖Spec.nlResidual s (unflatten r.Fz) i j‖ ≤ tol) ∧ r.conv = List.replicate n (.fin 0) := by
  obtain ⟨hp, fl, E0, s1, pts, rfl, hr, hres, -⟩ := krylov_ok h
  refine ⟨hp, fun i j => ?_, by rw [hres]⟩
  have h1 := hrf _ _ _ r.Fz (by rw [hr]) (finProdFinEquiv (i, j))
  beta_reduce at h1
  rw [krylov_residual] at h1
  exact h1

/-- **C83, settings.** The convergence threshold has no effect, and the iteration limit only on the length of the convergence array: the field and the state left behind are the same for all settings. -/
theorem C83_settings_ignored (rf : RootFinder) (env : Env) (s : Sim Nx Ny) (E : Option (Grid Nx Ny ℂ)) (thr thr' : ℝ) (n n' : ℕ) :
    newton_krylov_solve rf env s E thr n = newton_krylov_solve rf env s E thr' n ∧
    (newton_krylov_solve rf env s E thr n).2 = (newton_krylov_solve rf env s E thr n').2 ∧
    (newton_krylov_solve rf env s E thr n).1.map (fun r => (r.Fx, r.Fy, r.Fz)) = (newton_krylov_solve rf env s E thr n').1.map (fun r => (r.Fx, r.Fy, r.Fz)) := by
  refine ⟨rfl, ?_, ?_⟩
  all_goals
    unfold newton_krylov_solve
    generalize krylovStart env s E = K
    obtain ⟨e | E0, s1⟩ := K
    · rfl
    · cases hp : s1.pol with
      | Hz => simp only [hp]
      | Ez =>
        simp only [hp]
        generalize rf (Nx * Ny) (fun x => (nl_eq_and_jac (nl_eq_and_jac s1 E0).2 (unflatten x)).1.1) (flatten E0) = R
        obtain ⟨pts, _ | x⟩ := R <;> rfl

/-- **C83, Hz.** For the Hz polarisation the solver always raises `ValueError`. -/
theorem C83_Hz (rf : RootFinder) (env : Env) (s : Sim Nx Ny) (hp : s.pol = .Hz) (E : Option (Grid Nx Ny ℂ)) (thr : ℝ) (n : ℕ) :
    (newton_krylov_solve rf env s E thr n).1 = .error (.py .valueError) := by
  unfold newton_krylov_solve krylovStart
  cases E with
  | some e => simp [hp]
  | none =>
    cases hf : s.fields .Ez with
    | some f => simp [hp]
    | none =>
      have h1 : ∃ t fl, s.solve_fields env = (.ok t, { s with fields := fl }) := ⟨_, _, rfl⟩
      obtain ⟨t, fl, h1⟩ := h1
      rw [h1]
      simp [Except.map, hp]

/-- **C83, error.** On a weak Kerr device whose Kerr change stays within the margin with `tol / margin` to spare, the field returned is within `tol / (margin (1 - q))` of the exact Kerr field, at every
cell. -/
theorem C83_error (rf : RootFinder) (tol : ℝ) (hrf : Spec.Meets rf tol) (env : Env) (s : Sim Nx Ny) (hv : s.Valid) (hx : 1 < Nx) (hy : 1 < Ny) (m κ R : ℝ)
    (h : Spec.WeakKerr s m κ R) (htol : 0 ≤ tol) (q : ℝ) (hq : s.omega ^ 2 * EPSILON_0 * s.L0 * κ * (2 * R + tol / Spec.margin s m) * R ≤ q * Spec.margin s m) (hq1 : q < 1)
    (Z : Grid Nx Ny ℂ) (hZ : ∀ i j, Spec.nlResidual s Z i j = 0) (E : Option (Grid Nx Ny ℂ)) (thr : ℝ) (n : ℕ) (r : KrylovResult Nx Ny) (s' : Sim Nx Ny)
    (hr : newton_krylov_solve rf env s E thr n = (.ok r, s')) (i : Fin Nx) (j : Fin Ny) :
    ‖r.Fz (finProdFinEquiv (i, j)) - Z i j‖ ≤ tol / (Spec.margin s m * (1 - q)) := by
  obtain ⟨hp, hres, -⟩ := C83_residual rf tol hrf env s E thr n r s' hr
  set F : Grid Nx Ny ℂ := unflatten r.Fz with hF
  have he := exactEnv_exact .pardiso
  have hm := margin_pos h.coarse
  have hR := h.R_nonneg hv hx hy
  have hk := h.kappa_nonneg hx hy
  set c : ℝ := s.omega ^ 2 * EPSILON_0 * s.L0 with hcdef
  have hc : 0 ≤ c := by have := EPSILON_0_pos; have := hv.L0_pos; positivity
  have hfix := (nlResidual_zero_iff he s Z (h.bornMat_det hv hp hx hy Z)).1 hZ
  have hZR : ‖Z‖ ≤ R := by rw [← hfix]; exact h.step_bound he hv hp hx hy Z
  have hbm : ∀ G f : Grid Nx Ny ℂ, ∀ i j, (bornMat s G *ᵥ flatten f) (finProdFinEquiv (i, j)) =
      (s.A *ᵥ flatten f) (finProdFinEquiv (i, j)) + (c : ℂ) * (Spec.kerrSum s.nonlinearity s.eps_r i j * (‖G i j‖ : ℂ) ^ 2) * f i j := by
    intro G f i j
    unfold bornMat
    rw [Matrix.add_mulVec, kerrMat_mulVec, Pi.add_apply, flatten_pair, ← hcdef]
    push_cast
    ring
  have hFb : Spec.margin s m * ‖F‖ ≤ Spec.margin s m * R + tol := by
    refine (h.frozen_bound hv hp hx hy F F (fun i j => Complex.I * s.omega * s.src i j + Spec.nlResidual s F i j) ?_).trans ?_
    · refine flat_ext fun i j => ?_
      rw [hbm, flatten_pair]
      unfold Spec.nlResidual
      rw [← hcdef]
      ring
    · have hnn : 0 ≤ Spec.margin s m * R + tol := by positivity
      refine (pi_norm_le_iff_of_nonneg hnn).2 fun i => (pi_norm_le_iff_of_nonneg hnn).2 fun j => ?_
      refine (norm_add_le _ _).trans (add_le_add ?_ (hres i j))
      rw [norm_mul, norm_mul, Complex.norm_I, one_mul, Complex.norm_real, Real.norm_of_nonneg hv.omega_pos.le]
      exact h.source i j
  have hFR : ‖F‖ ≤ R + tol / Spec.margin s m := by
    refine le_of_mul_le_mul_left ?_ hm
    rw [mul_add, mul_div_cancel₀ _ hm.ne']
    exact hFb
  have hd := h.frozen_bound hv hp hx hy F (F - Z) (fun i j => Spec.nlResidual s F i j + (c : ℂ) * (Spec.kerrSum s.nonlinearity s.eps_r i j * ((‖Z i j‖ ^ 2 - ‖F i j‖ ^ 2 : ℝ) : ℂ)) * Z i j) (by
    refine flat_ext fun i j => ?_
    rw [hbm, flatten_pair]
    have e : (flatten (F - Z) : Vec (Nx * Ny) ℂ) = flatten F - flatten Z := rfl
    have h0 := hZ i j
    unfold Spec.nlResidual at h0 ⊢
    rw [← hcdef] at h0 ⊢
    rw [e, Matrix.mulVec_sub, Pi.sub_apply]
    simp only [Pi.sub_apply]
    push_cast
    linear_combination -h0)
  have hle : ‖(fun i j => Spec.nlResidual s F i j + (c : ℂ) * (Spec.kerrSum s.nonlinearity s.eps_r i j * ((‖Z i j‖ ^ 2 - ‖F i j‖ ^ 2 : ℝ) : ℂ)) * Z i j : Grid Nx Ny ℂ)‖ ≤
      tol + c * κ * (2 * R + tol / Spec.margin s m) * R * ‖F - Z‖ := by
    have ht : 0 ≤ tol / Spec.margin s m := by positivity
    have hnn : 0 ≤ tol + c * κ * (2 * R + tol / Spec.margin s m) * R * ‖F - Z‖ := by positivity
    refine (pi_norm_le_iff_of_nonneg hnn).2 fun i => (pi_norm_le_iff_of_nonneg hnn).2 fun j => ?_
    refine (norm_add_le _ _).trans (add_le_add (hres i j) ?_)
    have h1 : ‖Z i j‖ ≤ R := (norm_entry_le _ _ _).trans hZR
    have h2 : ‖F i j‖ ≤ R + tol / Spec.margin s m := (norm_entry_le _ _ _).trans hFR
    have h3 := h.kerr i j
    have h4 : |‖Z i j‖ ^ 2 - ‖F i j‖ ^ 2| ≤ ‖F - Z‖ * (2 * R + tol / Spec.margin s m) := by
      rw [sq_sub_sq, abs_mul, mul_comm, abs_of_nonneg (by positivity : 0 ≤ ‖Z i j‖ + ‖F i j‖)]
      refine mul_le_mul ?_ (by linarith) (by positivity) (norm_nonneg _)
      refine (abs_norm_sub_norm_le _ _).trans ?_
      rw [norm_sub_rev]
      exact norm_entry_le (F - Z) i j
    rw [norm_mul, norm_mul, norm_mul, Complex.norm_real, Complex.norm_real, Real.norm_of_nonneg hc, Real.norm_eq_abs]
    calc c * (‖Spec.kerrSum s.nonlinearity s.eps_r i j‖ * |‖Z i j‖ ^ 2 - ‖F i j‖ ^ 2|) * ‖Z i j‖ ≤ c * (κ * (‖F - Z‖ * (2 * R + tol / Spec.margin s m))) * R := by gcongr
      _ = c * κ * (2 * R + tol / Spec.margin s m) * R * ‖F - Z‖ := by ring
  have hfin : ‖F - Z‖ ≤ tol / (Spec.margin s m * (1 - q)) := by
    rw [le_div_iff₀ (mul_pos hm (by linarith))]
    have h5 := hd.trans hle
    have h6 := mul_le_mul_of_nonneg_right hq (norm_nonneg (F - Z))
    linarith
  exact (norm_entry_le (F - Z) i j).trans hfin

/-- **C83, the magnetic fields.** The arrays returned as `Hx` and `Hy` are the electric field: unless it is zero, `Hx` violates Faraday's law `i ω μ₀ Hx = -∂y Ez`, on every device. -/
theorem C83_false_magnetic (rf : RootFinder) (env : Env) (s : Sim Nx Ny) (hv : s.Valid) (hdl : 0 < s.dl) (hx : 1 < Nx) (hy : 1 < Ny) (E : Option (Grid Nx Ny ℂ)) (thr : ℝ) (n : ℕ)
    (r : KrylovResult Nx Ny) (s' : Sim Nx Ny) (h : newton_krylov_solve rf env s E thr n = (.ok r, s')) (hne : r.Fz ≠ 0) :
    r.Fx = r.Fz ∧ r.Fy = r.Fz ∧ (Complex.I * s.omega * (MU_0 * s.L0 : ℝ)) • r.Fx ≠ -(s.derivs.Dyb *ᵥ r.Fz) := by
  obtain ⟨hp, fl, E0, s1, pts, rfl, hr, hres, -⟩ := krylov_ok h
  refine ⟨by rw [hres], by rw [hres], fun hF => hne ?_⟩
  rw [show r.Fx = r.Fz by rw [hres]] at hF
  set f : Grid Nx Ny ℂ := unflatten r.Fz with hf
  have hfl : r.Fz = flatten f := (flatten_unflatten _).symm
  rw [hfl, hv.derivs_eq, mkDerivs_Dyb _ _ _ _ _ hy, hv.dL_eq (by omega) (by omega)] at hF
  have hyr : s.yrange.1 < s.yrange.2 := by
    rw [hv.yr]
    have : (0 : ℝ) < Ny := by exact_mod_cast (show 0 < Ny by omega)
    exact mul_pos this hdl
  have hμ := MU_0_pos
  have hL := hv.L0_pos
  have ho := hv.omega_pos
  have key : ∀ i j, f i j ≠ 0 → ‖f i j‖ < ‖f i (Spec.prev j)‖ := by
    intro i j hij
    have h1 := congrFun hF (finProdFinEquiv (i, j))
    obtain ⟨c1, c2, c3, -⟩ := C10_pml_factors s.yrange hyr s.L0 s.omega hL ho .b Ny s.NPML.2 j
    simp only [Pi.smul_apply, Pi.neg_apply, flatten_pair, smul_eq_mul, Spec.bwdY] at h1
    generalize create_sfactor s.yrange s.L0 .b s.omega Ny s.NPML.2 j = σ at h1 c1 c2 c3
    have hd : ((s.dl : ℝ) : ℂ) ≠ 0 := by exact_mod_cast hdl.ne'
    have h2 : f i (Spec.prev j) = (1 + Complex.I * ((s.omega * (MU_0 * s.L0) * s.dl : ℝ) : ℂ) * σ) * f i j := by
      field_simp at h1
      push_cast at h1 ⊢
      linear_combination -h1
    rw [h2, norm_mul]
    have hα : 0 < s.omega * (MU_0 * s.L0) * s.dl := by positivity
    generalize s.omega * (MU_0 * s.L0) * s.dl = α at hα
    have h3 : 1 < ‖1 + Complex.I * (α : ℂ) * σ‖ := by
      have hre : (1 + Complex.I * (α : ℂ) * σ).re = 1 - α * σ.im := by simp [Complex.mul_re, Complex.mul_im, sub_eq_add_neg]
      have him : (1 + Complex.I * (α : ℂ) * σ).im = α := by simp [Complex.mul_re, Complex.mul_im, c1]
      have h4 : 1 < ‖1 + Complex.I * (α : ℂ) * σ‖ ^ 2 := by
        rw [← Complex.normSq_eq_norm_sq, Complex.normSq_apply, hre, him]
        nlinarith [mul_nonneg hα.le (neg_nonneg.2 c2), sq_nonneg (α * σ.im)]
      by_contra h5
      have h6 := not_lt.1 h5
      nlinarith [norm_nonneg (1 + Complex.I * (α : ℂ) * σ)]
    exact lt_mul_of_one_lt_left (norm_pos_iff.2 hij) h3
  have hzero : f = 0 := by
    funext i j
    obtain ⟨j1, -, hj1⟩ := Finset.exists_max_image (Finset.univ : Finset (Fin Ny)) (fun j => ‖f i j‖) ⟨j, Finset.mem_univ _⟩
    have h0 : f i j1 = 0 := by
      by_contra hc
      exact absurd (hj1 (Spec.prev j1) (Finset.mem_univ _)) (not_le.2 (key i j1 hc))
    have h1 := hj1 j (Finset.mem_univ _)
    simp only [h0, norm_zero] at h1
    exact norm_le_zero_iff.1 h1
  rw [hfl, hzero]
  rfl

/-! ## A concrete case -/

open Classical in
/-- A root finder that finds a root if there is one. -/
noncomputable def exactRoot : RootFinder := fun _ f x0 => if h : ∃ x, f x = 0 then ([x0, h.choose], some h.choose) else ([x0], none)

theorem exactRoot_meets (tol : ℝ) (htol : 0 ≤ tol) : Spec.Meets exactRoot tol := by
  intro n f x0 x h k
  unfold exactRoot at h
  split_ifs at h with hex
  simp only [Option.some.injEq] at h
  rw [← h, hex.choose_spec]
  simpa using htol

/-- A point source of strength 1/100 on any grid in any permittivity of real part at least 1: the Krylov solver returns the Kerr field up to `20 tol` for every tolerance `tol ≤ 1/1000`, and
its magnetic fields are wrong. -/
example (env : Env) (hx : 1 < Nx) (hy : 1 < Ny) (eps : Grid Nx Ny ℂ) (hr : ∀ i j, 1 ≤ (eps i j).re) (x : Fin Nx) (y : Fin Ny) (tol : ℝ) (h0 : 0 ≤ tol) (h1 : tol ≤ 1 / 1000) :
    let s : Sim Nx Ny := cksim 5 1 eps fun i j => if i = x ∧ j = y then 1 / 100 else 0
    ∃ Z r s', (∀ i j, Spec.nlResidual s Z i j = 0) ∧ newton_krylov_solve exactRoot env s none 1e-10 50 = (.ok r, s') ∧ (∀ i j, ‖r.Fz (finProdFinEquiv (i, j)) - Z i j‖ ≤ 20 * tol) ∧
      (Complex.I * s.omega * (MU_0 * s.L0 : ℝ)) • r.Fx ≠ -(s.derivs.Dyb *ᵥ r.Fz) := by
  intro s
  have hw : Spec.WeakKerr s 1 (3 * 1) (9 * (1 / 100)) := cksim_weak 5 1 (1 / 100) zero_le_one (by norm_num) (by norm_num) eps _ hr fun i j => by split_ifs <;> simp
  have hv : s.Valid := cksim_valid _ _ _ _
  have hmar : Spec.margin s 1 = 1 / 9 := cksim_margin 5 1 eps _
  obtain ⟨Z, hZ, -, -⟩ := C76_unique_solution _ hv rfl hx hy _ _ _ hw
  have hex : ∃ r s', newton_krylov_solve exactRoot env s none 1e-10 50 = (.ok r, s') := by
    obtain ⟨E0, fl, hst⟩ := krylovStart_state env s none
    unfold newton_krylov_solve
    rw [hst]
    simp only
    have hroot : ∃ v, (fun v => (nl_eq_and_jac (nl_eq_and_jac ({ s with fields := fl } : Sim Nx Ny) E0).2 (unflatten v)).1.1) v = 0 := by
      refine ⟨flatten Z, flat_ext fun i j => ?_⟩
      have e1 : (nl_eq_and_jac (nl_eq_and_jac ({ s with fields := fl } : Sim Nx Ny) E0).2 (unflatten (flatten Z))).1.1 = (nl_eq_and_jac (s.compute_nl E0) Z).1.1 := by
        rw [unflatten_flatten]
        rfl
      beta_reduce
      rw [e1, krylov_residual]
      exact hZ i j
    have hpol : ({ s with fields := fl } : Sim Nx Ny).pol = .Ez := rfl
    unfold exactRoot
    rw [dif_pos hroot]
    exact ⟨_, _, rfl⟩
  obtain ⟨r, s', hr'⟩ := hex
  have hc : (1 : ℝ) ^ 2 * EPSILON_0 * (1 / EPSILON_0) = 1 := by rw [one_pow, one_mul, mul_one_div_cancel EPSILON_0_pos.ne']
  have herr := fun i j => C83_error exactRoot tol (exactRoot_meets tol h0) env s hv hx hy _ _ _ hw h0 (1 / 2) (by
    rw [hmar]
    show (1 : ℝ) ^ 2 * EPSILON_0 * (1 / EPSILON_0) * (3 * 1) * _ * _ ≤ _
    rw [hc]
    linarith) (by norm_num) Z hZ none 1e-10 50 r s' hr' i j
  refine ⟨Z, r, s', hZ, hr', fun i j => (herr i j).trans ?_, ?_⟩
  · rw [hmar]
    have e : tol / (1 / 9 * (1 - 1 / 2)) = 18 * tol := by ring
    rw [e]
    linarith
  · refine (C83_false_magnetic exactRoot env s hv (fsim_dl_pos 5 eps (fun i j => if i = x ∧ j = y then 1 / 100 else 0)) hx hy none 1e-10 50 r s' hr' fun hz => ?_).2.2
    have h2 := (C83_residual exactRoot 0 (exactRoot_meets 0 le_rfl) env s none 1e-10 50 r s' hr').2.1 x y
    rw [hz] at h2
    have h3 : Spec.nlResidual s (unflatten 0) x y = -(Complex.I * (1 / 100)) := by
      unfold Spec.nlResidual
      have e1 : (flatten (unflatten 0 : Grid Nx Ny ℂ) : Vec (Nx * Ny) ℂ) = 0 := flatten_unflatten _
      have e2 : (unflatten 0 : Grid Nx Ny ℂ) x y = 0 := rfl
      have e3 : s.src x y = 1 / 100 := by show (if x = x ∧ y = y then (1 / 100 : ℂ) else 0) = _; simp
      have e4 : s.omega = 1 := rfl
      rw [e1, e2, e3, e4, Matrix.mulVec_zero]
      simp
    rw [h3, norm_neg, norm_mul, Complex.norm_I] at h2
    norm_num at h2

end Angler
