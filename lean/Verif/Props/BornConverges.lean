import Verif.Lemmas.BornContraction
import Verif.Lemmas.KerrDominant

/-! # C76: convergence of the Born iteration -/

namespace Angler

open Matrix

variable {Nx Ny : ℕ}

/-! ## Auxiliary facts -/

/-- Solvers that invert the matrix: the assumption on the external solvers is satisfiable. -/
noncomputable def exactEnv (b : Backend) : Env := ⟨b, fun A v => A⁻¹ *ᵥ v, fun A v => A⁻¹ *ᵥ v⟩

theorem exactEnv_exact (b : Backend) : (exactEnv b).Exact := by
  refine ⟨fun A v hA => ?_, fun A v hA => ?_⟩
  · show A *ᵥ (A⁻¹ *ᵥ v) = v
    rw [Matrix.mulVec_mulVec, Matrix.mul_nonsing_inv A (isUnit_iff_ne_zero.2 hA), Matrix.one_mulVec]
  · show A *ᵥ (A⁻¹ *ᵥ v) = v
    rw [Matrix.mulVec_mulVec, Matrix.mul_nonsing_inv A (isUnit_iff_ne_zero.2 hA), Matrix.one_mulVec]

theorem norm_le_laNorm' (f : Grid Nx Ny ℂ) : ‖f‖ ≤ laNorm f :=
  (pi_norm_le_iff_of_nonneg (laNorm_nonneg f)).2 fun i => (pi_norm_le_iff_of_nonneg (laNorm_nonneg f)).2 fun j => norm_le_laNorm f i j

theorem laNorm_le_sqrt (f : Grid Nx Ny ℂ) : laNorm f ≤ Real.sqrt (Nx * Ny) * ‖f‖ := by
  have h0 : (0 : ℝ) ≤ Nx * Ny := by positivity
  rw [laNorm, ← Real.sqrt_sq (norm_nonneg f), ← Real.sqrt_mul h0]
  refine Real.sqrt_le_sqrt ?_
  calc ∑ i, ∑ j, ‖f i j‖ ^ 2 ≤ ∑ _i : Fin Nx, ∑ _j : Fin Ny, ‖f‖ ^ 2 := by
        refine Finset.sum_le_sum fun i _ => Finset.sum_le_sum fun j _ => ?_
        have := norm_entry_le f i j
        gcongr
    _ = Nx * Ny * ‖f‖ ^ 2 := by simp [mul_assoc]

/-- From the first pass on the iterates lie in the ball, and approach the solution geometrically. -/
theorem Spec.WeakKerr.iter_error {s : Sim Nx Ny} {m κ R : ℝ} (h : Spec.WeakKerr s m κ R) {env : Env} (he : env.Exact) (hv : s.Valid) (hp : s.pol = .Ez) (hx : 1 < Nx) (hy : 1 < Ny)
    {Z : Grid Nx Ny ℂ} (hZ : (bornStep env s Z).2.2 = Z) (E0 : Grid Nx Ny ℂ) (k : ℕ) :
    ‖bornIter env s E0 (k + 1)‖ ≤ R ∧ ‖bornIter env s E0 (k + 1) - Z‖ ≤ Spec.bornRate s m κ R ^ k * (2 * R) := by
  have hZR : ‖Z‖ ≤ R := by rw [← hZ]; exact h.step_bound he hv hp hx hy Z
  have hb : ∀ k, ‖bornIter env s E0 (k + 1)‖ ≤ R := fun k => by
    rw [bornIter_succ]; exact h.step_bound he hv hp hx hy _
  refine ⟨hb k, ?_⟩
  obtain ⟨hq0, -⟩ := h.rate_mem hv hx hy
  induction k with
  | zero =>
    rw [pow_zero, one_mul]
    exact (norm_sub_le _ _).trans (by linarith [hb 0])
  | succ k ih =>
    rw [bornIter_succ, ← hZ]
    refine (h.step_contracts he hv hp hx hy _ _ (hb k) hZR).trans ?_
    rw [pow_succ', mul_assoc]
    exact mul_le_mul_of_nonneg_left ih hq0

/-- The linear field is at most `R`. -/
theorem Spec.WeakKerr.linear_bound {s : Sim Nx Ny} {m κ R : ℝ} (h : Spec.WeakKerr s m κ R) {env : Env} (he : env.Exact) (hv : s.Valid) (hp : s.pol = .Ez) (hx : 1 < Nx) (hy : 1 < Ny) :
    ‖(unflatten (solver_direct env s.A s.rhs) : Grid Nx Ny ℂ)‖ ≤ R := by
  have hm := margin_pos h.coarse
  have hR := h.R_nonneg hv hx hy
  obtain ⟨hdet, hbd⟩ := C75_coarse s hv hp hx hy m (fun i j => (h.perm i j).trans (Complex.re_le_norm _)) h.coarse
  have h7 := hbd (unflatten (solver_direct env s.A s.rhs))
  rw [flatten_unflatten, solver_direct_spec he (Or.inl hdet)] at h7
  refine le_of_mul_le_mul_left (h7.trans ?_) hm
  refine (pi_norm_le_iff_of_nonneg (mul_nonneg hm.le hR)).2 fun i => (pi_norm_le_iff_of_nonneg (mul_nonneg hm.le hR)).2 fun j => ?_
  have e : (unflatten s.rhs : Grid Nx Ny ℂ) i j = s.src i j * Complex.I * s.omega := by
    show s.rhs (finProdFinEquiv (i, j)) = _
    simp only [Sim.rhs, flatten_pair]
  rw [e, norm_mul, norm_mul, Complex.norm_I, mul_one, Complex.norm_real, Real.norm_of_nonneg hv.omega_pos.le, mul_comm]
  exact h.source i j

/-! ## The theorems -/

/-- **C76, the solution.** A weak Kerr device has exactly one field solving the nonlinear equation; it is at most `R`. -/
theorem C76_unique_solution (s : Sim Nx Ny) (hv : s.Valid) (hp : s.pol = .Ez) (hx : 1 < Nx) (hy : 1 < Ny) (m κ R : ℝ) (h : Spec.WeakKerr s m κ R) :
    ∃ Z : Grid Nx Ny ℂ, (∀ i j, Spec.nlResidual s Z i j = 0) ∧ (∀ i j, ‖Z i j‖ ≤ R) ∧ ∀ W : Grid Nx Ny ℂ, (∀ i j, Spec.nlResidual s W i j = 0) → W = Z := by
  have he := exactEnv_exact .pardiso
  obtain ⟨Z, hZ⟩ := h.exists_fixed he hv hp hx hy
  have hin : ∀ W, (bornStep (exactEnv .pardiso) s W).2.2 = W → ‖W‖ ≤ R := fun W hW => by
    rw [← hW]; exact h.step_bound he hv hp hx hy W
  refine ⟨Z, (nlResidual_zero_iff he s Z (h.bornMat_det hv hp hx hy Z)).2 hZ, fun i j => (norm_entry_le Z i j).trans (hin Z hZ), fun W hW => ?_⟩
  have hW' := (nlResidual_zero_iff he s W (h.bornMat_det hv hp hx hy W)).1 hW
  have hc := h.step_contracts he hv hp hx hy W Z (hin W hW') (hin Z hZ)
  rw [hW', hZ] at hc
  obtain ⟨-, hq1⟩ := h.rate_mem hv hx hy
  have h0 : ‖W - Z‖ = 0 := le_antisymm (by nlinarith [norm_nonneg (W - Z)]) (norm_nonneg _)
  exact sub_eq_zero.1 (norm_eq_zero.1 h0)

/-- **C76, the error.** Whatever field the Born solver starts from, after `k + 1` passes the field it returns is within `rate^k · 2R` of the solution, at every cell. -/
theorem C76_geometric (env : Env) (he : env.Exact) (s : Sim Nx Ny) (hv : s.Valid) (hp : s.pol = .Ez) (hx : 1 < Nx) (hy : 1 < Ny) (m κ R : ℝ) (h : Spec.WeakKerr s m κ R)
    (Z : Grid Nx Ny ℂ) (hZ : ∀ i j, Spec.nlResidual s Z i j = 0) (E : Option (Grid Nx Ny ℂ)) (thr : ℝ) (n : ℕ) (r : NlResult Nx Ny) (s' : Sim Nx Ny)
    (hr : solve_fields_nl env s E .born thr n = (.ok r, s')) :
    s'.fields_nl .Ez = some r.Fz ∧ ∃ k c, k < n ∧ r.conv[k]? = some c ∧ (c.Lt thr ∨ k + 1 = n) ∧ (∀ l, k < l → l < n → r.conv[l]? = some (.fin 0)) ∧
      ∀ i j, ‖r.Fz i j - Z i j‖ ≤ Spec.bornRate s m κ R ^ k * (2 * R) := by
  have hfix := (nlResidual_zero_iff he s Z (h.bornMat_det hv hp hx hy Z)).1 hZ
  rcases Nat.eq_zero_or_pos n with rfl | hn
  · have h0 := born_solve_zero env s E thr
    unfold solve_fields_nl at hr
    simp only at hr
    generalize born_solve env s E thr 0 = B at h0 hr
    obtain ⟨e | a, b⟩ := B
    · cases hr
    · cases h0
  obtain ⟨n, rfl⟩ : ∃ p, n = p + 1 := ⟨n - 1, by omega⟩
  obtain ⟨E0, fl, k, conv, hst, hk, heq, hnot, hstop, hlen, hrow, hzero⟩ := born_solve_spec env s E thr n
  unfold solve_fields_nl at hr
  simp only [heq] at hr
  simp only [Prod.mk.injEq, Except.ok.injEq] at hr
  obtain ⟨rfl, rfl⟩ := hr
  refine ⟨?_, k, _, by omega, hrow k le_rfl, hstop.imp_right (congrArg (· + 1)), hzero, fun i j => ?_⟩
  · show Sim.store s.pol _ _ _ = _
    rw [hp]
    rfl
  · exact (norm_entry_le (bornIter env s E0 (k + 1) - Z) i j).trans (h.iter_error he hv hp hx hy hfix E0 k).2

/-- **C76, convergence.** A source that is not zero and a positive threshold: from some iteration limit on, the Born solver stops below its threshold, whatever field it starts from. -/
theorem C76_converges (env : Env) (he : env.Exact) (s : Sim Nx Ny) (hv : s.Valid) (hp : s.pol = .Ez) (hx : 1 < Nx) (hy : 1 < Ny) (m κ R : ℝ) (h : Spec.WeakKerr s m κ R)
    (hsrc : s.src ≠ 0) (thr : ℝ) (ht : 0 < thr) :
    ∃ N, ∀ n, N ≤ n → ∀ E : Option (Grid Nx Ny ℂ), ∃ r s' k c, solve_fields_nl env s E .born thr n = (.ok r, s') ∧ k ≤ N ∧ r.conv[k]? = some c ∧ c.Lt thr := by
  obtain ⟨Z, hZ, -, -⟩ := C76_unique_solution s hv hp hx hy m κ R h
  have hfix := (nlResidual_zero_iff he s Z (h.bornMat_det hv hp hx hy Z)).1 hZ
  have hZ0 : Z ≠ 0 := by
    rintro rfl
    apply hsrc
    funext i j
    have h1 := hZ i j
    unfold Spec.nlResidual at h1
    rw [show flatten (0 : Grid Nx Ny ℂ) = 0 from rfl, Matrix.mulVec_zero] at h1
    have h2 : Complex.I * (s.omega : ℂ) * s.src i j = 0 := by
      simp only [Pi.zero_apply, mul_zero, zero_add, zero_sub, neg_eq_zero] at h1
      exact h1
    have h3 : (s.omega : ℂ) ≠ 0 := by exact_mod_cast hv.omega_pos.ne'
    simpa [h3, Complex.I_ne_zero] using h2
  have hZn : 0 < ‖Z‖ := norm_pos_iff.2 hZ0
  obtain ⟨hq0, hq1⟩ := h.rate_mem hv hx hy
  have hR := h.R_nonneg hv hx hy
  set q := Spec.bornRate s m κ R
  set C : ℝ := Real.sqrt (Nx * Ny) with hC
  have hC0 : 0 ≤ C := Real.sqrt_nonneg _
  have hlim : Filter.Tendsto (fun k : ℕ => q ^ k * (2 * R)) Filter.atTop (nhds 0) := by
    simpa using (tendsto_pow_atTop_nhds_zero_of_lt_one hq0 hq1).mul_const (2 * R)
  obtain ⟨K, hK⟩ := (hlim.eventually (gt_mem_nhds (show 0 < min (‖Z‖ / 2) (thr * (‖Z‖ / 2) / (2 * C + 1)) by positivity))).exists
  have hsmall : ∀ k, K ≤ k → q ^ k * (2 * R) < min (‖Z‖ / 2) (thr * (‖Z‖ / 2) / (2 * C + 1)) := fun k hk =>
    lt_of_le_of_lt (mul_le_mul_of_nonneg_right (pow_le_pow_of_le_one hq0 hq1.le hk) (by positivity)) hK
  have hconv : ∀ E0, (bornConv env s E0 (K + 1)).Lt thr := by
    intro E0
    have e1 := (h.iter_error he hv hp hx hy hfix E0 K).2
    have e2 := (h.iter_error he hv hp hx hy hfix E0 (K + 1)).2
    have s1 := hsmall K le_rfl
    have s2 := hsmall (K + 1) (by omega)
    unfold bornConv
    set F := bornIter env s E0 (K + 1 + 1)
    set G := bornIter env s E0 (K + 1)
    have hFlow : ‖Z‖ / 2 < ‖F‖ := by
      have h1 : ‖Z‖ ≤ ‖F‖ + ‖F - Z‖ := by
        have := norm_sub_le F (F - Z)
        rwa [sub_sub_cancel] at this
      have := lt_of_lt_of_le s2 (min_le_left _ _)
      linarith
    have hF0 : F ≠ 0 := by
      rintro h0
      rw [h0, norm_zero] at hFlow
      linarith
    have hd : ‖F - G‖ ≤ 2 * (thr * (‖Z‖ / 2) / (2 * C + 1)) := by
      have h1 : ‖F - G‖ ≤ ‖F - Z‖ + ‖G - Z‖ := by
        have := norm_sub_le (F - Z) (G - Z)
        rwa [sub_sub_sub_cancel_right] at this
      have a1 := lt_of_lt_of_le s1 (min_le_right _ _)
      have a2 := lt_of_lt_of_le s2 (min_le_right _ _)
      linarith
    rw [(convergence_spec F G).1 hF0]
    show _ / _ < thr
    have hnum : Real.sqrt (∑ i, ∑ j, ‖F i j - G i j‖ ^ 2) ≤ C * ‖F - G‖ := laNorm_le_sqrt (F - G)
    have hden : ‖F‖ ≤ Real.sqrt (∑ i, ∑ j, ‖F i j‖ ^ 2) := norm_le_laNorm' F
    rw [div_lt_iff₀ (by linarith)]
    calc Real.sqrt (∑ i, ∑ j, ‖F i j - G i j‖ ^ 2) ≤ C * (2 * (thr * (‖Z‖ / 2) / (2 * C + 1))) := hnum.trans (mul_le_mul_of_nonneg_left hd hC0)
      _ = thr * (‖Z‖ / 2) * (2 * C / (2 * C + 1)) := by ring
      _ ≤ thr * (‖Z‖ / 2) * 1 := by
        refine mul_le_mul_of_nonneg_left ?_ (by positivity)
        rw [div_le_one (by positivity)]
        linarith
      _ < thr * Real.sqrt (∑ i, ∑ j, ‖F i j‖ ^ 2) := by
        rw [mul_one]
        exact mul_lt_mul_of_pos_left (by linarith) ht
  refine ⟨K + 2, fun n hn E => ?_⟩
  obtain ⟨n, rfl⟩ : ∃ p, n = p + 1 := ⟨n - 1, by omega⟩
  obtain ⟨E0, fl, k, conv, hst, hk, heq, hnot, hstop, hlen, hrow, hzero⟩ := born_solve_spec env s E thr n
  have hkK : k ≤ K + 1 := by
    by_contra hlt
    exact hnot (K + 1) (by omega) (hconv E0)
  have hlt : (bornConv env s E0 k).Lt thr := by
    rcases hstop with h1 | h1
    · exact h1
    · rw [show k = K + 1 by omega]
      exact hconv E0
  have hres : ∃ s', solve_fields_nl env s E .born thr (n + 1) =
      (.ok ⟨(bornStep env s (bornIter env s E0 k)).1, (bornStep env s (bornIter env s E0 k)).2.1, bornIter env s E0 (k + 1), conv⟩, s') := by
    unfold solve_fields_nl
    simp only [heq]
    exact ⟨_, rfl⟩
  obtain ⟨s', hs'⟩ := hres
  exact ⟨_, s', k, _, hs', by omega, hrow k le_rfl, hlt⟩

/-- **C76, what the threshold guarantees.** If the field the solver starts from, given or stored, is at most `R` (the linear field it computes when there is neither is), and it stops below its
threshold, the field returned is within `rate / (1 - rate) · threshold · ‖field‖₂` of the solution, at every cell. -/
theorem C76_threshold_error (env : Env) (he : env.Exact) (s : Sim Nx Ny) (hv : s.Valid) (hp : s.pol = .Ez) (hx : 1 < Nx) (hy : 1 < Ny) (m κ R : ℝ) (h : Spec.WeakKerr s m κ R)
    (Z : Grid Nx Ny ℂ) (hZ : ∀ i j, Spec.nlResidual s Z i j = 0) (E : Option (Grid Nx Ny ℂ)) (hE : ∀ e, (E = some e ∨ E = none ∧ s.fields .Ez = some e) → ∀ i j, ‖e i j‖ ≤ R)
    (thr : ℝ) (n : ℕ) (r : NlResult Nx Ny) (s' : Sim Nx Ny) (hr : solve_fields_nl env s E .born thr n = (.ok r, s')) :
    ∃ k c, k < n ∧ r.conv[k]? = some c ∧ (c.Lt thr ∨ k + 1 = n) ∧ (∀ l, k < l → l < n → r.conv[l]? = some (.fin 0)) ∧ (c.Lt thr → ∀ i j,
      ‖r.Fz i j - Z i j‖ ≤ Spec.bornRate s m κ R / (1 - Spec.bornRate s m κ R) * (thr * Real.sqrt (∑ i, ∑ j, ‖r.Fz i j‖ ^ 2))) := by
  have hfix := (nlResidual_zero_iff he s Z (h.bornMat_det hv hp hx hy Z)).1 hZ
  have hR := h.R_nonneg hv hx hy
  rcases Nat.eq_zero_or_pos n with rfl | hn
  · have h0 := born_solve_zero env s E thr
    unfold solve_fields_nl at hr
    simp only at hr
    generalize born_solve env s E thr 0 = B at h0 hr
    obtain ⟨e | a, b⟩ := B
    · cases hr
    · cases h0
  obtain ⟨n, rfl⟩ : ∃ p, n = p + 1 := ⟨n - 1, by omega⟩
  obtain ⟨E0, fl, k, conv, hst, hk, heq, hnot, hstop, hlen, hrow, hzero⟩ := born_solve_spec env s E thr n
  unfold solve_fields_nl at hr
  simp only [heq] at hr
  simp only [Prod.mk.injEq, Except.ok.injEq] at hr
  obtain ⟨rfl, -⟩ := hr
  refine ⟨k, _, by omega, hrow k le_rfl, hstop.imp_right (congrArg (· + 1)), hzero, fun hlt i j => ?_⟩
  have hE0 : ‖E0‖ ≤ R := by
    have hall : ∀ e : Grid Nx Ny ℂ, (∀ i j, ‖e i j‖ ≤ R) → ‖e‖ ≤ R := fun e h => (pi_norm_le_iff_of_nonneg hR).2 fun i => (pi_norm_le_iff_of_nonneg hR).2 fun j => h i j
    obtain ⟨h1, h2, h3⟩ := hst
    cases E with
    | some e => rw [h1 e rfl]; exact hall e (hE e (Or.inl rfl))
    | none =>
      cases hf : s.fields s.pol.comp with
      | some e =>
        rw [h2 rfl e hf]
        rw [hp] at hf
        exact hall e (hE e (Or.inr ⟨rfl, hf⟩))
      | none =>
        obtain ⟨Fx, Fy, h4⟩ := h3 rfl hf
        have h5 : (s.solve_fields env).1 = .ok (s.in_plane false s.eps_r (solver_direct env s.A s.rhs)) := rfl
        rw [h5, Except.ok.injEq] at h4
        have h6 : E0 = unflatten (solver_direct env s.A s.rhs) := by rw [← in_plane_third s false s.eps_r, h4]
        rw [h6]
        exact h.linear_bound he hv hp hx hy
  have hball : ‖bornIter env s E0 k‖ ≤ R := by
    cases k with
    | zero => exact hE0
    | succ k => rw [bornIter_succ]; exact h.step_bound he hv hp hx hy _
  have hZR : ‖Z‖ ≤ R := by rw [← hfix]; exact h.step_bound he hv hp hx hy Z
  have hstep : ‖bornIter env s E0 (k + 1) - Z‖ ≤ Spec.bornRate s m κ R * ‖bornIter env s E0 k - Z‖ := by
    have := h.step_contracts he hv hp hx hy _ _ hball hZR
    rwa [hfix, ← bornIter_succ] at this
  obtain ⟨hq0, hq1⟩ := h.rate_mem hv hx hy
  unfold bornConv at hlt
  set q := Spec.bornRate s m κ R
  simp only
  set F := bornIter env s E0 (k + 1)
  set G := bornIter env s E0 k
  obtain ⟨c1, c2, c3⟩ := convergence_spec F G
  have hF0 : F ≠ 0 := by
    intro h0
    by_cases hG0 : G = 0
    · rw [c3 h0 hG0] at hlt; exact hlt
    · rw [c2 h0 hG0] at hlt; exact hlt
  rw [c1 hF0] at hlt
  have hlt' : Real.sqrt (∑ i, ∑ j, ‖F i j - G i j‖ ^ 2) / Real.sqrt (∑ i, ∑ j, ‖F i j‖ ^ 2) < thr := hlt
  have hpos : 0 < Real.sqrt (∑ i, ∑ j, ‖F i j‖ ^ 2) := lt_of_lt_of_le (norm_pos_iff.2 hF0) (norm_le_laNorm' F)
  rw [div_lt_iff₀ hpos] at hlt'
  have hFG : ‖F - G‖ ≤ thr * Real.sqrt (∑ i, ∑ j, ‖F i j‖ ^ 2) := (norm_le_laNorm' (F - G)).trans hlt'.le
  have htri : ‖G - Z‖ ≤ ‖F - Z‖ + ‖F - G‖ := by
    have := norm_sub_le (F - Z) (F - G)
    rwa [sub_sub_sub_cancel_left] at this
  refine (norm_entry_le (F - Z) i j).trans ?_
  rw [div_mul_eq_mul_div, le_div_iff₀ (by linarith)]
  nlinarith [mul_le_mul_of_nonneg_left hFG hq0, mul_le_mul_of_nonneg_left htri hq0]

/-- **C76, negation for strong nonlinearities.** A strongly driven Kerr device for which the Born solver never comes below the threshold: the relative change stays above a quarter for ever. -/
theorem C76_strong_diverges (env : Env) (he : env.Exact) : ∃ (s : Sim 2 2) (E : Grid 2 2 ℂ), s.Valid ∧ s.pol = .Ez ∧ s.src ≠ 0 ∧ (∀ F, (bornMat s F).det ≠ 0) ∧
    ∀ n, ∃ r s', solve_fields_nl env s (some E) .born 1e-10 (n + 1) = (.ok r, s') ∧ ∀ k ≤ n, ∃ x : ℝ, r.conv[k]? = some (.fin x) ∧ 1 / 4 ≤ x := by
  refine ⟨psim fun _ _ => -40 * Complex.I, fun _ _ => 1, psim_valid _, rfl, fun h => ?_, psim_bornMat_det_all _, fun n => ?_⟩
  · have := congrFun (congrFun h 0) 0
    simp [psim, wsim] at this
  · generalize hs : (psim fun _ _ => -40 * Complex.I) = s
    obtain ⟨E0, fl, m, conv, hst, hm, heq, hnot, hstop, hlen, hrow, hzero⟩ := born_solve_spec env s (some fun _ _ => 1) 1e-10 n
    obtain rfl : E0 = fun _ _ => 1 := hst.1 _ rfl
    have hq : ∀ k, ∃ x : ℝ, bornConv env s (fun _ _ => 1) k = .fin x ∧ 1 / 4 ≤ x := fun k => by rw [← hs]; exact psim_bornConv env he k
    obtain rfl : m = n := by
      refine hstop.resolve_left fun h => ?_
      obtain ⟨x, hx, h4⟩ := hq m
      rw [hx] at h
      have : x < 1e-10 := h
      norm_num at this
      linarith
    have hres : ∃ s', solve_fields_nl env s (some fun _ _ => 1) .born 1e-10 (m + 1) =
        (.ok ⟨(bornStep env s (bornIter env s (fun _ _ => 1) m)).1, (bornStep env s (bornIter env s (fun _ _ => 1) m)).2.1, bornIter env s (fun _ _ => 1) (m + 1), conv⟩, s') := by
      unfold solve_fields_nl
      simp only [heq]
      exact ⟨_, rfl⟩
    obtain ⟨s', hs'⟩ := hres
    refine ⟨_, s', hs', fun k hk => ?_⟩
    obtain ⟨x, hx, h4⟩ := hq k
    exact ⟨x, by rw [← hx]; exact hrow k hk, h4⟩

/-! ## Example -/

theorem cksim_margin (P : ℕ) (chi : ℝ) (eps src : Grid Nx Ny ℂ) : Spec.margin (cksim P chi eps src) 1 = 1 / 9 := by
  show (1 : ℝ) ^ 2 * EPSILON_0 * (1 / EPSILON_0) * 1 - 8 / (MU_0 * (1 / EPSILON_0) * (3 / ETA_0) ^ 2) = 1 / 9
  have h1 : ETA_0 ^ 2 * (3 / ETA_0) ^ 2 = 9 := by
    have := ETA_0_pos.ne'
    field_simp; norm_num
  rw [mu0_norm, h1, one_pow, one_mul, mul_one_div_cancel EPSILON_0_pos.ne']
  norm_num

/-- A Kerr device of any size, with any absorbing layers and any permittivity at least one, driven by a weak source. -/
theorem cksim_weak (P : ℕ) (chi a : ℝ) (hchi : 0 ≤ chi) (ha : 0 ≤ a) (hw : 486 * chi * a ^ 2 < 1 / 9) (eps src : Grid Nx Ny ℂ) (he : ∀ i j, 1 ≤ (eps i j).re) (hs : ∀ i j, ‖src i j‖ ≤ a) :
    Spec.WeakKerr (cksim P chi eps src) 1 (3 * chi) (9 * a) := by
  have hE : (1 : ℝ) ^ 2 * EPSILON_0 * (1 / EPSILON_0) = 1 := by rw [one_pow, one_mul, mul_one_div_cancel EPSILON_0_pos.ne']
  have hmar := cksim_margin P chi eps src
  refine ⟨he, cksim_coarse P chi eps src, fun n hn => (cksim_focusing P chi hchi eps src n hn).1, fun i j => ?_, fun i j => ?_, ?_⟩
  · have : Spec.kerrSum (cksim P chi eps src).nonlinearity (cksim P chi eps src).eps_r i j = ((3 * chi : ℝ) : ℂ) := by
      simp [Spec.kerrSum, Spec.kerrCoef, cksim]
    rw [this, Complex.norm_real, Real.norm_of_nonneg (by positivity)]
  · rw [hmar]
    show (1 : ℝ) * ‖src i j‖ ≤ _
    linarith [hs i j]
  · rw [hmar]
    show 2 * ((1 : ℝ) ^ 2 * EPSILON_0 * (1 / EPSILON_0)) * (3 * chi) * (9 * a) ^ 2 < 1 / 9
    rw [hE]
    nlinarith

/-- With `χ = 1` and a point source of strength `1/100` in a device with five absorbing cells, the Born solver converges below `1e-10` from every starting field. -/
example (env : Env) (he : env.Exact) (hx : 1 < Nx) (hy : 1 < Ny) (x : Fin Nx) (y : Fin Ny) (eps : Grid Nx Ny ℂ) (hr : ∀ i j, 1 ≤ (eps i j).re) :
    ∃ N, ∀ n, N ≤ n → ∀ E : Option (Grid Nx Ny ℂ), ∃ r s' k c,
      solve_fields_nl env (cksim 5 1 eps fun i j => if i = x ∧ j = y then 1 / 100 else 0) E .born 1e-10 n = (.ok r, s') ∧ k ≤ N ∧ r.conv[k]? = some c ∧ c.Lt 1e-10 := by
  refine C76_converges env he _ (cksim_valid _ _ _ _) rfl hx hy 1 (3 * 1) (9 * (1 / 100))
    (cksim_weak 5 1 (1 / 100) zero_le_one (by norm_num) (by norm_num) eps _ hr fun i j => ?_) (fun h => ?_) 1e-10 (by norm_num)
  · split_ifs <;> norm_num
  · have := congrFun (congrFun h x) y
    simp [cksim, fsim] at this

end Angler
