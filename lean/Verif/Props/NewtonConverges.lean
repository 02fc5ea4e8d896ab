import Verif.Lemmas.NewtonContraction

/-! # C77: convergence of Newton's method -/

namespace Angler

open Matrix

variable {Nx Ny : ℕ}

/-- The start is near enough: within `r` of the solution `Z`, where Newton's factor is at most a half. -/
structure Spec.NewtonNear (s : Sim Nx Ny) (m κ : ℝ) (Z : Grid Nx Ny ℂ) (r : ℝ) : Prop where
  nonneg : 0 ≤ r
  half : Spec.kerrRatio s m κ * (3 * ‖Z‖ + 2 * r) * r ≤ 1 / 2

theorem pow_two_pow_step (k : ℕ) : ((1 : ℝ) / 2) * ((1 / 2) ^ (2 ^ k - 1)) ^ 2 = (1 / 2) ^ (2 ^ (k + 1) - 1) := by
  rw [← pow_mul, ← pow_succ']
  congr 1
  have : 1 ≤ 2 ^ k := Nat.one_le_two_pow
  rw [pow_succ]
  omega

/-- The iterates approach the solution, the number of correct digits doubling at every step. -/
theorem newton_iterates {s : Sim Nx Ny} {m κ : ℝ} (h : Spec.RealKerr s m κ) {env : Env} (he : env.Exact) (hb : env.backend = .pardiso) (hv : s.Valid) (hp : s.pol = .Ez)
    (hx : 1 < Nx) (hy : 1 < Ny) {Z : Grid Nx Ny ℂ} (hZ : ∀ i j, Spec.nlResidual s Z i j = 0) {r : ℝ} (hr : Spec.NewtonNear s m κ Z r) (it : ℕ → Grid Nx Ny ℂ) (M : ℕ)
    (h0 : ‖it 0 - Z‖ ≤ r) (hstep : ∀ k < M, newtonStep env s (it k) = .ok (it (k + 1))) : ∀ k ≤ M, ‖it k - Z‖ ≤ r * (1 / 2) ^ (2 ^ k - 1) := by
  intro k
  induction k with
  | zero => intro _; simpa using h0
  | succ k ih =>
    intro hk
    have ih' := ih (by omega)
    have hle : ‖it k - Z‖ ≤ r := ih'.trans (by
      have : ((1 : ℝ) / 2) ^ (2 ^ k - 1) ≤ 1 := pow_le_one₀ (by norm_num) (by norm_num)
      nlinarith [hr.nonneg])
    have hβ := h.ratio_nonneg hv hx hy
    have hr0 := hr.nonneg
    refine (h.newton_step he hb hv hp hx hy hZ _ _ (hstep k (by omega))).trans ?_
    have hp0 : (0 : ℝ) ≤ (1 / 2) ^ (2 ^ k - 1) := by positivity
    calc Spec.kerrRatio s m κ * (3 * ‖Z‖ + 2 * ‖it k - Z‖) * ‖it k - Z‖ ^ 2
        ≤ Spec.kerrRatio s m κ * (3 * ‖Z‖ + 2 * r) * (r * (1 / 2) ^ (2 ^ k - 1)) ^ 2 := by gcongr
      _ = (Spec.kerrRatio s m κ * (3 * ‖Z‖ + 2 * r) * r) * (r * ((1 / 2) ^ (2 ^ k - 1)) ^ 2) := by ring
      _ ≤ 1 / 2 * (r * ((1 / 2) ^ (2 ^ k - 1)) ^ 2) := mul_le_mul_of_nonneg_right hr.half (by positivity)
      _ = r * (1 / 2) ^ (2 ^ (k + 1) - 1) := by rw [← pow_two_pow_step]; ring

/-! ## The theorems -/

/-- **C77, Newton's method.** Near a solution (start within `r`, factor at most a half there) Newton's solver returns, and after `k + 1` steps the field it returns, which has gone through one more
Born pass, is off by at most a constant times `r 2^{-(2^{k+1} - 1)}`, at every cell. -/
theorem C77_quadratic (env : Env) (he : env.Exact) (hb : env.backend = .pardiso) (s : Sim Nx Ny) (hv : s.Valid) (hp : s.pol = .Ez) (hx : 1 < Nx) (hy : 1 < Ny) (m κ : ℝ)
    (h : Spec.RealKerr s m κ) (Z : Grid Nx Ny ℂ) (hZ : ∀ i j, Spec.nlResidual s Z i j = 0) (r : ℝ) (hr : Spec.NewtonNear s m κ Z r)
    (E : Option (Grid Nx Ny ℂ)) (hE : ∀ E0, Spec.StartsAt env s E E0 → ∀ i j, ‖E0 i j - Z i j‖ ≤ r) (thr : ℝ) (n : ℕ) :
    ∃ R s' k c, solve_fields_nl env s E .newton thr (n + 1) = (.ok R, s') ∧ s'.fields_nl .Ez = some R.Fz ∧ k ≤ n ∧ R.conv[k]? = some c ∧ (c.Lt thr ∨ k = n) ∧
      (∀ l, k < l → l ≤ n → R.conv[l]? = some (.fin 0)) ∧
      ∀ i j, ‖R.Fz i j - Z i j‖ ≤ Spec.kerrRatio s m κ * (‖Z‖ * (2 * ‖Z‖ + r)) * (r * (1 / 2) ^ (2 ^ (k + 1) - 1)) := by
  obtain ⟨R, s1, hR⟩ := newton_solve_ok env hb s hp E thr n
  obtain ⟨E0, fl, k, it, -, hst, hk, h0, hstep, hfin, hs', hnot, hstop, hlen, hrow, hzero⟩ := newton_solve_spec env s E thr n R s1 hR
  have hpol : s1.pol = .Ez := by rw [hs']; exact hp
  refine ⟨R, { s1 with fields_nl := Sim.store s1.pol s1.fields_nl (R.Fx, R.Fy, R.Fz) }, k, _, ?_, ?_, hk, hrow k le_rfl, hstop, fun l h1 h2 => hzero l h1 (by omega), fun i j => ?_⟩
  · unfold solve_fields_nl
    simp only [hR]
  · show Sim.store s1.pol _ _ _ = _
    rw [hpol]
    rfl
  have hst0 : ‖it 0 - Z‖ ≤ r := by
    rw [h0]
    exact (pi_norm_le_iff_of_nonneg hr.nonneg).2 fun i => (pi_norm_le_iff_of_nonneg hr.nonneg).2 fun j => hE E0 hst i j
  have hit := newton_iterates h he hb hv hp hx hy hZ hr it (k + 1) hst0 (fun l hl => hstep l (by omega)) (k + 1) le_rfl
  have hFz : R.Fz = (bornStep env s (it (k + 1))).2.2 := by rw [← hfin]
  have hβ := h.ratio_nonneg hv hx hy
  have hr0 := hr.nonneg
  have hle : ‖it (k + 1) - Z‖ ≤ r := hit.trans (by
    have : ((1 : ℝ) / 2) ^ (2 ^ (k + 1) - 1) ≤ 1 := pow_le_one₀ (by norm_num) (by norm_num)
    nlinarith)
  refine (norm_entry_le (R.Fz - Z) i j).trans ?_
  rw [hFz]
  refine (h.born_step he hv hp hx hy hZ (it (k + 1))).trans ?_
  gcongr

/-- **C77, convergence.** If moreover the source is not zero and the threshold positive, Newton's solver stops below its threshold after a number of steps that does not depend on the start. -/
theorem C77_converges (env : Env) (he : env.Exact) (hb : env.backend = .pardiso) (s : Sim Nx Ny) (hv : s.Valid) (hp : s.pol = .Ez) (hx : 1 < Nx) (hy : 1 < Ny) (m κ : ℝ)
    (h : Spec.RealKerr s m κ) (Z : Grid Nx Ny ℂ) (hZ : ∀ i j, Spec.nlResidual s Z i j = 0) (r : ℝ) (hr : Spec.NewtonNear s m κ Z r) (hsrc : s.src ≠ 0) (thr : ℝ) (ht : 0 < thr) :
    ∃ N, ∀ n, N ≤ n → ∀ E : Option (Grid Nx Ny ℂ), (∀ E0, Spec.StartsAt env s E E0 → ∀ i j, ‖E0 i j - Z i j‖ ≤ r) →
      ∃ R s' k c, solve_fields_nl env s E .newton thr n = (.ok R, s') ∧ k ≤ N ∧ R.conv[k]? = some c ∧ c.Lt thr := by
  have hZ0 : Z ≠ 0 := by
    rintro rfl
    apply hsrc
    funext i j
    have h1 := hZ i j
    unfold Spec.nlResidual at h1
    rw [show flatten (0 : Grid Nx Ny ℂ) = 0 from rfl, Matrix.mulVec_zero] at h1
    have h2 : Complex.I * (s.omega : ℂ) * s.src i j = 0 := by
      simp only [Pi.zero_apply, mul_zero, zero_add, zero_sub, neg_eq_zero] at h1
      exact h1
    have h3 : (s.omega : ℂ) ≠ 0 := by exact_mod_cast hv.omega_pos.ne'
    simpa [h3, Complex.I_ne_zero] using h2
  have hZn : 0 < ‖Z‖ := norm_pos_iff.2 hZ0
  have hr0 := hr.nonneg
  set C : ℝ := Real.sqrt (Nx * Ny) with hC
  have hC0 : 0 ≤ C := Real.sqrt_nonneg _
  have hlim : Filter.Tendsto (fun k : ℕ => r * (1 / 2 : ℝ) ^ k) Filter.atTop (nhds 0) := by
    simpa using (tendsto_pow_atTop_nhds_zero_of_lt_one (by norm_num : (0 : ℝ) ≤ 1 / 2) (by norm_num)).const_mul r
  obtain ⟨K, hK⟩ := (hlim.eventually (gt_mem_nhds (show 0 < min (‖Z‖ / 2) (thr * (‖Z‖ / 2) / (2 * C + 1)) by positivity))).exists
  have hsmall : ∀ k, K ≤ k → r * (1 / 2 : ℝ) ^ (2 ^ k - 1) < min (‖Z‖ / 2) (thr * (‖Z‖ / 2) / (2 * C + 1)) := fun k hk =>
    lt_of_le_of_lt (mul_le_mul_of_nonneg_left (pow_le_pow_of_le_one (by norm_num) (by norm_num) (by have := (Nat.lt_two_pow_self : k < 2 ^ k); omega)) hr0) hK
  have hconv : ∀ F G : Grid Nx Ny ℂ, ‖F - Z‖ < min (‖Z‖ / 2) (thr * (‖Z‖ / 2) / (2 * C + 1)) → ‖G - Z‖ < min (‖Z‖ / 2) (thr * (‖Z‖ / 2) / (2 * C + 1)) → (convergence F G).Lt thr := by
    intro F G s2 s1
    have hFlow : ‖Z‖ / 2 < ‖F‖ := by
      have h1 : ‖Z‖ ≤ ‖F‖ + ‖F - Z‖ := by
        have := norm_sub_le F (F - Z)
        rwa [sub_sub_cancel] at this
      have := lt_of_lt_of_le s2 (min_le_left _ _)
      linarith
    have hF0 : F ≠ 0 := by
      rintro h0
      rw [h0, norm_zero] at hFlow
      linarith
    have hd : ‖F - G‖ ≤ 2 * (thr * (‖Z‖ / 2) / (2 * C + 1)) := by
      have h1 : ‖F - G‖ ≤ ‖F - Z‖ + ‖G - Z‖ := by
        have := norm_sub_le (F - Z) (G - Z)
        rwa [sub_sub_sub_cancel_right] at this
      have a1 := lt_of_lt_of_le s1 (min_le_right _ _)
      have a2 := lt_of_lt_of_le s2 (min_le_right _ _)
      linarith
    rw [(convergence_spec F G).1 hF0]
    show _ / _ < thr
    have hnum : Real.sqrt (∑ i, ∑ j, ‖F i j - G i j‖ ^ 2) ≤ C * ‖F - G‖ := laNorm_le_sqrt (F - G)
    have hden : ‖F‖ ≤ Real.sqrt (∑ i, ∑ j, ‖F i j‖ ^ 2) := norm_le_laNorm' F
    rw [div_lt_iff₀ (by linarith)]
    calc Real.sqrt (∑ i, ∑ j, ‖F i j - G i j‖ ^ 2) ≤ C * (2 * (thr * (‖Z‖ / 2) / (2 * C + 1))) := hnum.trans (mul_le_mul_of_nonneg_left hd hC0)
      _ = thr * (‖Z‖ / 2) * (2 * C / (2 * C + 1)) := by ring
      _ ≤ thr * (‖Z‖ / 2) * 1 := by
        refine mul_le_mul_of_nonneg_left ?_ (by positivity)
        rw [div_le_one (by positivity)]
        linarith
      _ < thr * Real.sqrt (∑ i, ∑ j, ‖F i j‖ ^ 2) := by
        rw [mul_one]
        exact mul_lt_mul_of_pos_left (by linarith) ht
  refine ⟨K + 1, fun n hn E hE => ?_⟩
  obtain ⟨n, rfl⟩ : ∃ p, n = p + 1 := ⟨n - 1, by omega⟩
  obtain ⟨R, s1, hR⟩ := newton_solve_ok env hb s hp E thr n
  obtain ⟨E0, fl, k, it, -, hst, hk, h0, hstep, hfin, hs', hnot, hstop, hlen, hrow, hzero⟩ := newton_solve_spec env s E thr n R s1 hR
  have hst0 : ‖it 0 - Z‖ ≤ r := by
    rw [h0]
    exact (pi_norm_le_iff_of_nonneg hr.nonneg).2 fun i => (pi_norm_le_iff_of_nonneg hr.nonneg).2 fun j => hE E0 hst i j
  have hit := newton_iterates h he hb hv hp hx hy hZ hr it (k + 1) hst0 (fun l hl => hstep l (by omega))
  have hbelow : K ≤ k → (convergence (it (K + 1)) (it K)).Lt thr := fun hKk =>
    hconv _ _ (lt_of_le_of_lt (hit (K + 1) (by omega)) (hsmall _ (by omega))) (lt_of_le_of_lt (hit K (by omega)) (hsmall _ le_rfl))
  have hkK : k ≤ K := by
    by_contra hlt
    exact hnot K (by omega) (hbelow (by omega))
  have hlt : (convergence (it (k + 1)) (it k)).Lt thr := by
    rcases hstop with h1 | h1
    · exact h1
    · obtain rfl : k = K := by omega
      exact hbelow le_rfl
  refine ⟨R, { s1 with fields_nl := Sim.store s1.pol s1.fields_nl (R.Fx, R.Fy, R.Fz) }, k, _, ?_, by omega, hrow k le_rfl, hlt⟩
  unfold solve_fields_nl
  simp only [hR]

/-- **C77, local uniqueness.** Within `r` there is no other solution. -/
theorem C77_isolated (s : Sim Nx Ny) (hv : s.Valid) (hp : s.pol = .Ez) (hx : 1 < Nx) (hy : 1 < Ny) (m κ : ℝ)
    (h : Spec.RealKerr s m κ) (Z W : Grid Nx Ny ℂ) (hZ : ∀ i j, Spec.nlResidual s Z i j = 0) (r : ℝ) (hr : Spec.NewtonNear s m κ Z r) (hW : ∀ i j, Spec.nlResidual s W i j = 0)
    (hWr : ∀ i j, ‖W i j - Z i j‖ ≤ r) : W = Z := by
  have he := exactEnv_exact .pardiso
  have hres : (nl_eq_and_jac s W).1.1 = 0 := by
    rw [nl_eq_residual]
    refine flat_ext fun i j => ?_
    have h1 := hW i j
    unfold Spec.nlResidual at h1
    simp only [flatten_pair, Pi.zero_apply]
    push_cast at h1 ⊢
    linear_combination h1
  have hstep : newtonStep (exactEnv .pardiso) s W = .ok W := by
    unfold newtonStep
    rw [hres, solver_complex2real, if_pos rfl]
    show Except.ok _ = _
    congr 1
    funext i j
    show W i j - (0 : ℂ) = W i j
    rw [sub_zero]
  have hq := h.newton_step he rfl hv hp hx hy hZ W W hstep
  have hd : ‖W - Z‖ ≤ r := (pi_norm_le_iff_of_nonneg hr.nonneg).2 fun i => (pi_norm_le_iff_of_nonneg hr.nonneg).2 fun j => hWr i j
  have hβ := h.ratio_nonneg hv hx hy
  have hr0 := hr.nonneg
  have h2 : ‖W - Z‖ ≤ 1 / 2 * ‖W - Z‖ := by
    refine hq.trans ?_
    calc Spec.kerrRatio s m κ * (3 * ‖Z‖ + 2 * ‖W - Z‖) * ‖W - Z‖ ^ 2 = (Spec.kerrRatio s m κ * (3 * ‖Z‖ + 2 * ‖W - Z‖) * ‖W - Z‖) * ‖W - Z‖ := by ring
      _ ≤ (Spec.kerrRatio s m κ * (3 * ‖Z‖ + 2 * r) * r) * ‖W - Z‖ := by gcongr
      _ ≤ 1 / 2 * ‖W - Z‖ := mul_le_mul_of_nonneg_right hr.half (norm_nonneg _)
  have h0 : ‖W - Z‖ = 0 := le_antisymm (by linarith [norm_nonneg (W - Z)]) (norm_nonneg _)
  exact sub_eq_zero.1 (norm_eq_zero.1 h0)

/-! ## The default solver -/

theorem Spec.WeakKerr.start_bound {s : Sim Nx Ny} {m κ R : ℝ} (h : Spec.WeakKerr s m κ R) {env : Env} (he : env.Exact) (hv : s.Valid) (hp : s.pol = .Ez) (hx : 1 < Nx) (hy : 1 < Ny)
    (hE : ∀ e, s.fields .Ez = some e → ∀ i j, ‖e i j‖ ≤ R) {E0 : Grid Nx Ny ℂ} (hst : Spec.StartsAt env s none E0) : ‖E0‖ ≤ R := by
  have hR := h.R_nonneg hv hx hy
  obtain ⟨-, h2, h3⟩ := hst
  cases hf : s.fields s.pol.comp with
  | some e =>
    rw [h2 rfl e hf]
    rw [hp] at hf
    exact (pi_norm_le_iff_of_nonneg hR).2 fun i => (pi_norm_le_iff_of_nonneg hR).2 fun j => hE e hf i j
  | none =>
    obtain ⟨Fx, Fy, h4⟩ := h3 rfl hf
    have h5 : (s.solve_fields env).1 = .ok (s.in_plane false s.eps_r (solver_direct env s.A s.rhs)) := rfl
    rw [h5, Except.ok.injEq] at h4
    have h6 : E0 = unflatten (solver_direct env s.A s.rhs) := by rw [← in_plane_third s false s.eps_r, h4]
    rw [h6]
    exact h.linear_bound he hv hp hx hy

/-- The error of a Born pass, from the change it made. -/
theorem Spec.WeakKerr.posterior {s : Sim Nx Ny} {m κ R : ℝ} (h : Spec.WeakKerr s m κ R) {env : Env} (he : env.Exact) (hv : s.Valid) (hp : s.pol = .Ez) (hx : 1 < Nx) (hy : 1 < Ny)
    {Z : Grid Nx Ny ℂ} (hZ : (bornStep env s Z).2.2 = Z) (G : Grid Nx Ny ℂ) (hG : ‖G‖ ≤ R) :
    (1 - Spec.bornRate s m κ R) * ‖(bornStep env s G).2.2 - Z‖ ≤ Spec.bornRate s m κ R * ‖(bornStep env s G).2.2 - G‖ := by
  have hZR : ‖Z‖ ≤ R := by rw [← hZ]; exact h.step_bound he hv hp hx hy Z
  have hstep := h.step_contracts he hv hp hx hy G Z hG hZR
  rw [hZ] at hstep
  obtain ⟨hq0, -⟩ := h.rate_mem hv hx hy
  have htri : ‖G - Z‖ ≤ ‖(bornStep env s G).2.2 - Z‖ + ‖(bornStep env s G).2.2 - G‖ := by
    have := norm_sub_le ((bornStep env s G).2.2 - Z) ((bornStep env s G).2.2 - G)
    rwa [sub_sub_sub_cancel_left] at this
  nlinarith [mul_le_mul_of_nonneg_left htri hq0]

/-- A relative change of at most `t` bounds the change. -/
theorem change_le {F G : Grid Nx Ny ℂ} (hF : F ≠ 0) {t : ℝ} (ht : ¬ (convergence F G).Gt t) : ‖F - G‖ ≤ t * laNorm F := by
  have hpos : 0 < Real.sqrt (∑ i, ∑ j, ‖F i j‖ ^ 2) := lt_of_lt_of_le (norm_pos_iff.2 hF) (norm_le_laNorm' F)
  rw [(convergence_spec F G).1 hF] at ht
  have h1 : Real.sqrt (∑ i, ∑ j, ‖F i j - G i j‖ ^ 2) / Real.sqrt (∑ i, ∑ j, ‖F i j‖ ^ 2) ≤ t := not_lt.1 ht
  rw [div_le_iff₀ hpos] at h1
  exact (norm_le_laNorm' (F - G)).trans h1

theorem not_gt_of_lt {c : PyFloat} {t : ℝ} (h : c.Lt t) : ¬ c.Gt t := by
  cases c with
  | fin x => exact not_lt.2 (le_of_lt (show x < t from h))
  | _ => intro h2; simp [PyFloat.Lt, PyFloat.Gt] at h h2

/-- **C77, the default solver.** On a weak Kerr device driven by a source (rate at most 9/10, Pardiso installed) the call `solve_fields_nl()` — at most twenty Born passes, then Newton if need be —
returns a field within `1e-9 · rate · √(Nx Ny) · R` of the solution, at every cell. -/
theorem C77_hybrid_default (env : Env) (he : env.Exact) (hb : env.backend = .pardiso) (s : Sim Nx Ny) (hv : s.Valid) (hp : s.pol = .Ez) (hx : 1 < Nx) (hy : 1 < Ny) (m κ R : ℝ)
    (h : Spec.WeakKerr s m κ R) (hk : Spec.RealKerr s m κ) (hq : Spec.bornRate s m κ R ≤ 9 / 10) (hsrc : s.src ≠ 0) (hE : ∀ e, s.fields .Ez = some e → ∀ i j, ‖e i j‖ ≤ R)
    (Z : Grid Nx Ny ℂ) (hZ : ∀ i j, Spec.nlResidual s Z i j = 0) :
    ∃ r s', solve_fields_nl env s = (.ok r, s') ∧ ∀ i j, ‖r.Fz i j - Z i j‖ ≤ 1e-9 * Spec.bornRate s m κ R * Real.sqrt (Nx * Ny) * R := by
  have hfix := (nlResidual_zero_iff he s Z (h.bornMat_det hv hp hx hy Z)).1 hZ
  have hZR : ‖Z‖ ≤ R := by rw [← hfix]; exact h.step_bound he hv hp hx hy Z
  have hR := h.R_nonneg hv hx hy
  obtain ⟨hq0, hq1⟩ := h.rate_mem hv hx hy
  have hm := margin_pos h.coarse
  have hβ := hk.ratio_nonneg hv hx hy
  have hqβ : Spec.bornRate s m κ R = 2 * Spec.kerrRatio s m κ * R ^ 2 := by unfold Spec.bornRate Spec.kerrRatio; ring
  set q := Spec.bornRate s m κ R with hqdef
  set β := Spec.kerrRatio s m κ with hβdef
  set C : ℝ := Real.sqrt (Nx * Ny) with hC
  have hC2 : 2 ≤ C := by
    rw [hC]
    refine Real.le_sqrt_of_sq_le ?_
    have h1 : (2 : ℝ) ≤ Nx := by exact_mod_cast hx
    have h2 : (2 : ℝ) ≤ Ny := by exact_mod_cast hy
    nlinarith
  have hne : ∀ G, (bornStep env s G).2.2 ≠ 0 := by
    intro G h0
    have h1 := bornStep_solves he G (h.bornMat_det hv hp hx hy G)
    rw [h0, show flatten (0 : Grid Nx Ny ℂ) = 0 from rfl, Matrix.mulVec_zero] at h1
    apply hsrc
    funext i j
    have h2 := congrFun h1 (finProdFinEquiv (i, j))
    have hr : s.rhs (finProdFinEquiv (i, j)) = s.src i j * Complex.I * s.omega := by simp only [Sim.rhs, flatten_pair]
    rw [hr, Pi.zero_apply] at h2
    have h3 : (s.omega : ℂ) ≠ 0 := by exact_mod_cast hv.omega_pos.ne'
    simpa [h3, Complex.I_ne_zero] using h2.symm
  obtain ⟨E0, fl, k, conv, hst, hkn, heq, hnot, hstop, hlen, hrow, hzero⟩ := born_solve_spec env s none 1e-10 19
  have hball : ‖bornIter env s E0 k‖ ≤ R := by
    cases k with
    | zero => exact h.start_bound he hv hp hx hy hE hst
    | succ k => rw [bornIter_succ]; exact h.step_bound he hv hp hx hy _
  have hlast : conv.getLast? = if k = 19 then some (bornConv env s E0 k) else some (.fin 0) := by
    rw [List.getLast?_eq_getElem?, hlen]
    by_cases h : k = 19
    · subst h
      rw [if_pos rfl]
      exact hrow 19 (le_refl _)
    · rw [if_neg h]
      exact hzero 19 (by omega) (by omega)
  by_cases hgt : ((conv.getLast?).getD (.fin 0)).Gt 1e-10
  · -- Newton
    have hk19 : k = 19 := by
      by_contra hne
      rw [hlast, if_neg hne, Option.getD_some] at hgt
      have : (1e-10 : ℝ) < 0 := hgt
      norm_num at this
    set s1 : Sim Nx Ny := ({ s with fields := fl } : Sim Nx Ny).compute_nl (bornIter env s E0 k) with hs1
    have hv1 : s1.Valid := { hv with }
    have hk1 : Spec.RealKerr s1 m κ := ⟨hk.perm, hk.coarse, hk.coef⟩
    have hZ1 : ∀ i j, Spec.nlResidual s1 Z i j = 0 := hZ
    set ρ : ℝ := q ^ 19 * (2 * R) with hρ
    have hq19 : q ^ 19 ≤ 9 / 64 := (pow_le_pow_left₀ hq0 hq 19).trans (by norm_num)
    have hq19' : 0 ≤ q ^ 19 := by positivity
    have hρ0 : 0 ≤ ρ := by positivity
    have hρR : ρ ≤ 9 / 32 * R := by rw [hρ]; nlinarith
    have hnear : Spec.NewtonNear s1 m κ Z ρ := by
      refine ⟨hρ0, ?_⟩
      show β * (3 * ‖Z‖ + 2 * ρ) * ρ ≤ 1 / 2
      have h1 : β * (3 * ‖Z‖ + 2 * ρ) * ρ ≤ β * (3 * R + 2 * (9 / 32 * R)) * (9 / 32 * R) := by gcongr
      refine h1.trans ?_
      have h2 : β * (3 * R + 2 * (9 / 32 * R)) * (9 / 32 * R) = (2 * β * R ^ 2) * (57 / 16 * (9 / 64)) := by ring
      rw [h2, ← hqβ]
      nlinarith
    obtain ⟨r, s2, hr⟩ := newton_solve_ok env hb s1 hp (some (bornIter env s E0 (k + 1))) 1e-10 19
    obtain ⟨E1, fl1, l, it, -, hst1, hl, h0, hstep, hfin, hs', hnot1, hstop1, hlen1, hrow1, hzero1⟩ := newton_solve_spec env s1 _ 1e-10 19 r s2 hr
    refine ⟨r, { s2 with fields_nl := Sim.store s2.pol s2.fields_nl (r.Fx, r.Fy, r.Fz) }, ?_, fun i j => ?_⟩
    · unfold solve_fields_nl
      simp only [heq]
      rw [if_pos hgt, hr]
    have hst0 : ‖it 0 - Z‖ ≤ ρ := by
      rw [h0, hst1.1 _ rfl, hρ]
      have := (h.iter_error he hv hp hx hy hfix E0 k).2
      rwa [hk19] at this ⊢
    have hit := newton_iterates hk1 he hb hv1 hp hx hy hZ1 hnear it (l + 1) hst0 (fun l hl => hstep l (by omega))
    have hpw : ∀ k : ℕ, ((1 : ℝ) / 2) ^ (2 ^ k - 1) ≤ 1 := fun k => pow_le_one₀ (by norm_num) (by norm_num)
    have hl1 : ‖it (l + 1) - Z‖ ≤ ρ := (hit (l + 1) le_rfl).trans (by nlinarith [hpw (l + 1)])
    -- the last iterate
    have hG : ‖it (l + 1) - Z‖ ≤ 1e-10 * (C * (2 * R)) := by
      by_cases hlt : (convergence (it (l + 1)) (it l)).Lt 1e-10
      · by_cases hF0 : it (l + 1) = 0
        · exfalso
          obtain ⟨-, c2, c3⟩ := convergence_spec (it (l + 1)) (it l)
          by_cases hG0 : it l = 0
          · rw [c3 hF0 hG0] at hlt; exact hlt
          · rw [c2 hF0 hG0] at hlt; exact hlt
        have hch := change_le hF0 (not_gt_of_lt hlt)
        have hstepq := hk1.newton_step he hb hv1 hp hx hy hZ1 _ _ (hstep l le_rfl)
        have hl0 : ‖it l - Z‖ ≤ ρ := (hit l (by omega)).trans (by nlinarith [hpw l])
        have hhalf : ‖it (l + 1) - Z‖ ≤ 1 / 2 * ‖it l - Z‖ := by
          refine hstepq.trans ?_
          calc Spec.kerrRatio s1 m κ * (3 * ‖Z‖ + 2 * ‖it l - Z‖) * ‖it l - Z‖ ^ 2 = (β * (3 * ‖Z‖ + 2 * ‖it l - Z‖) * ‖it l - Z‖) * ‖it l - Z‖ := by
                show β * _ * _ = _
                ring
            _ ≤ (β * (3 * ‖Z‖ + 2 * ρ) * ρ) * ‖it l - Z‖ := by gcongr
            _ ≤ 1 / 2 * ‖it l - Z‖ := mul_le_mul_of_nonneg_right hnear.half (norm_nonneg _)
        have htri : ‖it l - Z‖ ≤ ‖it (l + 1) - Z‖ + ‖it (l + 1) - it l‖ := by
          have := norm_sub_le (it (l + 1) - Z) (it (l + 1) - it l)
          rwa [sub_sub_sub_cancel_left] at this
        have hnorm : ‖it (l + 1)‖ ≤ 2 * R := by
          have : ‖it (l + 1)‖ ≤ ‖it (l + 1) - Z‖ + ‖Z‖ := by
            have := norm_add_le (it (l + 1) - Z) Z
            rwa [sub_add_cancel] at this
          linarith
        have hla : laNorm (it (l + 1)) ≤ C * (2 * R) := (laNorm_le_sqrt _).trans (mul_le_mul_of_nonneg_left hnorm (by linarith))
        have : (1e-10 : ℝ) * laNorm (it (l + 1)) ≤ 1e-10 * (C * (2 * R)) := mul_le_mul_of_nonneg_left hla (by norm_num)
        linarith
      · have hl19 : l = 19 := hstop1.resolve_left hlt
        have h1 := hit (l + 1) le_rfl
        have h2 : ((1 : ℝ) / 2) ^ (2 ^ (l + 1) - 1) ≤ 1e-10 := by
          rw [hl19]
          refine (pow_le_pow_of_le_one (by norm_num) (by norm_num) (show 40 ≤ 2 ^ (19 + 1) - 1 by norm_num)).trans ?_
          norm_num
        refine h1.trans ?_
        have h3 : ρ * (1 / 2) ^ (2 ^ (l + 1) - 1) ≤ ρ * 1e-10 := mul_le_mul_of_nonneg_left h2 hρ0
        nlinarith
    have hFz : r.Fz = (bornStep env s1 (it (l + 1))).2.2 := by rw [← hfin]
    refine (norm_entry_le (r.Fz - Z) i j).trans ?_
    rw [hFz]
    refine (hk1.born_step he hv1 hp hx hy hZ1 (it (l + 1))).trans ?_
    calc Spec.kerrRatio s1 m κ * (‖Z‖ * (2 * ‖Z‖ + ‖it (l + 1) - Z‖)) * ‖it (l + 1) - Z‖ ≤ β * (R * (2 * R + R)) * (1e-10 * (C * (2 * R))) := by
          have : ‖it (l + 1) - Z‖ ≤ R := by linarith
          show β * _ * _ ≤ _
          gcongr
      _ = (2 * β * R ^ 2) * (3e-10 * (C * R)) := by ring
      _ ≤ 1e-9 * q * C * R := by
        rw [← hqβ]
        have : 0 ≤ q * (C * R) := by positivity
        nlinarith
  · have hres : ∃ s', solve_fields_nl env s =
        (.ok ⟨(bornStep env s (bornIter env s E0 k)).1, (bornStep env s (bornIter env s E0 k)).2.1, bornIter env s E0 (k + 1), conv⟩, s') := by
      unfold solve_fields_nl
      simp only [heq]
      rw [if_neg hgt]
      exact ⟨_, rfl⟩
    obtain ⟨s', hs'⟩ := hres
    refine ⟨_, s', hs', fun i j => ?_⟩
    have hngt : ¬ (bornConv env s E0 k).Gt 1e-10 := by
      rcases hstop with h1 | h1
      · exact not_gt_of_lt h1
      · rw [hlast, if_pos h1, Option.getD_some] at hgt
        exact hgt
    have hF0 : bornIter env s E0 (k + 1) ≠ 0 := by rw [bornIter_succ]; exact hne _
    have hch := change_le hF0 hngt
    have hFR : ‖bornIter env s E0 (k + 1)‖ ≤ R := by rw [bornIter_succ]; exact h.step_bound he hv hp hx hy _
    have hla : laNorm (bornIter env s E0 (k + 1)) ≤ C * R := (laNorm_le_sqrt _).trans (mul_le_mul_of_nonneg_left hFR (by linarith))
    have hpost := h.posterior he hv hp hx hy hfix _ hball
    rw [← bornIter_succ] at hpost
    refine (norm_entry_le (bornIter env s E0 (k + 1) - Z) i j).trans ?_
    have h1 : ‖bornIter env s E0 (k + 1) - bornIter env s E0 k‖ ≤ 1e-10 * (C * R) := hch.trans (mul_le_mul_of_nonneg_left hla (by norm_num))
    have h2 := mul_le_mul_of_nonneg_left h1 hq0
    have h3 : 0 ≤ ‖bornIter env s E0 (k + 1) - Z‖ := norm_nonneg _
    nlinarith

/-! ## Example -/

/-- A Kerr device of any size with five absorbing cells, `χ = 1`, any permittivity at least one, and a point source of strength `1/100`: the default solve is accurate. -/
example (env : Env) (he : env.Exact) (hb : env.backend = .pardiso) (hx : 1 < Nx) (hy : 1 < Ny) (x : Fin Nx) (y : Fin Ny) (eps : Grid Nx Ny ℂ) (hr : ∀ i j, 1 ≤ (eps i j).re) :
    ∃ Z r s', (∀ i j, Spec.nlResidual (cksim 5 1 eps fun i j => if i = x ∧ j = y then 1 / 100 else 0) Z i j = 0) ∧
      solve_fields_nl env (cksim 5 1 eps fun i j => if i = x ∧ j = y then 1 / 100 else 0) = (.ok r, s') ∧ ∀ i j, ‖r.Fz i j - Z i j‖ ≤ 1e-10 * Real.sqrt (Nx * Ny) := by
  set src : Grid Nx Ny ℂ := fun i j => if i = x ∧ j = y then 1 / 100 else 0 with hs
  have hw := cksim_weak 5 1 (1 / 100) zero_le_one (by norm_num) (by norm_num) eps src hr fun i j => by
    simp only [hs]
    split_ifs <;> norm_num
  have hk : Spec.RealKerr (cksim 5 1 eps src) 1 (3 * 1) := by
    refine ⟨hr, cksim_coarse 5 1 eps src, fun i j => ⟨3, by norm_num, by norm_num, ?_⟩⟩
    simp [Spec.kerrSum, Spec.kerrCoef, cksim]
  have hsrc : (cksim 5 1 eps src).src ≠ 0 := fun h => by
    have := congrFun (congrFun h x) y
    simp [cksim, fsim, hs] at this
  obtain ⟨Z, hZ, -, -⟩ := C76_unique_solution _ (cksim_valid 5 1 eps src) rfl hx hy _ _ _ hw
  have hE : (1 : ℝ) ^ 2 * EPSILON_0 * (1 / EPSILON_0) = 1 := by rw [one_pow, one_mul, mul_one_div_cancel EPSILON_0_pos.ne']
  have hq : Spec.bornRate (cksim 5 1 eps src) 1 (3 * 1) (9 * (1 / 100)) = 4374 / 10000 := by
    have hmar := cksim_margin 5 1 eps src
    unfold Spec.bornRate
    rw [hmar]
    show 2 * ((1 : ℝ) ^ 2 * EPSILON_0 * (1 / EPSILON_0)) * (3 * 1) * (9 * (1 / 100)) ^ 2 / (1 / 9) = _
    rw [hE]
    norm_num
  obtain ⟨r, s', h1, h2⟩ := C77_hybrid_default env he hb _ (cksim_valid 5 1 eps src) rfl hx hy _ _ _ hw hk (by rw [hq]; norm_num) hsrc (fun e h => by cases h) Z hZ
  refine ⟨Z, r, s', hZ, h1, fun i j => (h2 i j).trans ?_⟩
  rw [hq]
  have := Real.sqrt_nonneg ((Nx : ℝ) * Ny)
  nlinarith

end Angler
