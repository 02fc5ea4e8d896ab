import Verif.Props.BornConverges
import Verif.Props.Inexact

/-! # C112 — the Born iteration with inexact linear solvers: the error settles at the accuracy of the solves, and so does the relative change -/

namespace Angler

open Matrix

variable {Nx Ny : ℕ}

/-- The contraction factor with linear solves of relative residual `τ`. -/
noncomputable def Spec.inexactRate (s : Sim Nx Ny) (m κ R τ : ℝ) : ℝ := (1 + τ / 2) * Spec.bornRate s m κ R

/-! ## One pass -/

theorem Spec.WeakKerr.rhs_bound {s : Sim Nx Ny} {m κ R : ℝ} (h : Spec.WeakKerr s m κ R) (hv : s.Valid) (hx : 1 < Nx) (hy : 1 < Ny) : ‖s.rhs‖ ≤ Spec.margin s m * R := by
  have hm := margin_pos h.coarse
  have hR := h.R_nonneg hv hx hy
  refine (pi_norm_le_iff_of_nonneg (mul_nonneg hm.le hR)).2 fun k => ?_
  unfold Sim.rhs
  rw [norm_mul, norm_mul, Complex.norm_I, mul_one, Complex.norm_real, Real.norm_of_nonneg hv.omega_pos.le, mul_comm]
  exact h.source _ _

theorem grid_le_of_entries {c : ℝ} (hc : 0 ≤ c) (f : Grid Nx Ny ℂ) (h : ∀ i j, ‖f i j‖ ≤ c) : ‖f‖ ≤ c :=
  (pi_norm_le_iff_of_nonneg hc).2 fun i => (pi_norm_le_iff_of_nonneg hc).2 fun j => h i j

/-- Every field of an inexact pass lies in the ball of radius `(1 + τ) R`. -/
theorem Spec.WeakKerr.inexact_bound {s : Sim Nx Ny} {m κ R τ : ℝ} (h : Spec.WeakKerr s m κ R) {env : Env} (hτ : 0 ≤ τ) (hw : env.Within τ) (hv : s.Valid) (hp : s.pol = .Ez) (hx : 1 < Nx) (hy : 1 < Ny)
    (F : Grid Nx Ny ℂ) : ‖(bornStep env s F).2.2‖ ≤ (1 + τ) * R := by
  have hm := margin_pos h.coarse
  have hR := h.R_nonneg hv hx hy
  have hb := h.rhs_bound hv hx hy
  have hr := within_direct hw (bornMat s F) s.rhs (h.bornMat_det hv hp hx hy F)
  rw [bornStep_third]
  have h1 := h.frozen_bound hv hp hx hy F (unflatten (solver_direct env (bornMat s F) s.rhs)) (unflatten (bornMat s F *ᵥ solver_direct env (bornMat s F) s.rhs)) (by
    rw [flatten_unflatten, flatten_unflatten])
  refine le_of_mul_le_mul_left (h1.trans ?_) hm
  refine grid_le_of_entries (by positivity) _ fun i j => norm_unflatten _ _ ?_ i j
  have h2 : ‖bornMat s F *ᵥ solver_direct env (bornMat s F) s.rhs‖ ≤ ‖bornMat s F *ᵥ solver_direct env (bornMat s F) s.rhs - s.rhs‖ + ‖s.rhs‖ := by
    have := norm_add_le (bornMat s F *ᵥ solver_direct env (bornMat s F) s.rhs - s.rhs) s.rhs
    rwa [sub_add_cancel] at this
  have h3 : τ * ‖s.rhs‖ ≤ τ * (Spec.margin s m * R) := mul_le_mul_of_nonneg_left hb hτ
  linarith

/-- An inexact pass brings the field closer to the solution, up to `τ R`. -/
theorem Spec.WeakKerr.inexact_step {s : Sim Nx Ny} {m κ R τ : ℝ} (h : Spec.WeakKerr s m κ R) {env : Env} (hτ : 0 ≤ τ) (hw : env.Within τ) (hv : s.Valid) (hp : s.pol = .Ez) (hx : 1 < Nx) (hy : 1 < Ny)
    {Z : Grid Nx Ny ℂ} (hZ : bornMat s Z *ᵥ flatten Z = s.rhs) (hZR : ‖Z‖ ≤ R) (F : Grid Nx Ny ℂ) (hF : ‖F‖ ≤ (1 + τ) * R) :
    ‖(bornStep env s F).2.2 - Z‖ ≤ Spec.inexactRate s m κ R τ * ‖F - Z‖ + τ * R := by
  have hm := margin_pos h.coarse
  have hR := h.R_nonneg hv hx hy
  have hk := h.kappa_nonneg hx hy
  have hb := h.rhs_bound hv hx hy
  have hr := within_direct hw (bornMat s F) s.rhs (h.bornMat_det hv hp hx hy F)
  rw [bornStep_third]
  set X := solver_direct env (bornMat s F) s.rhs with hX
  set c : ℝ := s.omega ^ 2 * EPSILON_0 * s.L0 with hcdef
  have hc : 0 ≤ c := by have := EPSILON_0_pos; have := hv.L0_pos; positivity
  have h0 := h.frozen_bound hv hp hx hy F (unflatten X - Z)
    (unflatten (bornMat s F *ᵥ X - s.rhs) + fun i j => (c : ℂ) * (Spec.kerrSum s.nonlinearity s.eps_r i j * ((‖Z i j‖ ^ 2 - ‖F i j‖ ^ 2 : ℝ) : ℂ)) * Z i j) (by
      have e : flatten (unflatten X - Z) = X - flatten Z := by
        rw [show flatten (unflatten X - Z) = flatten (unflatten X) - flatten Z from rfl, flatten_unflatten]
      have e2 : ∀ (v : Vec (Nx * Ny) ℂ) (g : Grid Nx Ny ℂ), flatten (unflatten v + g) = v + flatten g := fun v g => by
        rw [show flatten (unflatten v + g) = flatten (unflatten v) + flatten g from rfl, flatten_unflatten]
      rw [e, e2, Matrix.mulVec_sub, ← hZ, bornMat_spdiag s Z, bornMat_spdiag s F, Matrix.add_mulVec s.A _ (flatten Z), Matrix.add_mulVec s.A _ (flatten Z), spdiag_mulVec, spdiag_mulVec]
      refine flat_ext fun i j => ?_
      simp only [Pi.sub_apply, Pi.add_apply, flatten_pair, hcdef]
      push_cast
      ring)
  have hsum : Spec.margin s m * (Spec.inexactRate s m κ R τ * ‖F - Z‖ + τ * R) = τ * (Spec.margin s m * R) + (2 + τ) * c * κ * R ^ 2 * ‖F - Z‖ := by
    unfold Spec.inexactRate Spec.bornRate
    rw [← hcdef]
    field_simp
    ring
  refine le_of_mul_le_mul_left (h0.trans ?_) hm
  rw [hsum]
  refine (norm_add_le _ _).trans (add_le_add ?_ ?_)
  · refine grid_le_of_entries (by positivity) _ fun i j => norm_unflatten _ _ (hr.trans ?_) i j
    exact mul_le_mul_of_nonneg_left hb hτ
  · refine grid_le_of_entries (by positivity) _ fun i j => ?_
    have n1 : ‖Z i j‖ ≤ R := (norm_entry_le _ _ _).trans hZR
    have n2 : ‖F i j‖ ≤ (1 + τ) * R := (norm_entry_le _ _ _).trans hF
    have h1 : |‖Z i j‖ ^ 2 - ‖F i j‖ ^ 2| ≤ (2 + τ) * R * ‖F - Z‖ := by
      have hd : |‖Z i j‖ - ‖F i j‖| ≤ ‖F - Z‖ := by
        refine (abs_norm_sub_norm_le _ _).trans ?_
        rw [norm_sub_rev]
        exact norm_entry_le (F - Z) i j
      rw [show ‖Z i j‖ ^ 2 - ‖F i j‖ ^ 2 = (‖Z i j‖ + ‖F i j‖) * (‖Z i j‖ - ‖F i j‖) by ring, abs_mul, abs_of_nonneg (by positivity)]
      exact mul_le_mul (by linarith) hd (abs_nonneg _) (by positivity)
    have h2 := h.kerr i j
    show ‖(c : ℂ) * (Spec.kerrSum s.nonlinearity s.eps_r i j * ((‖Z i j‖ ^ 2 - ‖F i j‖ ^ 2 : ℝ) : ℂ)) * Z i j‖ ≤ _
    rw [norm_mul, norm_mul, norm_mul, Complex.norm_real, Complex.norm_real, Real.norm_of_nonneg hc, Real.norm_eq_abs]
    calc c * (‖Spec.kerrSum s.nonlinearity s.eps_r i j‖ * |‖Z i j‖ ^ 2 - ‖F i j‖ ^ 2|) * ‖Z i j‖ ≤ c * (κ * ((2 + τ) * R * ‖F - Z‖)) * R := by gcongr
      _ = (2 + τ) * c * κ * R ^ 2 * ‖F - Z‖ := by ring

/-- The nonlinear equation in matrix form. -/
theorem residual_matrix (s : Sim Nx Ny) (F : Grid Nx Ny ℂ) (hdet : (bornMat s F).det ≠ 0) (hF : ∀ i j, Spec.nlResidual s F i j = 0) : bornMat s F *ᵥ flatten F = s.rhs := by
  have he := exactEnv_exact .pardiso
  have h1 := (nlResidual_zero_iff he s F hdet).1 hF
  have h2 := bornStep_solves he F hdet
  rwa [h1] at h2

theorem solution_bound {s : Sim Nx Ny} {m κ R : ℝ} (h : Spec.WeakKerr s m κ R) (hv : s.Valid) (hp : s.pol = .Ez) (hx : 1 < Nx) (hy : 1 < Ny) {Z : Grid Nx Ny ℂ}
    (hZ : ∀ i j, Spec.nlResidual s Z i j = 0) : ‖Z‖ ≤ R := by
  have he := exactEnv_exact .pardiso
  have h1 := (nlResidual_zero_iff he s Z (h.bornMat_det hv hp hx hy Z)).1 hZ
  rw [← h1]
  exact h.step_bound he hv hp hx hy Z

/-- The error after `k + 1` passes. -/
theorem Spec.WeakKerr.inexact_iter {s : Sim Nx Ny} {m κ R τ : ℝ} (h : Spec.WeakKerr s m κ R) {env : Env} (hτ : 0 ≤ τ) (hw : env.Within τ) (hv : s.Valid) (hp : s.pol = .Ez) (hx : 1 < Nx) (hy : 1 < Ny)
    {Z : Grid Nx Ny ℂ} (hZ : ∀ i j, Spec.nlResidual s Z i j = 0) (q : ℝ) (hq : Spec.inexactRate s m κ R τ ≤ q) (hq1 : q < 1) (E0 : Grid Nx Ny ℂ) (k : ℕ) :
    ‖bornIter env s E0 (k + 1) - Z‖ ≤ q ^ k * ((2 + τ) * R) + τ * R / (1 - q) := by
  have hR := h.R_nonneg hv hx hy
  have hZR := solution_bound h hv hp hx hy hZ
  have hZm := residual_matrix s Z (h.bornMat_det hv hp hx hy Z) hZ
  obtain ⟨hr0, -⟩ := h.rate_mem hv hx hy
  have hq0 : 0 ≤ q := le_trans (by unfold Spec.inexactRate; positivity) hq
  have hb : ∀ k, ‖bornIter env s E0 (k + 1)‖ ≤ (1 + τ) * R := fun k => by
    rw [bornIter_succ]; exact h.inexact_bound hτ hw hv hp hx hy _
  have hpos : 0 < 1 - q := by linarith
  induction k with
  | zero =>
    have h1 : 0 ≤ τ * R / (1 - q) := by positivity
    have h2 := norm_sub_le (bornIter env s E0 (0 + 1)) Z
    have h3 := hb 0
    rw [pow_zero, one_mul]
    linarith
  | succ k ih =>
    rw [bornIter_succ]
    refine (h.inexact_step hτ hw hv hp hx hy hZm hZR _ (hb k)).trans ?_
    have h1 : Spec.inexactRate s m κ R τ * ‖bornIter env s E0 (k + 1) - Z‖ ≤ q * (q ^ k * ((2 + τ) * R) + τ * R / (1 - q)) :=
      (mul_le_mul_of_nonneg_right hq (norm_nonneg _)).trans (mul_le_mul_of_nonneg_left ih hq0)
    have h2 : τ * R = (1 - q) * (τ * R / (1 - q)) := by field_simp
    rw [pow_succ']
    linear_combination h1 + h2

/-! ## The theorems -/

/-- **C112, the error.** Whatever field the Born solver starts from, with linear solves of relative residual at most `τ`, after `k + 1` passes the field it returns is within
`q^k (2 + τ) R + τ R / (1 - q)` of the solution at every cell, where `q = (1 + τ/2) rate`. -/
theorem C112_floor (env : Env) (τ : ℝ) (hτ : 0 ≤ τ) (hw : env.Within τ) (s : Sim Nx Ny) (hv : s.Valid) (hp : s.pol = .Ez) (hx : 1 < Nx) (hy : 1 < Ny) (m κ R : ℝ) (h : Spec.WeakKerr s m κ R)
    (hq : Spec.inexactRate s m κ R τ < 1) (Z : Grid Nx Ny ℂ) (hZ : ∀ i j, Spec.nlResidual s Z i j = 0) (E : Option (Grid Nx Ny ℂ)) (thr : ℝ) (n : ℕ) (r : NlResult Nx Ny) (s' : Sim Nx Ny)
    (hr : solve_fields_nl env s E .born thr n = (.ok r, s')) :
    s'.fields_nl .Ez = some r.Fz ∧ ∃ k c, k < n ∧ r.conv[k]? = some c ∧ (c.Lt thr ∨ k + 1 = n) ∧ (∀ l, k < l → l < n → r.conv[l]? = some (.fin 0)) ∧
      ∀ i j, ‖r.Fz i j - Z i j‖ ≤ Spec.inexactRate s m κ R τ ^ k * ((2 + τ) * R) + τ * R / (1 - Spec.inexactRate s m κ R τ) := by
  rcases Nat.eq_zero_or_pos n with rfl | hn
  · have h0 := born_solve_zero env s E thr
    unfold solve_fields_nl at hr
    simp only at hr
    generalize born_solve env s E thr 0 = B at h0 hr
    obtain ⟨e | a, b⟩ := B
    · cases hr
    · cases h0
  obtain ⟨n, rfl⟩ : ∃ p, n = p + 1 := ⟨n - 1, by omega⟩
  obtain ⟨E0, fl, k, conv, hst, hk, heq, hnot, hstop, hlen, hrow, hzero⟩ := born_solve_spec env s E thr n
  unfold solve_fields_nl at hr
  simp only [heq] at hr
  simp only [Prod.mk.injEq, Except.ok.injEq] at hr
  obtain ⟨rfl, rfl⟩ := hr
  refine ⟨?_, k, _, by omega, hrow k le_rfl, hstop.imp_right (congrArg (· + 1)), hzero, fun i j => ?_⟩
  · show Sim.store s.pol _ _ _ = _
    rw [hp]
    rfl
  · exact (norm_entry_le (bornIter env s E0 (k + 1) - Z) i j).trans (h.inexact_iter hτ hw hv hp hx hy hZ _ le_rfl hq E0 k)

/-- The linear field computed by an inexact solver. -/
theorem Spec.WeakKerr.inexact_linear {s : Sim Nx Ny} {m κ R τ : ℝ} (h : Spec.WeakKerr s m κ R) {env : Env} (hτ : 0 ≤ τ) (hw : env.Within τ) (hv : s.Valid) (hp : s.pol = .Ez) (hx : 1 < Nx) (hy : 1 < Ny) :
    ‖(unflatten (solver_direct env s.A s.rhs) : Grid Nx Ny ℂ)‖ ≤ (1 + τ) * R := by
  have h1 := h.inexact_bound hτ hw hv hp hx hy 0
  rw [bornStep_third] at h1
  have h2 : bornMat s (0 : Grid Nx Ny ℂ) = s.A := by
    unfold bornMat kerrMat
    rw [add_eq_left]
    ext a b
    simp [spdiag, Matrix.diagonal_apply, flatten]
  rwa [h2] at h1

/-- **C112, what the threshold guarantees.** If the field the solver starts from, given or stored, is at most `(1 + τ) R` and the solver stops below its threshold, the field returned is within
`(q · threshold · ‖field‖₂ + τ R) / (1 - q)` of the solution at every cell. -/
theorem C112_threshold (env : Env) (τ : ℝ) (hτ : 0 ≤ τ) (hw : env.Within τ) (s : Sim Nx Ny) (hv : s.Valid) (hp : s.pol = .Ez) (hx : 1 < Nx) (hy : 1 < Ny) (m κ R : ℝ) (h : Spec.WeakKerr s m κ R)
    (hq : Spec.inexactRate s m κ R τ < 1) (Z : Grid Nx Ny ℂ) (hZ : ∀ i j, Spec.nlResidual s Z i j = 0) (E : Option (Grid Nx Ny ℂ))
    (hE : ∀ e, (E = some e ∨ E = none ∧ s.fields .Ez = some e) → ∀ i j, ‖e i j‖ ≤ (1 + τ) * R) (thr : ℝ) (n : ℕ) (r : NlResult Nx Ny) (s' : Sim Nx Ny)
    (hr : solve_fields_nl env s E .born thr n = (.ok r, s')) :
    ∃ k c, k < n ∧ r.conv[k]? = some c ∧ (c.Lt thr ∨ k + 1 = n) ∧ (∀ l, k < l → l < n → r.conv[l]? = some (.fin 0)) ∧ (c.Lt thr → ∀ i j,
      ‖r.Fz i j - Z i j‖ ≤ (Spec.inexactRate s m κ R τ * (thr * Real.sqrt (∑ i, ∑ j, ‖r.Fz i j‖ ^ 2)) + τ * R) / (1 - Spec.inexactRate s m κ R τ)) := by
  have hR := h.R_nonneg hv hx hy
  rcases Nat.eq_zero_or_pos n with rfl | hn
  · have h0 := born_solve_zero env s E thr
    unfold solve_fields_nl at hr
    simp only at hr
    generalize born_solve env s E thr 0 = B at h0 hr
    obtain ⟨e | a, b⟩ := B
    · cases hr
    · cases h0
  obtain ⟨n, rfl⟩ : ∃ p, n = p + 1 := ⟨n - 1, by omega⟩
  obtain ⟨E0, fl, k, conv, hst, hk, heq, hnot, hstop, hlen, hrow, hzero⟩ := born_solve_spec env s E thr n
  unfold solve_fields_nl at hr
  simp only [heq] at hr
  simp only [Prod.mk.injEq, Except.ok.injEq] at hr
  obtain ⟨rfl, -⟩ := hr
  refine ⟨k, _, by omega, hrow k le_rfl, hstop.imp_right (congrArg (· + 1)), hzero, fun hlt i j => ?_⟩
  have hE0 : ‖E0‖ ≤ (1 + τ) * R := by
    have hall : ∀ e : Grid Nx Ny ℂ, (∀ i j, ‖e i j‖ ≤ (1 + τ) * R) → ‖e‖ ≤ (1 + τ) * R := fun e h => grid_le_of_entries (by positivity) e h
    obtain ⟨h1, h2, h3⟩ := hst
    cases E with
    | some e => rw [h1 e rfl]; exact hall e (hE e (Or.inl rfl))
    | none =>
      cases hf : s.fields s.pol.comp with
      | some e =>
        rw [h2 rfl e hf]
        rw [hp] at hf
        exact hall e (hE e (Or.inr ⟨rfl, hf⟩))
      | none =>
        obtain ⟨Fx, Fy, h4⟩ := h3 rfl hf
        have h5 : (s.solve_fields env).1 = .ok (s.in_plane false s.eps_r (solver_direct env s.A s.rhs)) := rfl
        rw [h5, Except.ok.injEq] at h4
        have h6 : E0 = unflatten (solver_direct env s.A s.rhs) := by rw [← in_plane_third s false s.eps_r, h4]
        rw [h6]
        exact h.inexact_linear hτ hw hv hp hx hy
  have hball : ‖bornIter env s E0 k‖ ≤ (1 + τ) * R := by
    cases k with
    | zero => exact hE0
    | succ k => rw [bornIter_succ]; exact h.inexact_bound hτ hw hv hp hx hy _
  have hstep : ‖bornIter env s E0 (k + 1) - Z‖ ≤ Spec.inexactRate s m κ R τ * ‖bornIter env s E0 k - Z‖ + τ * R := by
    rw [bornIter_succ]
    exact h.inexact_step hτ hw hv hp hx hy (residual_matrix s Z (h.bornMat_det hv hp hx hy Z) hZ) (solution_bound h hv hp hx hy hZ) _ hball
  obtain ⟨hr0, -⟩ := h.rate_mem hv hx hy
  have hq0 : 0 ≤ Spec.inexactRate s m κ R τ := by unfold Spec.inexactRate; positivity
  unfold bornConv at hlt
  set q := Spec.inexactRate s m κ R τ
  simp only
  set F := bornIter env s E0 (k + 1)
  set G := bornIter env s E0 k
  obtain ⟨c1, c2, c3⟩ := convergence_spec F G
  have hF0 : F ≠ 0 := by
    intro h0
    by_cases hG0 : G = 0
    · rw [c3 h0 hG0] at hlt; exact hlt
    · rw [c2 h0 hG0] at hlt; exact hlt
  rw [c1 hF0] at hlt
  have hlt' : Real.sqrt (∑ i, ∑ j, ‖F i j - G i j‖ ^ 2) / Real.sqrt (∑ i, ∑ j, ‖F i j‖ ^ 2) < thr := hlt
  have hpos : 0 < Real.sqrt (∑ i, ∑ j, ‖F i j‖ ^ 2) := lt_of_lt_of_le (norm_pos_iff.2 hF0) (norm_le_laNorm' F)
  rw [div_lt_iff₀ hpos] at hlt'
  have hFG : ‖F - G‖ ≤ thr * Real.sqrt (∑ i, ∑ j, ‖F i j‖ ^ 2) := (norm_le_laNorm' (F - G)).trans hlt'.le
  have htri : ‖G - Z‖ ≤ ‖F - Z‖ + ‖F - G‖ := by
    have := norm_sub_le (F - Z) (F - G)
    rwa [sub_sub_sub_cancel_left] at this
  refine (norm_entry_le (F - Z) i j).trans ?_
  rw [le_div_iff₀ (by linarith)]
  have h1 := mul_le_mul_of_nonneg_left hFG hq0
  have h2 := mul_le_mul_of_nonneg_left htri hq0
  linarith

/-- **C112, convergence.** A source that is not zero and a positive threshold: there are an accuracy and a number of passes such that with linear solves of that accuracy the Born solver stops below its
threshold within that many passes, whatever field it starts from and whatever the solver. -/
theorem C112_converges (s : Sim Nx Ny) (hv : s.Valid) (hp : s.pol = .Ez) (hx : 1 < Nx) (hy : 1 < Ny) (m κ R : ℝ) (h : Spec.WeakKerr s m κ R) (hsrc : s.src ≠ 0) (thr : ℝ) (ht : 0 < thr) :
    ∃ τ, 0 < τ ∧ ∃ N, ∀ env : Env, env.Within τ → ∀ n, N ≤ n → ∀ E : Option (Grid Nx Ny ℂ), ∃ r s' k c,
      solve_fields_nl env s E .born thr n = (.ok r, s') ∧ k ≤ N ∧ r.conv[k]? = some c ∧ c.Lt thr := by
  obtain ⟨Z, hZ, -, -⟩ := C76_unique_solution s hv hp hx hy m κ R h
  have hZ0 : Z ≠ 0 := by
    rintro rfl
    apply hsrc
    funext i j
    have h1 := hZ i j
    unfold Spec.nlResidual at h1
    rw [show flatten (0 : Grid Nx Ny ℂ) = 0 from rfl, Matrix.mulVec_zero] at h1
    have h2 : Complex.I * (s.omega : ℂ) * s.src i j = 0 := by
      simp only [Pi.zero_apply, mul_zero, zero_add, zero_sub, neg_eq_zero] at h1
      exact h1
    have h3 : (s.omega : ℂ) ≠ 0 := by exact_mod_cast hv.omega_pos.ne'
    simpa [h3, Complex.I_ne_zero] using h2
  have hZn : 0 < ‖Z‖ := norm_pos_iff.2 hZ0
  obtain ⟨hr0, hr1⟩ := h.rate_mem hv hx hy
  have hR := h.R_nonneg hv hx hy
  set C : ℝ := Real.sqrt (Nx * Ny) with hC
  have hC0 : 0 ≤ C := Real.sqrt_nonneg _
  obtain ⟨B, hB⟩ : ∃ B, B = min (‖Z‖ / 2) (thr * (‖Z‖ / 2) / (2 * C + 1)) := ⟨_, rfl⟩
  have hB0 : 0 < B := by rw [hB]; positivity
  obtain ⟨q, hqd⟩ : ∃ q, q = (1 + Spec.bornRate s m κ R) / 2 := ⟨_, rfl⟩
  have hq0 : 0 ≤ q := by linarith
  have hq1 : q < 1 := by linarith
  obtain ⟨τ, hτd⟩ : ∃ τ, τ = min (1 - Spec.bornRate s m κ R) (B * (1 - q) / (2 * (R + 1))) := ⟨_, rfl⟩
  have hτ0 : 0 < τ := by
    have h1 : 0 < 1 - q := by linarith
    have h2 : 0 < 1 - Spec.bornRate s m κ R := by linarith
    rw [hτd]
    positivity
  have hτ1 : τ ≤ 1 - Spec.bornRate s m κ R := hτd ▸ min_le_left _ _
  have hτ2 : τ ≤ B * (1 - q) / (2 * (R + 1)) := hτd ▸ min_le_right _ _
  have hrate : Spec.inexactRate s m κ R τ ≤ q := by
    unfold Spec.inexactRate
    have h1 : τ * Spec.bornRate s m κ R ≤ τ * 1 := mul_le_mul_of_nonneg_left hr1.le hτ0.le
    linarith
  have hfl : τ * R / (1 - q) < B / 2 := by
    have h1 : 0 < 1 - q := by linarith
    rw [div_lt_iff₀ h1]
    have h2 : τ * R < τ * (R + 1) := mul_lt_mul_of_pos_left (by linarith) hτ0
    have h3 : τ * (R + 1) ≤ B * (1 - q) / 2 := by
      calc τ * (R + 1) ≤ B * (1 - q) / (2 * (R + 1)) * (R + 1) := mul_le_mul_of_nonneg_right hτ2 (by linarith)
        _ = B * (1 - q) / 2 := by field_simp
    linarith
  have hlim : Filter.Tendsto (fun k : ℕ => q ^ k * ((2 + τ) * R)) Filter.atTop (nhds 0) := by
    simpa using (tendsto_pow_atTop_nhds_zero_of_lt_one hq0 hq1).mul_const ((2 + τ) * R)
  obtain ⟨K, hK⟩ := (hlim.eventually (gt_mem_nhds (show 0 < B / 2 by positivity))).exists
  have hsmall : ∀ k, K ≤ k → q ^ k * ((2 + τ) * R) + τ * R / (1 - q) < B := fun k hk => by
    have h1 : q ^ k * ((2 + τ) * R) ≤ q ^ K * ((2 + τ) * R) := mul_le_mul_of_nonneg_right (pow_le_pow_of_le_one hq0 hq1.le hk) (by positivity)
    linarith
  refine ⟨τ, hτ0, K + 2, fun env hw n hn E => ?_⟩
  have hconv : ∀ E0, (bornConv env s E0 (K + 1)).Lt thr := by
    intro E0
    have e1 := h.inexact_iter hτ0.le hw hv hp hx hy hZ q hrate hq1 E0 K
    have e2 := h.inexact_iter hτ0.le hw hv hp hx hy hZ q hrate hq1 E0 (K + 1)
    have s1 := hsmall K le_rfl
    have s2 := hsmall (K + 1) (by omega)
    rw [hB] at s1 s2
    unfold bornConv
    set F := bornIter env s E0 (K + 1 + 1)
    set G := bornIter env s E0 (K + 1)
    have hFlow : ‖Z‖ / 2 < ‖F‖ := by
      have h1 : ‖Z‖ ≤ ‖F‖ + ‖F - Z‖ := by
        have := norm_sub_le F (F - Z)
        rwa [sub_sub_cancel] at this
      have := lt_of_lt_of_le s2 (min_le_left _ _)
      linarith
    have hF0 : F ≠ 0 := by
      rintro h0
      rw [h0, norm_zero] at hFlow
      linarith
    have hd : ‖F - G‖ ≤ 2 * (thr * (‖Z‖ / 2) / (2 * C + 1)) := by
      have h1 : ‖F - G‖ ≤ ‖F - Z‖ + ‖G - Z‖ := by
        have := norm_sub_le (F - Z) (G - Z)
        rwa [sub_sub_sub_cancel_right] at this
      have a1 := lt_of_lt_of_le s1 (min_le_right _ _)
      have a2 := lt_of_lt_of_le s2 (min_le_right _ _)
      linarith
    rw [(convergence_spec F G).1 hF0]
    show _ / _ < thr
    have hnum : Real.sqrt (∑ i, ∑ j, ‖F i j - G i j‖ ^ 2) ≤ C * ‖F - G‖ := laNorm_le_sqrt (F - G)
    have hden : ‖F‖ ≤ Real.sqrt (∑ i, ∑ j, ‖F i j‖ ^ 2) := norm_le_laNorm' F
    rw [div_lt_iff₀ (by linarith)]
    calc Real.sqrt (∑ i, ∑ j, ‖F i j - G i j‖ ^ 2) ≤ C * (2 * (thr * (‖Z‖ / 2) / (2 * C + 1))) := hnum.trans (mul_le_mul_of_nonneg_left hd hC0)
      _ = thr * (‖Z‖ / 2) * (2 * C / (2 * C + 1)) := by ring
      _ ≤ thr * (‖Z‖ / 2) * 1 := by
        refine mul_le_mul_of_nonneg_left ?_ (by positivity)
        rw [div_le_one (by positivity)]
        linarith
      _ < thr * Real.sqrt (∑ i, ∑ j, ‖F i j‖ ^ 2) := by
        rw [mul_one]
        exact mul_lt_mul_of_pos_left (by linarith) ht
  obtain ⟨n, rfl⟩ : ∃ p, n = p + 1 := ⟨n - 1, by omega⟩
  obtain ⟨E0, fl, k, conv, hst, hk, heq, hnot, hstop, hlen, hrow, hzero⟩ := born_solve_spec env s E thr n
  have hkK : k ≤ K + 1 := by
    by_contra hlt
    exact hnot (K + 1) (by omega) (hconv E0)
  have hlt : (bornConv env s E0 k).Lt thr := by
    rcases hstop with h1 | h1
    · exact h1
    · rw [show k = K + 1 by omega]
      exact hconv E0
  have hres : ∃ s', solve_fields_nl env s E .born thr (n + 1) =
      (.ok ⟨(bornStep env s (bornIter env s E0 k)).1, (bornStep env s (bornIter env s E0 k)).2.1, bornIter env s E0 (k + 1), conv⟩, s') := by
    unfold solve_fields_nl
    simp only [heq]
    exact ⟨_, rfl⟩
  obtain ⟨s', hs'⟩ := hres
  exact ⟨_, s', k, _, hs', by omega, hrow k le_rfl, hlt⟩

/-! ## Thresholds below the accuracy of the solves -/

/-- A solver whose relative residual is `τ`, of one sign on matrices whose entries add up to at most `T` and of the other on the others. -/
noncomputable def flipEnv (τ T : ℝ) : Env :=
  ⟨.pardiso, fun A b => A⁻¹ *ᵥ ((1 + ((if (∑ i, ∑ j, A i j).re ≤ T then τ else -τ : ℝ) : ℂ)) • b), fun A v => A⁻¹ *ᵥ v⟩

theorem flipEnv_within (τ T : ℝ) (hτ : 0 ≤ τ) : (flipEnv τ T).Within τ := by
  intro n A b hA
  have h1 : A *ᵥ (flipEnv τ T).solveC A b = (1 + ((if (∑ i, ∑ j, A i j).re ≤ T then τ else -τ : ℝ) : ℂ)) • b := by
    show A *ᵥ (A⁻¹ *ᵥ _) = _
    rw [Matrix.mulVec_mulVec, Matrix.mul_nonsing_inv A (isUnit_iff_ne_zero.2 hA), Matrix.one_mulVec]
  rw [h1, add_smul, one_smul, add_sub_cancel_left, norm_smul, Complex.norm_real, Real.norm_eq_abs]
  refine mul_le_mul_of_nonneg_right ?_ (norm_nonneg _)
  split_ifs
  · rw [abs_of_nonneg hτ]
  · rw [abs_neg, abs_of_nonneg hτ]

/-- The amplitudes of the iterates. -/
noncomputable def flipAmp (τ χ : ℝ) : ℕ → ℝ
  | 0 => 0
  | k + 1 => (1 + if flipAmp τ χ k ≤ 1 then τ else -τ) / (1 + 3 * χ * flipAmp τ χ k ^ 2)

theorem flipAmp_alternates (τ χ : ℝ) (h0 : 0 < τ) (h1 : τ < 1) (hχ : 0 ≤ χ) (hs : 3 * χ < τ) (k : ℕ) :
    (0 ≤ flipAmp τ χ (2 * k) ∧ flipAmp τ χ (2 * k) ≤ 1 - τ) ∧ 1 < flipAmp τ χ (2 * k + 1) ∧ 0 < flipAmp τ χ (2 * k + 2) ∧ flipAmp τ χ (2 * k + 2) ≤ 1 - τ := by
  have key : ∀ k, 0 ≤ flipAmp τ χ (2 * k) → flipAmp τ χ (2 * k) ≤ 1 - τ → 1 < flipAmp τ χ (2 * k + 1) ∧ 0 < flipAmp τ χ (2 * k + 2) ∧ flipAmp τ χ (2 * k + 2) ≤ 1 - τ := by
    intro k ha hb
    have hodd : 1 < flipAmp τ χ (2 * k + 1) := by
      show 1 < (1 + if flipAmp τ χ (2 * k) ≤ 1 then τ else -τ) / (1 + 3 * χ * flipAmp τ χ (2 * k) ^ 2)
      rw [if_pos (by linarith), lt_div_iff₀ (by positivity)]
      have h2 : flipAmp τ χ (2 * k) ^ 2 ≤ 1 := pow_le_one₀ ha (by linarith)
      have h3 : 3 * χ * flipAmp τ χ (2 * k) ^ 2 ≤ 3 * χ * 1 := mul_le_mul_of_nonneg_left h2 (by positivity)
      linarith
    refine ⟨hodd, ?_⟩
    have e : flipAmp τ χ (2 * k + 2) = (1 + -τ) / (1 + 3 * χ * flipAmp τ χ (2 * k + 1) ^ 2) := by
      show (1 + if flipAmp τ χ (2 * k + 1) ≤ 1 then τ else -τ) / _ = _
      rw [if_neg (by linarith)]
    rw [e]
    have hτ : 0 < 1 + -τ := by linarith
    have hden : 1 ≤ 1 + 3 * χ * flipAmp τ χ (2 * k + 1) ^ 2 := by
      have : 0 ≤ 3 * χ * flipAmp τ χ (2 * k + 1) ^ 2 := by positivity
      linarith
    refine ⟨by positivity, ?_⟩
    have := div_le_self hτ.le hden
    linarith
  have base : 0 ≤ flipAmp τ χ (2 * k) ∧ flipAmp τ χ (2 * k) ≤ 1 - τ := by
    induction k with
    | zero => exact ⟨le_rfl, by show (0 : ℝ) ≤ _; linarith⟩
    | succ k ih =>
      obtain ⟨-, a, b⟩ := key k ih.1 ih.2
      exact ⟨a.le, b⟩
  exact ⟨base, key k base.1 base.2⟩

/-- The relative change of consecutive amplitudes. -/
theorem flipAmp_change (τ χ : ℝ) (h0 : 0 < τ) (h1 : τ < 1) (hχ : 0 ≤ χ) (hs : 3 * χ < τ) (k : ℕ) :
    0 < flipAmp τ χ (k + 1) ∧ τ ≤ |flipAmp τ χ (k + 1) - flipAmp τ χ k| / |flipAmp τ χ (k + 1)| := by
  obtain ⟨p, hp | hp⟩ := Nat.even_or_odd' k
  · obtain ⟨⟨a, b⟩, c, -⟩ := flipAmp_alternates τ χ h0 h1 hχ hs p
    subst hp
    refine ⟨by linarith, ?_⟩
    rw [abs_of_pos (by linarith), abs_of_pos (by linarith), le_div_iff₀ (by linarith)]
    have : (1 - τ) * 1 ≤ (1 - τ) * flipAmp τ χ (2 * p + 1) := mul_le_mul_of_nonneg_left c.le (by linarith)
    linarith
  · obtain ⟨-, c, d, e⟩ := flipAmp_alternates τ χ h0 h1 hχ hs p
    subst hp
    refine ⟨d, ?_⟩
    rw [abs_of_neg (by linarith), abs_of_pos d, le_div_iff₀ d]
    have h2 : τ * flipAmp τ χ (2 * p + 2) ≤ τ * 1 := mul_le_mul_of_nonneg_left (by linarith) h0.le
    show τ * flipAmp τ χ (2 * p + 2) ≤ -(flipAmp τ χ (2 * p + 2) - flipAmp τ χ (2 * p + 1))
    linarith

theorem laNorm_const (c : ℂ) : laNorm (fun (_ : Fin Nx) (_ : Fin Ny) => c) = Real.sqrt (Nx * Ny) * ‖c‖ := by
  have h0 : (0 : ℝ) ≤ Nx * Ny := by positivity
  unfold laNorm
  rw [← Real.sqrt_sq (norm_nonneg c), ← Real.sqrt_mul h0]
  congr 1
  simp [mul_assoc]

theorem convergence_const (hx : 0 < Nx) (hy : 0 < Ny) (a b : ℂ) (ha : a ≠ 0) :
    convergence (fun (_ : Fin Nx) (_ : Fin Ny) => a) (fun _ _ => b) = .fin (‖a - b‖ / ‖a‖) := by
  unfold convergence PyFloat.div
  rw [laNorm_const, laNorm_const (a - b)]
  have h1 : ‖a‖ ≠ 0 := norm_ne_zero_iff.2 ha
  have h2 : Real.sqrt ((Nx : ℝ) * Ny) ≠ 0 := (Real.sqrt_pos.2 (by positivity)).ne'
  rw [if_pos (mul_ne_zero h2 h1), mul_div_mul_left _ _ h2]

/-- The frozen matrix of the uniform device on uniform fields. -/
theorem cksim_uniform (hx : 1 < Nx) (hy : 1 < Ny) (χ : ℝ) (src : Grid Nx Ny ℂ) (c : ℂ) :
    bornMat (cksim 0 χ (fun _ _ => 1) src) (fun _ _ => c) *ᵥ flatten (fun _ _ => 1 : Grid Nx Ny ℂ) = (((1 + 3 * χ * ‖c‖ ^ 2 : ℝ) : ℂ)) • flatten (fun _ _ => 1 : Grid Nx Ny ℂ) := by
  generalize hs : (cksim 0 χ (fun _ _ => 1) src : Sim Nx Ny) = s
  have hv : s.Valid := hs ▸ cksim_valid _ _ _ _
  have hE : s.omega ^ 2 * EPSILON_0 * s.L0 = 1 := by
    rw [← hs]
    show (1 : ℝ) ^ 2 * EPSILON_0 * (1 / EPSILON_0) = 1
    rw [one_pow, one_mul, mul_one_div_cancel EPSILON_0_pos.ne']
  have hk : ∀ i j, Spec.kerrSum s.nonlinearity s.eps_r i j = ((3 * χ : ℝ) : ℂ) := fun i j => by
    rw [← hs]
    simp [Spec.kerrSum, Spec.kerrCoef, cksim]
  have hp : s.pol = .Ez := hs ▸ rfl
  have hd : 0 < s.dl := hs ▸ fsim_dl_pos 0 (fun _ _ => 1) src
  rw [bornMat_spdiag, Matrix.add_mulVec, const_eigen s hv hp hd hx hy 1 (fun i j => by rw [← hs]; rfl), spdiag_mulVec]
  refine flat_ext fun i j => ?_
  simp only [Pi.add_apply, Pi.smul_apply, smul_eq_mul, flatten_pair, hk, hE]
  push_cast
  ring

theorem entries_sum {n : ℕ} (A : Mat n ℂ) (lam : ℂ) (h : A *ᵥ (fun _ => 1) = lam • (fun _ => 1)) : ∑ i, ∑ j, A i j = n * lam := by
  have h1 : ∀ i, ∑ j, A i j = lam := fun i => by
    have := congrFun h i
    rw [mulVec_eq_sum'] at this
    simpa using this
  simp [h1]

/-- **C112, thresholds below the accuracy.** For every accuracy `τ` below one and every grid there are a weakly driven Kerr device, for which exact solves converge, and a linear solver that never
leaves a relative residual above `τ`, for which the relative change of the Born solver stays at `τ` or above for ever: no threshold up to `τ` is ever met, with any number of passes. -/
theorem C112_stall (hx : 1 < Nx) (hy : 1 < Ny) (τ : ℝ) (h0 : 0 < τ) (h1 : τ < 1) : ∃ (s : Sim Nx Ny) (env : Env), s.Valid ∧ s.pol = .Ez ∧ s.src ≠ 0 ∧ (∃ m κ R, Spec.WeakKerr s m κ R) ∧ env.Within τ ∧
    ∀ thr, thr ≤ τ → ∀ n, ∃ r s', solve_fields_nl env s (some fun _ _ => 0) .born thr (n + 1) = (.ok r, s') ∧ ∀ k ≤ n, ∃ x : ℝ, r.conv[k]? = some (.fin x) ∧ τ ≤ x := by
  obtain ⟨χ, hχd⟩ : ∃ χ, χ = τ / 10000 := ⟨_, rfl⟩
  have hχ0 : 0 < χ := by rw [hχd]; positivity
  have hs : 3 * χ < τ := by rw [hχd]; linarith
  have hN : (0 : ℝ) < ((Nx * Ny : ℕ) : ℝ) := by
    have : 0 < Nx * Ny := Nat.mul_pos (by omega) (by omega)
    exact_mod_cast this
  obtain ⟨T, hT⟩ : ∃ T, T = ((Nx * Ny : ℕ) : ℝ) * (1 + 3 * χ) := ⟨_, rfl⟩
  generalize hsd : (cksim 0 χ (fun _ _ => 1) (fun _ _ => 1) : Sim Nx Ny) = s
  have hv : s.Valid := hsd ▸ cksim_valid _ _ _ _
  have hp : s.pol = .Ez := hsd ▸ rfl
  have hsrc : s.src ≠ 0 := by
    intro h
    have := congrFun (congrFun h ⟨0, by omega⟩) ⟨0, by omega⟩
    rw [← hsd] at this
    simp [cksim, fsim] at this
  have hweak : Spec.WeakKerr s 1 (3 * χ) (9 * 1) := by
    rw [← hsd]
    refine cksim_weak 0 χ 1 hχ0.le zero_le_one ?_ _ _ (fun i j => by simp) (fun i j => by simp)
    rw [hχd]
    linarith
  have hrhs : s.rhs = Complex.I • flatten (fun _ _ => 1 : Grid Nx Ny ℂ) := by
    refine flat_ext fun i j => ?_
    have hr : s.rhs (finProdFinEquiv (i, j)) = s.src i j * Complex.I * s.omega := by simp only [Sim.rhs, flatten_pair]
    rw [hr, Pi.smul_apply, flatten_pair, ← hsd]
    show (1 : ℂ) * Complex.I * ((1 : ℝ) : ℂ) = Complex.I • 1
    simp
  have hrhs0 : s.rhs ≠ 0 := by
    intro h
    rw [h] at hrhs
    have := congrFun hrhs (finProdFinEquiv ((⟨0, by omega⟩ : Fin Nx), (⟨0, by omega⟩ : Fin Ny)))
    rw [Pi.smul_apply, flatten_pair, smul_eq_mul, mul_one] at this
    exact Complex.I_ne_zero this.symm
  have hU : ∀ c : ℂ, bornMat s (fun _ _ => c) *ᵥ flatten (fun _ _ => 1 : Grid Nx Ny ℂ) = (((1 + 3 * χ * ‖c‖ ^ 2 : ℝ) : ℂ)) • flatten (fun _ _ => 1 : Grid Nx Ny ℂ) := fun c => by
    rw [← hsd]; exact cksim_uniform hx hy χ _ c
  have hstep : ∀ y : ℝ, 0 ≤ y → (bornStep (flipEnv τ T) s fun _ _ => Complex.I * y).2.2 = fun _ _ => Complex.I * (((1 + if y ≤ 1 then τ else -τ) / (1 + 3 * χ * y ^ 2) : ℝ) : ℂ) := by
    intro y hy0
    have hnorm : ‖Complex.I * (y : ℂ)‖ = y := by rw [norm_mul, Complex.norm_I, one_mul, Complex.norm_real, Real.norm_of_nonneg hy0]
    have hU' := hU (Complex.I * y)
    rw [hnorm] at hU'
    have hdet := hweak.bornMat_det hv hp hx hy fun _ _ => Complex.I * y
    rw [bornStep_third]
    apply flatten_injective
    rw [flatten_unflatten]
    unfold solver_direct
    rw [if_neg hrhs0]
    refine mulVec_unique hdet ?_
    have hsum := entries_sum (bornMat s fun _ _ => Complex.I * y) _ hU'
    have hcond : ((∑ i, ∑ j, (bornMat s fun _ _ => Complex.I * y) i j).re ≤ T) ↔ y ≤ 1 := by
      rw [hsum, show ((Nx * Ny : ℕ) : ℂ) * ((1 + 3 * χ * y ^ 2 : ℝ) : ℂ) = ((((Nx * Ny : ℕ) : ℝ) * (1 + 3 * χ * y ^ 2) : ℝ) : ℂ) by push_cast; ring, Complex.ofReal_re, hT,
        mul_le_mul_iff_right₀ hN]
      constructor
      · intro h
        by_contra hc
        have : 1 < y ^ 2 := one_lt_pow₀ (by linarith) two_ne_zero
        have : 3 * χ * 1 < 3 * χ * y ^ 2 := mul_lt_mul_of_pos_left this (by positivity)
        linarith
      · intro h
        have : y ^ 2 ≤ 1 := pow_le_one₀ hy0 h
        have : 3 * χ * y ^ 2 ≤ 3 * χ * 1 := mul_le_mul_of_nonneg_left this (by positivity)
        linarith
    have hL : bornMat s (fun _ _ => Complex.I * y) *ᵥ (flipEnv τ T).solveC (bornMat s fun _ _ => Complex.I * y) s.rhs = (1 + ((if y ≤ 1 then τ else -τ : ℝ) : ℂ)) • s.rhs := by
      show bornMat s (fun _ _ => Complex.I * y) *ᵥ ((bornMat s fun _ _ => Complex.I * y)⁻¹ *ᵥ _) = _
      rw [Matrix.mulVec_mulVec, Matrix.mul_nonsing_inv _ (isUnit_iff_ne_zero.2 hdet), Matrix.one_mulVec]
      simp only [hcond]
    have hpos : (1 + 3 * χ * y ^ 2) ≠ 0 := by positivity
    have hflat : ∀ c : ℂ, flatten (fun _ _ => c : Grid Nx Ny ℂ) = c • flatten (fun _ _ => 1 : Grid Nx Ny ℂ) := fun c => flat_ext fun i j => by simp [flatten_pair]
    rw [hL, hflat (Complex.I * _), Matrix.mulVec_smul, hU', hrhs, smul_smul, smul_smul]
    congr 1
    rw [mul_assoc Complex.I, ← Complex.ofReal_mul, div_mul_cancel₀ _ hpos]
    push_cast
    ring
  have hiter : ∀ k, bornIter (flipEnv τ T) s (fun _ _ => 0) k = fun _ _ => Complex.I * (flipAmp τ χ k : ℂ) := by
    intro k
    induction k with
    | zero =>
      funext i j
      show (0 : ℂ) = Complex.I * ((0 : ℝ) : ℂ)
      simp
    | succ k ih =>
      rw [bornIter_succ, ih, hstep _ ?_]
      · rfl
      · cases k with
        | zero => exact le_rfl
        | succ k => exact (flipAmp_change τ χ h0 h1 hχ0.le hs k).1.le
  have hconv : ∀ k, ∃ x : ℝ, bornConv (flipEnv τ T) s (fun _ _ => 0) k = .fin x ∧ τ ≤ x := by
    intro k
    obtain ⟨a, b⟩ := flipAmp_change τ χ h0 h1 hχ0.le hs k
    unfold bornConv
    rw [hiter, hiter, convergence_const (by omega) (by omega) _ _ (mul_ne_zero Complex.I_ne_zero (by exact_mod_cast a.ne'))]
    refine ⟨_, rfl, ?_⟩
    rw [← mul_sub, norm_mul, norm_mul, Complex.norm_I, one_mul, one_mul, ← Complex.ofReal_sub, Complex.norm_real, Complex.norm_real]
    exact b
  refine ⟨s, flipEnv τ T, hv, hp, hsrc, ⟨1, 3 * χ, 9 * 1, hweak⟩, flipEnv_within τ T h0.le, fun thr hthr n => ?_⟩
  obtain ⟨E0, fl, m, conv, hst, hm, heq, hnot, hstop, hlen, hrow, hzero⟩ := born_solve_spec (flipEnv τ T) s (some fun _ _ => 0) thr n
  obtain rfl : E0 = fun _ _ => 0 := hst.1 _ rfl
  obtain rfl : m = n := by
    refine hstop.resolve_left fun h => ?_
    obtain ⟨x, hx, h4⟩ := hconv m
    rw [hx] at h
    have : x < thr := h
    linarith
  have hres : ∃ s', solve_fields_nl (flipEnv τ T) s (some fun _ _ => 0) .born thr (m + 1) =
      (.ok ⟨(bornStep (flipEnv τ T) s (bornIter (flipEnv τ T) s (fun _ _ => 0) m)).1, (bornStep (flipEnv τ T) s (bornIter (flipEnv τ T) s (fun _ _ => 0) m)).2.1,
        bornIter (flipEnv τ T) s (fun _ _ => 0) (m + 1), conv⟩, s') := by
    unfold solve_fields_nl
    simp only [heq]
    exact ⟨_, rfl⟩
  obtain ⟨s', hs'⟩ := hres
  refine ⟨_, s', hs', fun k hk => ?_⟩
  obtain ⟨x, hx, h4⟩ := hconv k
  exact ⟨x, by rw [← hx]; exact hrow k hk, h4⟩

/-! ## Example -/

/-- A Kerr device with `χ = 1`, five absorbing cells and a point source of strength `1/100`, solved with relative residuals of at most `1e-13` (the solver `shiftEnv 1e-13` is one): the field returned is
within `0.27 · 1e-13 + 0.44^k · 0.19` of the solution after `k + 1` passes. -/
example (hx : 1 < Nx) (hy : 1 < Ny) (x : Fin Nx) (y : Fin Ny) (eps : Grid Nx Ny ℂ) (hr : ∀ i j, 1 ≤ (eps i j).re) :
    ∃ Z : Grid Nx Ny ℂ, ∀ E thr n r s', solve_fields_nl (shiftEnv 1e-13) (cksim 5 1 eps fun i j => if i = x ∧ j = y then 1 / 100 else 0) E .born thr n = (.ok r, s') →
      ∃ k, k < n ∧ ∀ i j, ‖r.Fz i j - Z i j‖ ≤ 0.44 ^ k * 0.19 + 0.27 * 1e-13 := by
  have hw := cksim_weak 5 1 (1 / 100) zero_le_one (by norm_num) (by norm_num) eps (fun i j => if i = x ∧ j = y then 1 / 100 else 0) hr fun i j => by split_ifs <;> norm_num
  have hv := cksim_valid 5 1 eps (fun i j => if i = x ∧ j = y then (1 / 100 : ℂ) else 0)
  have hrate : Spec.bornRate (cksim 5 1 eps fun i j => if i = x ∧ j = y then (1 / 100 : ℂ) else 0) 1 (3 * 1) (9 * (1 / 100)) = 2 * 3 * (9 / 100) ^ 2 * 9 := by
    unfold Spec.bornRate
    rw [cksim_margin]
    show 2 * ((1 : ℝ) ^ 2 * EPSILON_0 * (1 / EPSILON_0)) * (3 * 1) * (9 * (1 / 100)) ^ 2 / (1 / 9) = _
    rw [one_pow, one_mul, mul_one_div_cancel EPSILON_0_pos.ne']
    norm_num
  generalize hs : (cksim 5 1 eps fun i j => if i = x ∧ j = y then (1 / 100 : ℂ) else 0) = s at hw hv hrate
  have hp : s.pol = .Ez := hs ▸ rfl
  obtain ⟨Z, hZ, -, -⟩ := C76_unique_solution s hv hp hx hy _ _ _ hw
  have hq : Spec.inexactRate s 1 (3 * 1) (9 * (1 / 100)) 1e-13 ≤ 0.44 := by
    unfold Spec.inexactRate
    rw [hrate]
    norm_num
  have hq0 : 0 ≤ Spec.inexactRate s 1 (3 * 1) (9 * (1 / 100)) 1e-13 := by
    unfold Spec.inexactRate
    rw [hrate]
    norm_num
  refine ⟨Z, fun E thr n r s' hrun => ?_⟩
  obtain ⟨-, k, c, hk, -, -, -, hb⟩ := C112_floor (shiftEnv 1e-13) 1e-13 (by norm_num) (shiftEnv_within _ (by norm_num)) s hv hp hx hy _ _ _ hw (by linarith) Z hZ E thr n r s' hrun
  refine ⟨k, hk, fun i j => (hb i j).trans ?_⟩
  generalize Spec.inexactRate s 1 (3 * 1) (9 * (1 / 100)) 1e-13 = q at hq hq0
  have h1 : q ^ k ≤ 0.44 ^ k := pow_le_pow_left₀ hq0 hq k
  have h2 : q ^ k * ((2 + 1e-13) * (9 * (1 / 100))) ≤ 0.44 ^ k * 0.19 := mul_le_mul h1 (by norm_num) (by norm_num) (by positivity)
  have h3 : 1e-13 * (9 * (1 / 100)) / (1 - q) ≤ 0.27 * 1e-13 := by
    rw [div_le_iff₀ (by linarith)]
    linarith
  linarith

end Angler
