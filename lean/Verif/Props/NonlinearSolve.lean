import Verif.Lemmas.NlSolve
import Verif.Lemmas.NonlinearWitness
import Verif.Props.Kerr
import Verif.Lemmas.NewtonWitness

/-! # C25–C28: what the nonlinear solvers return -/

namespace Angler

open Matrix

variable {Nx Ny : ℕ}

/-! ## C26 -/

/-- **C26, Born.** With `max_num_iter = n ≥ 1` the Born solver returns; it made `m + 1 ≤ n` steps `it 0 → it 1 → … → it (m+1)`, each one a solve with the permittivity shift of the
previous field; the returned triple is that of the last step; `conv` has `n` rows, row `k ≤ m` is the relative change of step `k`, later rows are 0; no step
before the last was below the threshold, and the last one was unless all `n` steps were used. -/
theorem C26_born_bookkeeping (env : Env) (s : Sim Nx Ny) (E : Option (Grid Nx Ny ℂ)) (thr : ℝ) (n : ℕ) (hn : 0 < n) :
    ∃ (r : NlResult Nx Ny) (s' : Sim Nx Ny) (m : ℕ) (it : ℕ → Grid Nx Ny ℂ), born_solve env s E thr n = (.ok r, s') ∧ m < n ∧ Spec.StartsAt env s E (it 0) ∧
      (∀ k ≤ m, ∃ Fx Fy, ((s.compute_nl (it k)).solve_fields env true).1 = .ok (Fx, Fy, it (k + 1)) ∧ (k = m → r.Fx = Fx ∧ r.Fy = Fy)) ∧ r.Fz = it (m + 1) ∧
      r.conv.length = n ∧
      (∀ k ≤ m, ∃ c, r.conv[k]? = some c ∧ Spec.RelChange c (it (k + 1)) (it k) ∧ (k < m → ¬ c.Lt thr) ∧ (k = m → c.Lt thr ∨ m + 1 = n)) ∧
      ∀ k, m < k → k < n → r.conv[k]? = some (.fin 0) := by
  obtain ⟨n, rfl⟩ : ∃ p, n = p + 1 := ⟨n - 1, by omega⟩
  obtain ⟨E0, fl, m, conv, hst, hm, heq, hnot, hstop, hlen, hrow, hzero⟩ := born_solve_spec env s E thr n
  refine ⟨_, _, m, bornIter env s E0, heq, by omega, hst, fun k _ => ⟨(bornStep env s (bornIter env s E0 k)).1, (bornStep env s (bornIter env s E0 k)).2.1, ?_, ?_⟩, rfl, hlen, fun k hk => ⟨_, hrow k hk, convergence_spec _ _, ?_, ?_⟩, hzero⟩
  · rw [born_pass, bornIter_succ]
  · rintro rfl; exact ⟨rfl, rfl⟩
  · exact hnot k
  · rintro rfl
    exact hstop.imp_right (congrArg (· + 1))

/-- **C26, Newton.** The same for Newton's method when it returns: each step subtracts the solution of the Jacobian system; the returned triple is one further
permittivity-updated solve from the last iterate. -/
theorem C26_newton_bookkeeping (env : Env) (s : Sim Nx Ny) (E : Option (Grid Nx Ny ℂ)) (thr : ℝ) (n : ℕ) (hn : 0 < n) (r : NlResult Nx Ny) (s' : Sim Nx Ny)
    (h : newton_solve env s E thr n = (.ok r, s')) :
    ∃ (m : ℕ) (it : ℕ → Grid Nx Ny ℂ), m < n ∧ Spec.StartsAt env s E (it 0) ∧
      (∀ k ≤ m, ∃ d, solver_complex2real env (nl_eq_and_jac s (it k)).1.2.1 (nl_eq_and_jac s (it k)).1.2.2 (nl_eq_and_jac s (it k)).1.1 = .ok d ∧
        it (k + 1) = fun i j => it k i j - d (finProdFinEquiv (i, j))) ∧
      ((s.compute_nl (it (m + 1))).solve_fields env true).1 = .ok (r.Fx, r.Fy, r.Fz) ∧
      r.conv.length = n ∧
      (∀ k ≤ m, ∃ c, r.conv[k]? = some c ∧ Spec.RelChange c (it (k + 1)) (it k) ∧ (k < m → ¬ c.Lt thr) ∧ (k = m → c.Lt thr ∨ m + 1 = n)) ∧
      ∀ k, m < k → k < n → r.conv[k]? = some (.fin 0) := by
  obtain ⟨n, rfl⟩ : ∃ p, n = p + 1 := ⟨n - 1, by omega⟩
  obtain ⟨E0, fl, m, it, hp, hst, hm, h0, hstep, hr, hs', hnot, hstop, hlen, hrow, hzero⟩ := newton_solve_spec env s E thr n r s' h
  refine ⟨m, it, by omega, h0 ▸ hst, fun k hk => ?_, by rw [born_pass, hr], hlen, fun k hk => ⟨_, hrow k hk, convergence_spec _ _, hnot k, ?_⟩, hzero⟩
  · have := hstep k hk
    unfold newtonStep at this
    rcases hd : solver_complex2real env (nl_eq_and_jac s (it k)).1.2.1 (nl_eq_and_jac s (it k)).1.2.2 (nl_eq_and_jac s (it k)).1.1 with e | d
    · rw [hd] at this; cases this
    · rw [hd] at this
      refine ⟨d, rfl, ?_⟩
      simp only [Except.map, Except.ok.injEq] at this
      exact this.symm
  · rintro rfl
    exact hstop.imp_right (congrArg (· + 1))

/-- **C26.** With `max_num_iter = 0` both solvers raise. -/
theorem C26_zero_iterations_raise (env : Env) (s : Sim Nx Ny) (E : Option (Grid Nx Ny ℂ)) (thr : ℝ) :
    (born_solve env s E thr 0).1 = .error .unboundLocalError ∧ ∃ e, (newton_solve env s E thr 0).1 = .error e := by
  refine ⟨born_solve_zero env s E thr, ?_⟩
  cases hp : s.pol with
  | Ez => exact ⟨_, newton_solve_zero env s hp E thr⟩
  | Hz => exact ⟨.nameError, by simp [newton_solve, hp]⟩

/-- Newton's method returns whenever Pardiso is installed (Ez): the hypothesis of `C26_newton_bookkeeping` is met. -/
example (env : Env) (hb : env.backend = .pardiso) (src : Grid 2 2 ℂ) : ∃ r s', newton_solve env (psim src) none 1e-10 20 = (.ok r, s') :=
  newton_solve_ok env hb _ rfl _ _ _

/-! ## C25 -/

/-- The left-hand side minus the right-hand side of the nonlinear equation at the pixel `(i,j)`. -/
noncomputable def Spec.nlResidual (s : Sim Nx Ny) (F : Grid Nx Ny ℂ) (i : Fin Nx) (j : Fin Ny) : ℂ :=
  (s.A *ᵥ flatten F) (finProdFinEquiv (i, j))
    + ((s.omega ^ 2 * EPSILON_0 * s.L0 : ℝ) : ℂ) * (Spec.kerrSum s.nonlinearity s.eps_r i j * (‖F i j‖ : ℂ) ^ 2) * F i j - Complex.I * s.omega * s.src i j

theorem flatten_pair_residual (s : Sim Nx Ny) (env : Env) (he : env.Exact) (G : Grid Nx Ny ℂ) (hdet : (s.A + kerrMat s G).det ≠ 0 ∨ s.src = 0) (i : Fin Nx) (j : Fin Ny) :
    Spec.nlResidual s (bornStep env s G).2.2 i j = ((s.omega ^ 2 * EPSILON_0 * s.L0 : ℝ) : ℂ) *
      (Spec.kerrSum s.nonlinearity s.eps_r i j * (‖(bornStep env s G).2.2 i j‖ : ℂ) ^ 2 - Spec.kerrSum s.nonlinearity s.eps_r i j * (‖G i j‖ : ℂ) ^ 2) *
      (bornStep env s G).2.2 i j := by
  have hsol : bornMat s G *ᵥ flatten (bornStep env s G).2.2 = s.rhs := by
    rw [bornStep_third, flatten_unflatten]
    refine solver_direct_spec he (hdet.imp_right fun h => ?_)
    funext k
    simp [Sim.rhs, h, flatten]
  have hk := congrFun hsol (finProdFinEquiv (i, j))
  rw [bornMat, Matrix.add_mulVec, kerrMat_mulVec] at hk
  have hr : s.rhs (finProdFinEquiv (i, j)) = s.src i j * Complex.I * s.omega := by simp only [Sim.rhs, flatten_pair]
  rw [hr] at hk
  simp only [Pi.add_apply, flatten_pair] at hk
  unfold Spec.nlResidual
  push_cast at hk ⊢
  linear_combination hk

/-- **C25.** Whatever the Born solver returns: there is a last step `Fprev → Fz` whose relative change is the last nonzero-padded row of `conv`; unless the matrix of that
step is singular, the residual of the nonlinear equation at `Fz` equals the change of nonlinear permittivity between the two iterates times the field (times `ω² ε₀ L₀`);
and if the solver reports convergence (`c < thr`), the residual is bounded by the threshold: with `N = ‖Fz‖₂`, `|res| ≤ ω²ε₀L₀ |3χ| (2|Fz| + thr N) thr N |Fz|` at each pixel. -/
theorem C25_converged_residual (env : Env) (he : env.Exact) (s : Sim Nx Ny) (hL : 0 < s.L0) (E : Option (Grid Nx Ny ℂ)) (thr : ℝ) (n : ℕ) (r : NlResult Nx Ny) (s' : Sim Nx Ny)
    (h : born_solve env s E thr n = (.ok r, s')) :
    ∃ (m : ℕ) (Fprev : Grid Nx Ny ℂ) (c : PyFloat), m < n ∧ r.conv[m]? = some c ∧ (∀ k, m < k → k < n → r.conv[k]? = some (.fin 0)) ∧
      Spec.RelChange c r.Fz Fprev ∧ (c.Lt thr ∨ m + 1 = n) ∧
      ((s.A + kerrMat s Fprev).det ≠ 0 ∨ s.src = 0 → ∀ i j,
        Spec.nlResidual s r.Fz i j = ((s.omega ^ 2 * EPSILON_0 * s.L0 : ℝ) : ℂ) * ((s.compute_nl r.Fz).eps_nl i j - (s.compute_nl Fprev).eps_nl i j) * r.Fz i j ∧
        (c.Lt thr → ‖Spec.nlResidual s r.Fz i j‖ ≤ s.omega ^ 2 * EPSILON_0 * s.L0 * ‖Spec.kerrSum s.nonlinearity s.eps_r i j‖ *
          ((2 * ‖r.Fz i j‖ + thr * laNorm r.Fz) * (thr * laNorm r.Fz)) * ‖r.Fz i j‖)) := by
  rcases Nat.eq_zero_or_pos n with rfl | hn
  · have := born_solve_zero env s E thr
    rw [h] at this; cases this
  obtain ⟨n, rfl⟩ : ∃ p, n = p + 1 := ⟨n - 1, by omega⟩
  obtain ⟨E0, fl, m, conv, hst, hm, heq, hnot, hstop, hlen, hrow, hzero⟩ := born_solve_spec env s E thr n
  rw [heq] at h
  simp only [Prod.mk.injEq, Except.ok.injEq] at h
  obtain ⟨hr, -⟩ := h
  subst hr
  refine ⟨m, bornIter env s E0 m, _, by omega, hrow m (le_refl m), hzero, convergence_spec _ _, hstop.imp_right (congrArg (· + 1)), fun hdet i j => ?_⟩
  have hres := flatten_pair_residual s env he (bornIter env s E0 m) hdet i j
  rw [← bornIter_succ] at hres
  refine ⟨?_, fun hc => ?_⟩
  · rw [compute_nl_eps_nl, compute_nl_eps_nl]
    push_cast at hres ⊢
    exact hres
  · simp only
    rw [hres]
    set F := bornIter env s E0 (m + 1) with hF
    set G := bornIter env s E0 m with hG
    set K := Spec.kerrSum s.nonlinearity s.eps_r i j
    have hthr : laNorm (fun i j => F i j - G i j) ≤ thr * laNorm F := by
      by_cases h0 : F = 0
      · by_cases h1 : G = 0
        · rw [h0, h1, laNorm_eq_zero.2 rfl, mul_zero]
          refine le_of_eq (laNorm_eq_zero.2 ?_)
          funext i j; simp
        · rw [show bornConv env s E0 m = convergence F G from rfl, (convergence_spec F G).2.1 h0 h1] at hc
          exact hc.elim
      · rw [show bornConv env s E0 m = convergence F G from rfl, (convergence_spec F G).1 h0] at hc
        have hp : 0 < laNorm F := lt_of_le_of_ne (laNorm_nonneg _) fun h => h0 (laNorm_eq_zero.1 h.symm)
        exact ((div_lt_iff₀ hp).1 hc).le
    have hpix : ‖F i j - G i j‖ ≤ thr * laNorm F := le_trans (norm_le_laNorm (fun i j => F i j - G i j) i j) hthr
    have hT : 0 ≤ thr * laNorm F := le_trans (norm_nonneg _) hpix
    have hG2 : ‖G i j‖ ≤ ‖F i j‖ + thr * laNorm F := by
      have := norm_sub_norm_le (G i j) (F i j)
      rw [norm_sub_rev] at this
      linarith
    have hdiff : |‖F i j‖ ^ 2 - ‖G i j‖ ^ 2| ≤ (2 * ‖F i j‖ + thr * laNorm F) * (thr * laNorm F) := by
      have h1 : |‖F i j‖ - ‖G i j‖| ≤ thr * laNorm F := le_trans (abs_norm_sub_norm_le _ _) hpix
      rw [show ‖F i j‖ ^ 2 - ‖G i j‖ ^ 2 = (‖F i j‖ + ‖G i j‖) * (‖F i j‖ - ‖G i j‖) by ring, abs_mul, abs_of_nonneg (by positivity : (0 : ℝ) ≤ ‖F i j‖ + ‖G i j‖)]
      exact mul_le_mul (by linarith) h1 (abs_nonneg _) (by positivity)
    have hco : 0 ≤ s.omega ^ 2 * EPSILON_0 * s.L0 := by have := EPSILON_0_pos; positivity
    rw [show K * (‖F i j‖ : ℂ) ^ 2 - K * (‖G i j‖ : ℂ) ^ 2 = K * ((‖F i j‖ ^ 2 - ‖G i j‖ ^ 2 : ℝ) : ℂ) by push_cast; ring]
    rw [norm_mul, norm_mul, norm_mul, Complex.norm_real, Complex.norm_real, Real.norm_eq_abs, Real.norm_eq_abs, abs_of_nonneg hco, ← mul_assoc]
    gcongr

/-- Non-vacuity of C25: on the Kerr witness the matrices are nonsingular (uniform fields) and `L0 > 0`. -/
example (src : Grid 2 2 ℂ) (c : ℂ) : 0 < (psim src).L0 ∧ ((psim src).A + kerrMat (psim src) fun _ _ => c).det ≠ 0 := ⟨(psim_valid src).L0_pos, psim_bornMat_det src c⟩

/-! ## C27 -/

/-- What the hybrid mode returns, for every threshold: `c` is the relative change of the last Born step made (step `m + 1` of at most 20).
Newton is run, from Born's field, exactly when all 20 steps were made and `c > 1e-10`. -/
theorem C27_hybrid_exact (env : Env) (s : Sim Nx Ny) (E : Option (Grid Nx Ny ℂ)) (thr : ℝ) (n : ℕ) :
    ∃ (r : NlResult Nx Ny) (s1 : Sim Nx Ny) (m : ℕ) (c : PyFloat) (Fprev : Grid Nx Ny ℂ), born_solve env s E thr 20 = (.ok r, s1) ∧ m < 20 ∧
      r.conv[m]? = some c ∧ Spec.RelChange c r.Fz Fprev ∧ (c.Lt thr ∨ m = 19) ∧ (∀ k < m, ∀ c', r.conv[k]? = some c' → ¬ c'.Lt thr) ∧
      (m = 19 ∧ c.Gt 1e-10 → (solve_fields_nl env s E .hybrid thr n).1 = (newton_solve env s1 (some r.Fz) thr 20).1) ∧
      (¬ (m = 19 ∧ c.Gt 1e-10) → (solve_fields_nl env s E .hybrid thr n).1 = .ok r) := by
  obtain ⟨E0, fl, m, conv, hst, hm, heq, hnot, hstop, hlen, hrow, hzero⟩ := born_solve_spec env s E thr 19
  have hlast : conv.getLast? = if m = 19 then some (bornConv env s E0 m) else some (.fin 0) := by
    rw [List.getLast?_eq_getElem?, hlen]
    by_cases h : m = 19
    · subst h
      rw [if_pos rfl]
      exact hrow 19 (le_refl _)
    · rw [if_neg h]
      exact hzero 19 (by omega) (by omega)
  refine ⟨_, _, m, bornConv env s E0 m, bornIter env s E0 m, heq, by omega, hrow m (le_refl m), convergence_spec _ _, hstop, ?_, ?_, ?_⟩
  · intro k hk c' hc'
    rw [show (_ : NlResult Nx Ny).conv = conv from rfl, hrow k (by omega)] at hc'
    cases hc'
    exact hnot k hk
  · rintro ⟨rfl, hc⟩
    unfold solve_fields_nl
    simp only [heq]
    rw [if_pos (show ((conv.getLast?).getD (.fin 0)).Gt 1e-10 by rw [hlast, if_pos rfl]; exact hc)]
    generalize newton_solve env _ _ thr 20 = R
    obtain ⟨_ | _, _⟩ := R <;> rfl
  · intro h
    unfold solve_fields_nl
    simp only [heq]
    rw [if_neg]
    by_cases hm' : m = 19
    · rw [hlast, if_pos hm', Option.getD_some]
      exact fun hc => h ⟨hm', hc⟩
    · rw [hlast, if_neg hm', Option.getD_some]
      simp [PyFloat.Gt]; norm_num

/-- **C27 (partial).** Full claim: Born's result iff Born converged below `1e-10` within 20 steps, else Newton from Born's field — for every threshold.
Proved for thresholds `≤ 1e-10` (the default is `1e-10`) unless the last relative change is `nan` or exactly `1e-10`.
Missing: larger thresholds, where it is false (`C27_threshold_fails`); a `nan` change, where the code returns Born's (zero) field (`C27_zero_source`). -/
theorem C27_hybrid_partial (env : Env) (s : Sim Nx Ny) (E : Option (Grid Nx Ny ℂ)) (thr : ℝ) (hthr : thr ≤ 1e-10) (n : ℕ) :
    ∃ (r : NlResult Nx Ny) (s1 : Sim Nx Ny) (c : PyFloat) (Fprev : Grid Nx Ny ℂ), born_solve env s E thr 20 = (.ok r, s1) ∧ Spec.RelChange c r.Fz Fprev ∧
      (c.Lt 1e-10 → (solve_fields_nl env s E .hybrid thr n).1 = .ok r) ∧
      (c.Gt 1e-10 → (solve_fields_nl env s E .hybrid thr n).1 = (newton_solve env s1 (some r.Fz) thr 20).1) := by
  obtain ⟨r, s1, m, c, Fp, h1, h2, h3, h4, h5, h6, h7, h8⟩ := C27_hybrid_exact env s E thr n
  refine ⟨r, s1, c, Fp, h1, h4, fun hlt => h8 fun hc => ?_, fun hgt => h7 ⟨h5.resolve_left fun hlt => ?_, hgt⟩⟩
  · have := hc.2
    cases c with
    | fin x => exact absurd (show x < 1e-10 from hlt) (not_lt.2 (le_of_lt this))
    | _ => exact absurd hlt (by simpa [PyFloat.Lt, PyFloat.Gt] using this)
  · cases c with
    | fin x => exact absurd (lt_of_lt_of_le (show x < thr from hlt) hthr) (not_lt.2 (le_of_lt hgt))
    | _ => exact absurd hlt (by simpa [PyFloat.Lt, PyFloat.Gt] using hgt)

/-- The Born iterates of the witness with `S = -40i` from the uniform field 1: `f ↦ 4/(1+f²)`. -/
noncomputable def bornSeq : ℕ → ℝ
  | 0 => 1
  | k + 1 => 4 / (1 + bornSeq k ^ 2)

theorem bornSeq_pos (k : ℕ) : 0 < bornSeq k := by
  cases k with
  | zero => norm_num [bornSeq]
  | succ k => rw [bornSeq]; positivity

theorem bornSeq_alt (k : ℕ) : (bornSeq k ≤ 1 ∧ 2 ≤ bornSeq (k + 1)) ∨ (2 ≤ bornSeq k ∧ bornSeq (k + 1) ≤ 1) := by
  have step : ∀ k, (bornSeq k ≤ 1 → 2 ≤ bornSeq (k + 1)) ∧ (2 ≤ bornSeq k → bornSeq (k + 1) ≤ 1) := by
    intro k
    have hp := bornSeq_pos k
    rw [bornSeq]
    constructor
    · intro h
      rw [le_div_iff₀ (by positivity)]
      nlinarith
    · intro h
      rw [div_le_one (by positivity)]
      nlinarith
  induction k with
  | zero => left; exact ⟨by norm_num [bornSeq], (step 0).1 (by norm_num [bornSeq])⟩
  | succ k ih =>
    rcases ih with ⟨-, h⟩ | ⟨-, h⟩
    · exact Or.inr ⟨h, (step (k + 1)).2 h⟩
    · exact Or.inl ⟨h, (step (k + 1)).1 h⟩

theorem bornSeq_le (k : ℕ) : bornSeq (k + 1) ≤ 4 := by
  rw [bornSeq, div_le_iff₀ (by positivity)]
  nlinarith [sq_nonneg (bornSeq k)]

theorem psim_bornIter (env : Env) (he : env.Exact) (k : ℕ) :
    bornIter env (psim fun _ _ => -40 * Complex.I) (fun _ _ => 1) k = fun _ _ => ((bornSeq k : ℝ) : ℂ) := by
  induction k with
  | zero => rw [bornIter_zero]; simp [bornSeq]
  | succ k ih =>
    rw [bornIter_succ, ih]
    refine psim_bornStep env he _ _ _ ?_
    have hne : (1 + (bornSeq k : ℂ) ^ 2) ≠ 0 := by
      have : (1 + bornSeq k ^ 2 : ℝ) ≠ 0 := by positivity
      exact_mod_cast this
    rw [Complex.norm_real, Real.norm_eq_abs, sq_abs, bornSeq]
    push_cast
    have := Complex.I_mul_I
    field_simp
    linear_combination 40 * this

theorem psim_bornConv (env : Env) (he : env.Exact) (k : ℕ) :
    ∃ x : ℝ, bornConv env (psim fun _ _ => -40 * Complex.I) (fun _ _ => 1) k = .fin x ∧ 1 / 4 ≤ x := by
  unfold bornConv
  have hne : ((bornSeq (k + 1) : ℝ) : ℂ) ≠ 0 := by exact_mod_cast (bornSeq_pos (k + 1)).ne'
  rw [psim_bornIter env he, psim_bornIter env he, convergence_uniform _ _ hne]
  refine ⟨_, rfl, ?_⟩
  have hp := bornSeq_pos (k + 1)
  rw [← Complex.ofReal_sub, Complex.norm_real, Complex.norm_real, Real.norm_eq_abs, Real.norm_eq_abs, abs_of_pos hp, le_div_iff₀ hp]
  have h4 := bornSeq_le k
  have h1 : 1 ≤ |bornSeq (k + 1) - bornSeq k| := by
    rcases bornSeq_alt k with ⟨h, h'⟩ | ⟨h, h'⟩
    · exact le_trans (by linarith) (le_abs_self _)
    · exact le_trans (by linarith) (neg_le_abs _)
  linarith

/-- **C27, negation for larger thresholds.** With `conv_threshold = 1` (Pardiso installed) on the Kerr witness: no Born step ever comes below `1e-10` — the relative change always stays at least `1/4` —
yet the hybrid mode returns Born's field (uniformly 2), which is not what Newton started from it returns (uniformly 676/569). -/
theorem C27_threshold_fails (env : Env) (he : env.Exact) (hb : env.backend = .pardiso) :
    ∃ (s : Sim 2 2) (E : Grid 2 2 ℂ) (r rN : NlResult 2 2) (s1 s2 : Sim 2 2),
      (∀ n, ∃ r' s', born_solve env s (some E) 1e-10 (n + 1) = (.ok r', s') ∧ ∀ k ≤ n, ∃ x : ℝ, r'.conv[k]? = some (.fin x) ∧ 1 / 4 ≤ x) ∧
      born_solve env s (some E) 1 20 = (.ok r, s1) ∧ (solve_fields_nl env s (some E) .hybrid 1 50).1 = .ok r ∧
      newton_solve env s1 (some r.Fz) 1 20 = (.ok rN, s2) ∧ rN.Fz ≠ r.Fz := by
  set s := psim fun _ _ => -40 * Complex.I with hs
  have hE0 : ∀ E0, Spec.StartsAt env s (some fun _ _ => 1) E0 → E0 = fun _ _ => 1 := fun E0 h => h.1 _ rfl
  have hfirst : (bornConv env s (fun _ _ => 1) 0).Lt 1 := by
    unfold bornConv
    have h1 : bornSeq 1 = 2 := by norm_num [bornSeq]
    have h0 : bornSeq 0 = 1 := rfl
    rw [psim_bornIter env he, psim_bornIter env he, zero_add, h1, h0, convergence_uniform _ _ (by norm_num)]
    norm_num [PyFloat.Lt]
  obtain ⟨E0, fl, m, conv, hst, hm, heq, hnot, hstop, hlen, hrow, hzero⟩ := born_solve_spec env s (some fun _ _ => 1) 1 19
  obtain rfl := hE0 E0 hst
  obtain rfl : m = 0 := by
    by_contra h
    exact hnot 0 (by omega) hfirst
  have hFz : bornIter env s (fun _ _ => 1) (0 + 1) = fun _ _ => ((2 : ℝ) : ℂ) := by
    rw [psim_bornIter env he, show bornSeq (0 + 1) = 2 by norm_num [bornSeq]]
  obtain ⟨rN, s2, hN⟩ := newton_solve_ok env hb (({ s with fields := fl } : Sim 2 2).compute_nl (bornIter env s (fun _ _ => 1) 0)) rfl
    (some (bornIter env s (fun _ _ => 1) (0 + 1))) 1 19
  refine ⟨s, fun _ _ => 1, _, rN, _, s2, ?_, heq, ?_, hN, ?_⟩
  · intro n
    obtain ⟨E0, fl, m, conv, hst, hm, heq, hnot, hstop, hlen, hrow, hzero⟩ := born_solve_spec env s (some fun _ _ => 1) 1e-10 n
    obtain rfl := hE0 E0 hst
    obtain rfl : m = n := by
      refine hstop.resolve_left fun h => ?_
      obtain ⟨x, hx, h4⟩ := psim_bornConv env he m
      rw [hx] at h
      have : x < 1e-10 := h
      norm_num at this
      linarith
    refine ⟨_, _, heq, fun k hk => ?_⟩
    obtain ⟨x, hx, h4⟩ := psim_bornConv env he k
    exact ⟨x, by rw [← hx]; exact hrow k hk, h4⟩
  · obtain ⟨r, s1, m, c, Fp, h1, h2, h3, h4, h5, h6, h7, h8⟩ := C27_hybrid_exact env s (some fun _ _ => 1) 1 50
    rw [heq] at h1
    simp only [Prod.mk.injEq, Except.ok.injEq] at h1
    obtain ⟨hr, -⟩ := h1
    subst hr
    refine h8 fun hc => ?_
    refine h6 0 (by omega) _ (hrow 0 (le_refl _)) hfirst
  · obtain ⟨E0, fl', m, it, hp, hst', hm, h0, hstep, hr, hs', hnot', hstop', hlen', hrow', hzero'⟩ := newton_solve_spec env _ _ 1 19 rN s2 hN
    have hE : it 0 = fun _ _ => ((2 : ℝ) : ℂ) := by
      rw [h0, hst'.1 _ rfl, hFz]
    have hS : newtonStep env s (fun _ _ => ((2 : ℝ) : ℂ)) = .ok fun _ _ => ((2 - 6 / 13 : ℝ) : ℂ) := by
      refine psim_newtonStep env he hb _ 2 (6 / 13) ?_
      have := Complex.I_mul_I
      push_cast
      linear_combination -40 * this
    have h1 : it 1 = fun _ _ => ((2 - 6 / 13 : ℝ) : ℂ) := by
      have := hstep 0 (Nat.zero_le _)
      rw [hE] at this
      have e : newtonStep env s (fun _ _ => ((2 : ℝ) : ℂ)) = .ok (it 1) := this
      rw [hS] at e
      exact (Except.ok.inj e).symm
    have hconv : (convergence (it 1) (it 0)).Lt 1 := by
      rw [h1, hE, convergence_uniform _ _ (by norm_num), ← Complex.ofReal_sub, Complex.norm_real, Complex.norm_real]
      norm_num [PyFloat.Lt]
    obtain rfl : m = 0 := by
      by_contra h
      exact hnot' 0 (by omega) hconv
    have hfin : (bornStep env s (fun _ _ => ((2 - 6 / 13 : ℝ) : ℂ))).2.2 = fun _ _ => ((676 / 569 : ℝ) : ℂ) := by
      refine psim_bornStep env he _ _ _ ?_
      have := Complex.I_mul_I
      rw [Complex.norm_real]
      norm_num
      linear_combination 40 * this
    have hz : rN.Fz = fun _ _ => ((676 / 569 : ℝ) : ℂ) := by
      have := congrArg (fun t => t.2.2) hr
      simp only at this
      rw [zero_add, h1] at this
      exact this.trans hfin
    rw [hz]
    show _ ≠ bornIter env s (fun _ _ => 1) (0 + 1)
    rw [hFz]
    intro h
    have := congrFun (congrFun h 0) 0
    norm_num at this

/-- **C27, the `nan` case.** Without a source Born ends with `0/0`; the hybrid mode then returns Born's zero field and never runs Newton. -/
theorem C27_zero_source (env : Env) (s : Sim Nx Ny) (hsrc : s.src = 0) (E : Option (Grid Nx Ny ℂ)) (thr : ℝ) (n : ℕ) :
    ∃ r s1, born_solve env s E thr 20 = (.ok r, s1) ∧ (solve_fields_nl env s E .hybrid thr n).1 = .ok r ∧ r.Fz = 0 := by
  obtain ⟨r, s1, m, c, Fp, h1, h2, h3, h4, h5, h6, h7, h8⟩ := C27_hybrid_exact env s E thr n
  obtain ⟨E0, fl, m', conv, hst, hm, heq, hnot, hstop, hlen, hrow, hzero⟩ := born_solve_spec env s E thr 19
  have hrhs : s.rhs = 0 := by funext k; simp [Sim.rhs, hsrc, flatten]
  have hz : ∀ F, (bornStep env s F).2.2 = 0 := by
    intro F
    rw [bornStep_third, hrhs]
    funext i j
    simp [solver_direct, unflatten]
  have hc : ∀ k, bornConv env s E0 (k + 1) = .nan := by
    intro k
    refine (convergence_spec _ _).2.2 ?_ ?_
    · rw [bornIter_succ, hz]
    · rw [bornIter_succ, hz]
  rw [h1] at heq
  simp only [Prod.mk.injEq, Except.ok.injEq] at heq
  obtain ⟨hr, -⟩ := heq
  refine ⟨r, s1, h1, h8 ?_, ?_⟩
  · rintro ⟨rfl, hg⟩
    have hm' : m' = 19 := by
      by_contra hne
      have h0 := hzero 19 (by omega) (by omega)
      rw [hr] at h3
      rw [show (_ : NlResult Nx Ny).conv = conv from rfl, h0] at h3
      cases h3
      have : (1e-10 : ℝ) < 0 := hg
      norm_num at this
    have h0 := hrow 19 (by omega)
    rw [hr] at h3
    rw [show (_ : NlResult Nx Ny).conv = conv from rfl, h0, hc 18] at h3
    cases h3
    exact hg
  · rw [hr]
    show bornIter env s E0 (m' + 1) = 0
    rw [bornIter_succ, hz]

/-! ## C28 -/

/-- Without nonlinearity one Born step from any field is the linear solve. -/
theorem bornStep_linear (env : Env) (s : Sim Nx Ny) (h : ∀ n ∈ s.nonlinearity, n.chi = 0) (F : Grid Nx Ny ℂ) : (s.solve_fields env).1 = .ok (bornStep env s F) := by
  have hk : ∀ i j, Spec.kerrSum s.nonlinearity s.eps_r i j = 0 := by
    intro i j
    refine List.sum_eq_zero fun x hx => ?_
    obtain ⟨n, hn, rfl⟩ := List.mem_map.1 hx
    simp [Spec.kerrCoef, h n hn]
  have hmat : bornMat s F = s.A := by
    have : kerrMat s F = 0 := by
      ext k l
      obtain ⟨⟨i, j⟩, rfl⟩ := finProdFinEquiv.surjective k
      simp [kerrMat, spdiag, Matrix.diagonal_apply, flatten_pair, hk]
    rw [bornMat, this, add_zero]
  have heps : (fun i j => s.eps_r i j + (s.compute_nl F).eps_nl i j) = s.eps_r := by
    funext i j
    rw [compute_nl_eps_nl, hk]; simp
  unfold bornStep
  rw [hmat, heps]
  rfl

/-- **C28.** If every nonlinearity has `χ = 0` (in particular if there is none), then whatever `born`, `newton` or `hybrid` returns — any start, threshold, iteration limit — is the linear
solution, and that is what is stored in `fields_nl`. -/
theorem C28_no_nonlinearity (env : Env) (s : Sim Nx Ny) (h : ∀ n ∈ s.nonlinearity, n.chi = 0) (E : Option (Grid Nx Ny ℂ)) (solver : NlSolver) (thr : ℝ) (n : ℕ)
    (r : NlResult Nx Ny) (s' : Sim Nx Ny) (hr : solve_fields_nl env s E solver thr n = (.ok r, s')) :
    (s.solve_fields env).1 = .ok (r.Fx, r.Fy, r.Fz) ∧ s'.fields_nl = Sim.store s.pol s.fields_nl (r.Fx, r.Fy, r.Fz) := by
  have hborn : ∀ n r s1, born_solve env s E thr n = (.ok r, s1) → (s.solve_fields env).1 = .ok (r.Fx, r.Fy, r.Fz) ∧ ∃ fl F, s1 = ({ s with fields := fl } : Sim Nx Ny).compute_nl F := by
    intro n r s1 hr
    rcases Nat.eq_zero_or_pos n with rfl | hn
    · have := born_solve_zero env s E thr
      rw [hr] at this; cases this
    obtain ⟨n, rfl⟩ : ∃ p, n = p + 1 := ⟨n - 1, by omega⟩
    obtain ⟨E0, fl, m, conv, hst, hm, heq, -⟩ := born_solve_spec env s E thr n
    rw [heq] at hr
    simp only [Prod.mk.injEq, Except.ok.injEq] at hr
    obtain ⟨hr, hs1⟩ := hr
    subst hr
    refine ⟨?_, fl, _, hs1.symm⟩
    rw [bornStep_linear env s h (bornIter env s E0 m), bornIter_succ]
  have hnewton : ∀ (t : Sim Nx Ny) (E : Option (Grid Nx Ny ℂ)) n r s1, (∃ fl F, t = ({ s with fields := fl } : Sim Nx Ny).compute_nl F) ∨ t = s →
      newton_solve env t E thr n = (.ok r, s1) →
      (s.solve_fields env).1 = .ok (r.Fx, r.Fy, r.Fz) ∧ ∃ fl F, s1 = ({ s with fields := fl } : Sim Nx Ny).compute_nl F := by
    intro t E n r s1 ht hr
    rcases Nat.eq_zero_or_pos n with rfl | hn
    · cases hp : t.pol with
      | Ez =>
        have := newton_solve_zero env t hp E thr
        rw [hr] at this; cases this
      | Hz => unfold newton_solve at hr; rw [hp] at hr; cases hr
    obtain ⟨n, rfl⟩ : ∃ p, n = p + 1 := ⟨n - 1, by omega⟩
    obtain ⟨E0, fl', m, it, -, -, -, -, -, htr, hs1, -⟩ := newton_solve_spec env t E thr n r s1 hr
    rw [htr]
    rcases ht with ⟨fl, F, rfl⟩ | rfl
    · exact ⟨bornStep_linear env s h _, fl', _, hs1⟩
    · exact ⟨bornStep_linear env _ h _, fl', _, hs1⟩
  have hres : ∀ (res : Except PyErr (NlResult Nx Ny) × Sim Nx Ny),
      (∀ r s1, res = (.ok r, s1) → (s.solve_fields env).1 = .ok (r.Fx, r.Fy, r.Fz) ∧ ∃ fl F, s1 = ({ s with fields := fl } : Sim Nx Ny).compute_nl F) →
      (match res with
        | (.error e, s1) => (.error e, s1)
        | (.ok r, s1) => (.ok r, { s1 with fields_nl := Sim.store s1.pol s1.fields_nl (r.Fx, r.Fy, r.Fz) }) : Except PyErr (NlResult Nx Ny) × Sim Nx Ny) = (.ok r, s') →
      (s.solve_fields env).1 = .ok (r.Fx, r.Fy, r.Fz) ∧ s'.fields_nl = Sim.store s.pol s.fields_nl (r.Fx, r.Fy, r.Fz) := by
    rintro ⟨e | r0, s1⟩ hall heq
    · cases heq
    · simp only [Prod.mk.injEq, Except.ok.injEq] at heq
      obtain ⟨rfl, rfl⟩ := heq
      obtain ⟨h1, fl, F, h2⟩ := hall r0 s1 rfl
      refine ⟨h1, ?_⟩
      subst h2
      rfl
  unfold solve_fields_nl at hr
  refine hres _ ?_ hr
  intro r0 s0 h0
  cases solver with
  | born => exact hborn n r0 s0 h0
  | newton => exact hnewton s E n r0 s0 (Or.inr rfl) h0
  | LM => cases h0
  | other => cases h0
  | hybrid =>
    simp only at h0
    rcases hb : born_solve env s E thr 20 with ⟨e | rb, sb⟩
    · rw [hb] at h0; cases h0
    · rw [hb] at h0
      simp only at h0
      split at h0
      · exact hnewton sb _ 20 r0 s0 (Or.inl (hborn 20 rb sb hb).2) h0
      · simp only [Prod.mk.injEq, Except.ok.injEq] at h0
        obtain ⟨rfl, rfl⟩ := h0
        exact hborn 20 rb sb hb

/-- **C28.** Born (at least one iteration) and hybrid do return, on either backend; Newton does with Pardiso. -/
theorem C28_returns (env : Env) (s : Sim Nx Ny) (h : ∀ n ∈ s.nonlinearity, n.chi = 0) (E : Option (Grid Nx Ny ℂ)) (thr : ℝ) (n : ℕ) :
    (0 < n → ∃ r, (solve_fields_nl env s E .born thr n).1 = .ok r) ∧ (∃ r, (solve_fields_nl env s E .hybrid thr n).1 = .ok r) ∧
    (0 < n → s.pol = .Ez → env.backend = .pardiso → ∃ r, (solve_fields_nl env s E .newton thr n).1 = .ok r) := by
  refine ⟨fun hn => ?_, ?_, fun hn hp hb => ?_⟩
  · obtain ⟨r, s', m, it, heq, -⟩ := C26_born_bookkeeping env s E thr n hn
    refine ⟨r, ?_⟩
    unfold solve_fields_nl
    simp only [heq]
  · obtain ⟨r, s1, m, c, Fp, h1, h2, h3, h4, h5, h6, h7, h8⟩ := C27_hybrid_exact env s E thr n
    refine ⟨r, h8 ?_⟩
    rintro ⟨rfl, hg⟩
    obtain ⟨E0, fl, m', conv, hst, hm, heq, hnot, hstop, hlen, hrow, hzero⟩ := born_solve_spec env s E thr 19
    rw [h1] at heq
    simp only [Prod.mk.injEq, Except.ok.injEq] at heq
    obtain ⟨hr, -⟩ := heq
    have hconst : ∀ F G, bornStep env s F = bornStep env s G := by
      intro F G
      have := (bornStep_linear env s h F).symm.trans (bornStep_linear env s h G)
      exact Except.ok.inj this
    rw [hr] at h3
    rw [show (_ : NlResult Nx Ny).conv = conv from rfl] at h3
    by_cases hm' : m' = 19
    · rw [hrow 19 (by omega)] at h3
      have hcc : bornConv env s E0 19 = c := Option.some.inj h3
      rw [← hcc] at hg
      have e : bornIter env s E0 20 = bornIter env s E0 19 := by
        rw [bornIter_succ env s E0 19, bornIter_succ env s E0 18, hconst _ (bornIter env s E0 18)]
      have hd := convergence_spec (bornIter env s E0 20) (bornIter env s E0 19)
      rw [show bornConv env s E0 19 = convergence (bornIter env s E0 20) (bornIter env s E0 19) from rfl] at hg
      rw [e] at hd hg
      by_cases h0 : bornIter env s E0 19 = 0
      · rw [hd.2.2 h0 h0] at hg
        exact hg
      · rw [hd.1 h0] at hg
        simp [PyFloat.Gt] at hg
        norm_num at hg
    · rw [hzero 19 (by omega) (by omega)] at h3
      have hcc : PyFloat.fin 0 = c := Option.some.inj h3
      rw [← hcc] at hg
      have : (1e-10 : ℝ) < 0 := hg
      norm_num at this
  · obtain ⟨n, rfl⟩ : ∃ p, n = p + 1 := ⟨n - 1, by omega⟩
    obtain ⟨r, s', heq⟩ := newton_solve_ok env hb s hp E thr n
    refine ⟨r, ?_⟩
    unfold solve_fields_nl
    simp only [heq]

/-- Non-vacuity of C28: the witness without nonlinearity, with a nonzero linear solution. -/
example (env : Env) (he : env.Exact) : (∀ n ∈ (wsim .Ez (fun _ _ => 1) fun _ _ => -Complex.I).nonlinearity, n.chi = 0) ∧
    ∃ Fx Fy, ((wsim .Ez (fun _ _ => 1) fun _ _ => -Complex.I).solve_fields env).1 = .ok (Fx, Fy, fun _ _ => 1) := by
  refine ⟨fun n hn => by simp [wsim] at hn, ?_⟩
  set s := wsim .Ez (fun _ _ => 1) fun _ _ => -Complex.I with hs
  have hX : solver_direct env s.A s.rhs = flatten fun _ _ => 1 := by
    refine solver_direct_unique he (wsim_Ez_det _) ?_
    rw [wsim_Ez_apply]
    refine flat_ext fun i j => ?_
    have e : s.rhs (finProdFinEquiv (i, j)) = -Complex.I * Complex.I * ((1 : ℝ) : ℂ) := rfl
    rw [e]
    simp only [flatten_pair]
    simp
  have h1 : (s.solve_fields env).1 = .ok (s.in_plane false s.eps_r (solver_direct env s.A s.rhs)) := rfl
  rw [hX] at h1
  exact ⟨_, _, h1⟩

end Angler
