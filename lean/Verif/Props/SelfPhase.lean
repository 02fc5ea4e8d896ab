import Verif.Lemmas.LowPower
import Verif.Lemmas.OptFrame
import Verif.Model.NonlinearNotebook
import Verif.Props.Uniform
import Verif.Props.Gauge
import Mathlib.Analysis.SpecialFunctions.Complex.LogBounds
import Mathlib.Analysis.SpecialFunctions.Trigonometric.InverseDeriv
import Mathlib.Algebra.Order.Chebyshev

/-! # C106 — Kerr self-phase modulation (`Notebooks/Nonlinear_system.ipynb`)

At low power the nonlinear field is the linear field plus the field radiated by its own Kerr polarisation, whichever solver is used; the phase of the transmission shifts in proportion to the power. -/

namespace Angler

open Matrix

variable {Nx Ny : ℕ}

/-! ## The fields at low power -/

/-- Every regular device answers with a field bounded by its source. -/
theorem C106_stable (s : Sim Nx Ny) (hdet : s.A.det ≠ 0) : ∃ μ : ℝ, 0 < μ ∧ ∀ f b : Grid Nx Ny ℂ, s.A *ᵥ flatten f = flatten b → μ * ‖f‖ ≤ ‖b‖ := by
  have hn : ∀ (g : Grid Nx Ny ℂ) k, ‖flatten g k‖ ≤ ‖g‖ := fun g k => by
    obtain ⟨⟨a, b⟩, rfl⟩ := finProdFinEquiv.surjective k
    rw [flatten_pair]
    exact norm_entry_le g a b
  set M : ℝ := ∑ k, ∑ l, ‖s.A⁻¹ k l‖ with hM
  have hM0 : 0 ≤ M := by positivity
  refine ⟨1 / (M + 1), by positivity, fun f b h => ?_⟩
  have e : flatten f = s.A⁻¹ *ᵥ flatten b := by
    rw [← h, Matrix.mulVec_mulVec, Matrix.nonsing_inv_mul _ (isUnit_iff_ne_zero.mpr hdet), Matrix.one_mulVec]
  have h1 : ‖f‖ ≤ M * ‖b‖ := by
    refine grid_norm_le (by positivity) fun i j => ?_
    have e1 : f i j = ∑ l, s.A⁻¹ (finProdFinEquiv (i, j)) l * flatten b l := by
      have := congrFun e (finProdFinEquiv (i, j))
      rw [flatten_pair] at this
      rw [this, mulVec_eq_sum']
    rw [e1]
    refine (norm_sum_le _ _).trans ?_
    rw [hM, Finset.sum_mul]
    refine le_trans ?_ (Finset.single_le_sum (f := fun k => (∑ l, ‖s.A⁻¹ k l‖) * ‖b‖) (fun k _ => by positivity) (Finset.mem_univ (finProdFinEquiv (i, j))))
    rw [Finset.sum_mul]
    refine Finset.sum_le_sum fun l _ => ?_
    rw [norm_mul]
    exact mul_le_mul_of_nonneg_left (hn b l) (norm_nonneg _)
  rw [div_mul_eq_mul_div, one_mul, div_le_iff₀ (by positivity)]
  nlinarith [norm_nonneg b]

theorem Spec.LowPower.third_le {s : Sim Nx Ny} {E1 E3 : Grid Nx Ny ℂ} {μ κ q : ℝ} (h : Spec.LowPower s E1 μ κ q) (h3 : Spec.FirstOrder s E1 E3) : ‖E3‖ ≤ q * ‖E1‖ := by
  have hκ := h.kappa_nonneg
  have h1 := h.bound E3 (fun i j => -(Spec.kerrTerm s i j * ((‖E1 i j‖ ^ 2 : ℝ) : ℂ) * E1 i j)) (fun i j => by rw [h3, flatten_pair]) (r := κ * ‖E1‖ ^ 2 * ‖E1‖) (by positivity) fun i j => by
    rw [norm_neg, norm_mul, norm_mul, norm_sq_ofReal]
    have a := h.kerr i j
    have b := norm_entry_le E1 i j
    gcongr
  have h2 := mul_le_mul_of_nonneg_right h.small (norm_nonneg E1)
  exact le_of_mul_le_mul_left (a := μ) (by linarith) h.mu_pos

/-- **C106, the field.** A regular Ez device driven weakly has exactly one Kerr field of size at most twice the linear field, and it is the linear field plus the first-order correction, up to
`180 q² ‖E1‖`, where `q` measures the Kerr effect. -/
theorem C106_field (s : Sim Nx Ny) (E1 E3 : Grid Nx Ny ℂ) (μ κ q : ℝ) (h : Spec.LowPower s E1 μ κ q) (h3 : Spec.FirstOrder s E1 E3) :
    ∃ Z : Grid Nx Ny ℂ, (∀ i j, Spec.nlResidual s Z i j = 0) ∧ ‖Z‖ ≤ 2 * ‖E1‖ ∧ ‖Z - (E1 + E3)‖ ≤ 180 * q ^ 2 * ‖E1‖ ∧
      ∀ W : Grid Nx Ny ℂ, (∀ i j, Spec.nlResidual s W i j = 0) → ‖W‖ ≤ 2 * ‖E1‖ → W = Z := by
  have he := exactEnv_exact .pardiso
  obtain ⟨Z, hZ, hfix⟩ := h.exists_fixed he
  have hq := h.q_nonneg
  refine ⟨Z, (nlResidual_zero_iff he s Z (h.det_frozen Z hZ)).2 hfix, hZ, ?_, fun W hW hW2 => ?_⟩
  · have h1 := (h.born he Z hZ).1
    rw [hfix] at h1
    have h2 := h.born_first he Z E3 hZ (h1.trans (by nlinarith [mul_nonneg hq (norm_nonneg E1)])) h3
    rwa [hfix] at h2
  · have hWf := (nlResidual_zero_iff he s W (h.det_frozen W hW2)).1 hW
    have h1 := h.born_contracts he W Z hW2 hZ
    rw [hWf, hfix] at h1
    have h2 : ‖W - Z‖ = 0 := le_antisymm (by linarith [norm_nonneg (W - Z)]) (norm_nonneg _)
    exact sub_eq_zero.1 (norm_eq_zero.1 h2)

theorem Spec.LowPower.iterates {s : Sim Nx Ny} {E1 : Grid Nx Ny ℂ} {μ κ q : ℝ} (h : Spec.LowPower s E1 μ κ q) {env : Env} (he : env.Exact) (hb : env.backend = .pardiso) (it : ℕ → Grid Nx Ny ℂ) (m : ℕ)
    (h0 : ‖it 0‖ ≤ 2 * ‖E1‖) (hstep : ∀ k ≤ m, newtonStep env s (it k) = .ok (it (k + 1))) : ∀ k ≤ m, ‖it (k + 1) - E1‖ ≤ 40 * q * ‖E1‖ ∧ ‖it (k + 1)‖ ≤ 2 * ‖E1‖ := by
  intro k
  induction k with
  | zero => exact fun hk => h.newton he hb _ _ h0 (hstep 0 hk)
  | succ k ih => exact fun hk => h.newton he hb _ _ (ih (by omega)).2 (hstep (k + 1) hk)

theorem Spec.LowPower.start {s : Sim Nx Ny} {E1 : Grid Nx Ny ℂ} {μ κ q : ℝ} (h : Spec.LowPower s E1 μ κ q) {env : Env} (he : env.Exact) (hp : s.pol = .Ez) {E : Option (Grid Nx Ny ℂ)} {E0 : Grid Nx Ny ℂ}
    (hst : Spec.StartsAt env s E E0) : E0 = E1 ∨ E = some E0 ∨ (E = none ∧ s.fields .Ez = some E0) := by
  obtain ⟨a, b, c⟩ := hst
  rw [hp] at b c
  cases hE : E with
  | some e => exact Or.inr (Or.inl (by rw [a e hE]))
  | none =>
    cases hf : s.fields .Ez with
    | some f => exact Or.inr (Or.inr ⟨rfl, by rw [b hE f hf]⟩)
    | none =>
      obtain ⟨Fx, Fy, hs⟩ := c hE hf
      left
      have h1 : (s.solve_fields env).1 = .ok (s.in_plane false s.eps_r (solver_direct env s.A s.rhs)) := by simp only [Sim.solve_fields, if_true]
      rw [h1] at hs
      have h2 := congrArg (fun t : Triple Nx Ny => t.2.2) (Except.ok.inj hs)
      simp only [in_plane_third] at h2
      rw [← h2, solver_direct_unique he h.det_linear h.linear, unflatten_flatten]

/-- **C106, Newton's solver.** Started at any field of size at most twice the linear field (for example the stored linear field of a weaker source, as in the notebook), with any threshold and any
positive number of steps, Newton's solver returns, and stores, the linear field plus the first-order correction, up to `180 q² ‖E1‖`. -/
theorem C106_newton (env : Env) (he : env.Exact) (hb : env.backend = .pardiso) (s : Sim Nx Ny) (hp : s.pol = .Ez) (E1 E3 : Grid Nx Ny ℂ) (μ κ q : ℝ) (h : Spec.LowPower s E1 μ κ q)
    (h3 : Spec.FirstOrder s E1 E3) (E : Option (Grid Nx Ny ℂ)) (hE : ∀ e, (E = some e ∨ E = none ∧ s.fields .Ez = some e) → ‖e‖ ≤ 2 * ‖E1‖) (thr : ℝ) (n : ℕ) :
    ∃ r s', solve_fields_nl env s E .newton thr (n + 1) = (.ok r, s') ∧ s'.fields_nl .Ez = some r.Fz ∧ ‖r.Fz - (E1 + E3)‖ ≤ 180 * q ^ 2 * ‖E1‖ := by
  obtain ⟨r, s1, hR⟩ := newton_solve_ok env hb s hp E thr n
  obtain ⟨E0, fl, k, it, -, hst, hk, h0, hstep, hfin, hs', -⟩ := newton_solve_spec env s E thr n r s1 hR
  have hpol : s1.pol = .Ez := by rw [hs']; exact hp
  have hE0 : ‖it 0‖ ≤ 2 * ‖E1‖ := by
    rw [h0]
    rcases h.start he hp hst with h1 | h1 | h1
    · rw [h1]; linarith [norm_nonneg E1]
    · exact hE _ (Or.inl h1)
    · exact hE _ (Or.inr h1)
  obtain ⟨h1, h2⟩ := h.iterates he hb it k hE0 hstep k le_rfl
  refine ⟨r, { s1 with fields_nl := Sim.store s1.pol s1.fields_nl (r.Fx, r.Fy, r.Fz) }, ?_, ?_, ?_⟩
  · unfold solve_fields_nl
    simp only [hR]
  · show Sim.store s1.pol _ _ _ = _
    rw [hpol]
    rfl
  · have hFz : r.Fz = (bornStep env s (it (k + 1))).2.2 := by rw [← hfin]
    rw [hFz]
    exact h.born_first he _ E3 h2 h1 h3

/-- **C106, the other solvers.** Started near the linear field (by default the linear field itself), the Born solver and the hybrid solver return the same to first order, with any threshold and any
positive number of passes. -/
theorem C106_born_hybrid (env : Env) (he : env.Exact) (hb : env.backend = .pardiso) (s : Sim Nx Ny) (hp : s.pol = .Ez) (E1 E3 : Grid Nx Ny ℂ) (μ κ q : ℝ) (h : Spec.LowPower s E1 μ κ q)
    (h3 : Spec.FirstOrder s E1 E3) (E : Option (Grid Nx Ny ℂ)) (hE : ∀ e, (E = some e ∨ E = none ∧ s.fields .Ez = some e) → ‖e - E1‖ ≤ 40 * q * ‖E1‖) (solver : NlSolver)
    (hs : solver = .born ∨ solver = .hybrid) (thr : ℝ) (n : ℕ) :
    ∃ r s', solve_fields_nl env s E solver thr (n + 1) = (.ok r, s') ∧ s'.fields_nl .Ez = some r.Fz ∧ ‖r.Fz - (E1 + E3)‖ ≤ 180 * q ^ 2 * ‖E1‖ := by
  have hq := h.q_nonneg
  have hnear : ∀ e : Grid Nx Ny ℂ, ‖e - E1‖ ≤ 40 * q * ‖E1‖ → ‖e‖ ≤ 2 * ‖E1‖ := fun e h1 => by
    have h2 := norm_add_le (e - E1) E1
    rw [sub_add_cancel] at h2
    have h4 : 40 * q * ‖E1‖ ≤ 1 * ‖E1‖ := mul_le_mul_of_nonneg_right (by linarith [h.q_le]) (norm_nonneg _)
    linarith
  have hborn : ∀ (thr : ℝ) (n : ℕ), ∃ r s1, born_solve env s E thr (n + 1) = (.ok r, s1) ∧ s1.pol = .Ez ∧ ‖r.Fz - (E1 + E3)‖ ≤ 180 * q ^ 2 * ‖E1‖ ∧ ‖r.Fz‖ ≤ 2 * ‖E1‖ ∧
      Spec.LowPower s1 E1 μ κ q ∧ Spec.FirstOrder s1 E1 E3 := by
    intro thr n
    obtain ⟨E0, fl, m, conv, hst, -, heq, -⟩ := born_solve_spec env s E thr n
    have hE0 : ‖E0 - E1‖ ≤ 40 * q * ‖E1‖ := by
      rcases h.start he hp hst with h1 | h1 | h1
      · rw [h1, sub_self, norm_zero]; positivity
      · exact hE _ (Or.inl h1)
      · exact hE _ (Or.inr h1)
    have hit : ∀ k, ‖bornIter env s E0 k - E1‖ ≤ 40 * q * ‖E1‖ := by
      intro k
      induction k with
      | zero => exact hE0
      | succ k ih =>
        rw [bornIter_succ]
        exact (h.born he _ (hnear _ ih)).1.trans (by nlinarith [mul_nonneg hq (norm_nonneg E1)])
    refine ⟨_, _, heq, hp, ?_, hnear _ (hit (m + 1)), ⟨h.mu_pos, h.stable, h.kerr, h.kappa_nonneg, h.linear, h.small, h.q_le⟩, h3⟩
    show ‖bornIter env s E0 (m + 1) - _‖ ≤ _
    rw [bornIter_succ]
    exact h.born_first he _ E3 (hnear _ (hit m)) (hit m) h3
  have hstore : ∀ (s1 : Sim Nx Ny) (r : NlResult Nx Ny), s1.pol = .Ez → ({ s1 with fields_nl := Sim.store s1.pol s1.fields_nl (r.Fx, r.Fy, r.Fz) } : Sim Nx Ny).fields_nl .Ez = some r.Fz := fun s1 r h1 => by
    show Sim.store s1.pol _ _ _ = _
    rw [h1]
    rfl
  rcases hs with rfl | rfl
  · obtain ⟨r, s1, h1, h2, h4, -⟩ := hborn thr n
    refine ⟨r, _, ?_, hstore s1 r h2, h4⟩
    unfold solve_fields_nl
    simp only [h1]
  · obtain ⟨r, s1, h1, h2, h4, h5, h6, h7⟩ := hborn thr 19
    by_cases hgt : ((r.conv.getLast?).getD (.fin 0)).Gt 1e-10
    · obtain ⟨r', s2, h8, -, h9⟩ := C106_newton env he hb s1 h2 E1 E3 μ κ q h6 h7 (some r.Fz) (fun e he' => by
        rcases he' with h10 | ⟨h10, -⟩
        · rw [← Option.some.inj h10]; exact h5
        · cases h10) thr 19
      unfold solve_fields_nl at h8
      rcases hn : newton_solve env s1 (some r.Fz) thr 20 with ⟨e | r'', s3⟩
      · simp only [hn] at h8
        cases (Prod.mk.inj h8).1
      · simp only [hn] at h8
        obtain rfl : r'' = r' := Except.ok.inj (Prod.mk.inj h8).1
        have hpol3 : s3.pol = .Ez := (newton_solve_spec env s1 _ thr 19 _ _ hn).elim fun _ h => by
          obtain ⟨fl, m, it, -, -, -, -, -, -, hs3, -⟩ := h
          rw [hs3]
          exact h2
        refine ⟨r'', _, ?_, hstore s3 r'' hpol3, h9⟩
        unfold solve_fields_nl
        simp only [h1, if_pos hgt, hn]
    · refine ⟨r, _, ?_, hstore s1 r h2, h4⟩
      unfold solve_fields_nl
      simp only [h1, if_neg hgt]

/-! ## The transmission and its phase -/

/-- The relative first-order change of the field at a point. -/
noncomputable def Spec.relChange (E1 E3 : Grid Nx Ny ℂ) (p : Fin Nx × Fin Ny) : ℂ := E3 p.1 p.2 / E1 p.1 p.2

theorem point_bound {Z E1 E3 : Grid Nx Ny ℂ} {q ρ : ℝ} (hq : 0 ≤ q) (hq' : q ≤ 1 / 40) (hZ : ‖Z - (E1 + E3)‖ ≤ 180 * q ^ 2 * ‖E1‖) (h3 : ‖E3‖ ≤ q * ‖E1‖) (p : Fin Nx × Fin Ny)
    (hp0 : E1 p.1 p.2 ≠ 0) (hp : ‖E1‖ ≤ ρ * ‖E1 p.1 p.2‖) :
    ‖Z p.1 p.2 / E1 p.1 p.2 - 1 - Spec.relChange E1 E3 p‖ ≤ 180 * q ^ 2 * ρ ∧ ‖Spec.relChange E1 E3 p‖ ≤ q * ρ ∧ ‖Z p.1 p.2 / E1 p.1 p.2 - 1‖ ≤ 11 / 2 * (q * ρ) ∧ 1 ≤ ρ := by
  have hpos : 0 < ‖E1 p.1 p.2‖ := norm_pos_iff.mpr hp0
  have hρ1 : 1 ≤ ρ := by
    have := (norm_entry_le E1 p.1 p.2).trans hp
    by_contra h1
    nlinarith
  have a1 : ‖Z p.1 p.2 / E1 p.1 p.2 - 1 - Spec.relChange E1 E3 p‖ ≤ 180 * q ^ 2 * ρ := by
    have e : Z p.1 p.2 / E1 p.1 p.2 - 1 - Spec.relChange E1 E3 p = (Z - (E1 + E3)) p.1 p.2 / E1 p.1 p.2 := by
      unfold Spec.relChange
      simp only [Pi.sub_apply, Pi.add_apply]
      field_simp
      ring
    rw [e, norm_div, div_le_iff₀ hpos]
    refine (norm_entry_le _ _ _).trans (hZ.trans ?_)
    have := mul_le_mul_of_nonneg_left hp (by positivity : (0 : ℝ) ≤ 180 * q ^ 2)
    linarith
  have a2 : ‖Spec.relChange E1 E3 p‖ ≤ q * ρ := by
    unfold Spec.relChange
    rw [norm_div, div_le_iff₀ hpos]
    refine (norm_entry_le _ _ _).trans (h3.trans ?_)
    have := mul_le_mul_of_nonneg_left hp hq
    linarith
  refine ⟨a1, a2, ?_, hρ1⟩
  have h4 := norm_add_le (Z p.1 p.2 / E1 p.1 p.2 - 1 - Spec.relChange E1 E3 p) (Spec.relChange E1 E3 p)
  rw [sub_add_cancel] at h4
  have h5 : 180 * q ^ 2 * ρ ≤ 9 / 2 * (q * ρ) := by
    have := mul_le_mul_of_nonneg_right hq' (by positivity : 0 ≤ 180 * q * ρ)
    linarith
  linarith

/-- **C106, the transmission.** If the linear field does not vanish at the two points and is there at least `1/ρ` of its maximum, and `q ρ ≤ 1/44`, the nonlinear transmission relative to the linear
one is `1` plus the difference of the relative first-order changes, up to `500 (qρ)²`; its phase is the imaginary part of that difference, up to `1000 (qρ)²`. -/
theorem C106_transmission (Z E1 E3 : Grid Nx Ny ℂ) (q ρ : ℝ) (hq : 0 ≤ q) (hq' : q ≤ 1 / 40) (hZ : ‖Z - (E1 + E3)‖ ≤ 180 * q ^ 2 * ‖E1‖) (h3 : ‖E3‖ ≤ q * ‖E1‖) (p0 p1 : Fin Nx × Fin Ny)
    (h0 : E1 p0.1 p0.2 ≠ 0) (h0' : ‖E1‖ ≤ ρ * ‖E1 p0.1 p0.2‖) (h1 : E1 p1.1 p1.2 ≠ 0) (h1' : ‖E1‖ ≤ ρ * ‖E1 p1.1 p1.2‖) (hqρ : q * ρ ≤ 1 / 44) :
    ∃ T T_lin, spmTransmission Z p0 p1 = .ok T ∧ spmTransmission E1 p0 p1 = .ok T_lin ∧ T_lin ≠ 0 ∧
      ‖T / T_lin - 1 - (Spec.relChange E1 E3 p1 - Spec.relChange E1 E3 p0)‖ ≤ 500 * (q * ρ) ^ 2 ∧
      |Complex.arg (T / T_lin) - (Spec.relChange E1 E3 p1 - Spec.relChange E1 E3 p0).im| ≤ 1000 * (q * ρ) ^ 2 := by
  obtain ⟨a1, a2, a3, hρ⟩ := point_bound hq hq' hZ h3 p0 h0 h0'
  obtain ⟨b1, b2, b3, -⟩ := point_bound hq hq' hZ h3 p1 h1 h1'
  set x0 := Spec.relChange E1 E3 p0
  set x1 := Spec.relChange E1 E3 p1
  set z0 := Z p0.1 p0.2 / E1 p0.1 p0.2 with hz0
  set z1 := Z p1.1 p1.2 / E1 p1.1 p1.2 with hz1
  set t := q * ρ with ht
  have ht0 : 0 ≤ t := by positivity
  have hz0n : 1 / 2 ≤ ‖z0‖ := by
    have := norm_sub_norm_le 1 (1 - z0)
    rw [norm_one, sub_sub_cancel] at this
    rw [norm_sub_rev] at this
    linarith
  have hz0' : z0 ≠ 0 := fun h => by rw [h, norm_zero] at hz0n; norm_num at hz0n
  have hZ0 : Z p0.1 p0.2 ≠ 0 := fun h => hz0' (by rw [hz0, h, zero_div])
  refine ⟨Z p1.1 p1.2 / Z p0.1 p0.2, E1 p1.1 p1.2 / E1 p0.1 p0.2, if_neg hZ0, if_neg h0, div_ne_zero h1 h0, ?_⟩
  have hT : Z p1.1 p1.2 / Z p0.1 p0.2 / (E1 p1.1 p1.2 / E1 p0.1 p0.2) = z1 / z0 := by
    rw [hz0, hz1]
    field_simp
  rw [hT]
  have hdiff : ‖z1 - z0‖ ≤ 11 * t := by
    have := norm_sub_le (z1 - 1) (z0 - 1)
    rw [sub_sub_sub_cancel_right] at this
    linarith
  have hw : ‖z1 / z0 - 1‖ ≤ 22 * t := by
    rw [div_sub_one hz0', norm_div, div_le_iff₀ (by linarith)]
    nlinarith
  have hmain : ‖z1 / z0 - 1 - (x1 - x0)‖ ≤ 500 * t ^ 2 := by
    have e : z1 / z0 - 1 - (x1 - x0) = -((z1 / z0 - 1) * (z0 - 1)) + ((z1 - 1 - x1) - (z0 - 1 - x0)) := by
      field_simp
      ring
    rw [e]
    refine (norm_add_le _ _).trans ?_
    rw [norm_neg, norm_mul]
    have c1 : ‖z1 / z0 - 1‖ * ‖z0 - 1‖ ≤ 22 * t * (11 / 2 * t) := mul_le_mul hw a3 (norm_nonneg _) (by positivity)
    have c2 := norm_sub_le (z1 - 1 - x1) (z0 - 1 - x0)
    have c3 : 180 * q ^ 2 * ρ ≤ 180 * t ^ 2 := by
      rw [ht, mul_pow]
      have : ρ ≤ ρ ^ 2 := by nlinarith
      nlinarith [mul_le_mul_of_nonneg_left this (by positivity : (0 : ℝ) ≤ 180 * q ^ 2)]
    nlinarith
  refine ⟨hmain, ?_⟩
  set w := z1 / z0 - 1 with hwd
  have hw1 : ‖w‖ ≤ 1 / 2 := by linarith
  have hlog := Complex.norm_log_one_add_sub_self_le (z := w) (by linarith)
  have hinv : (1 - ‖w‖)⁻¹ ≤ 2 := by
    rw [inv_le_comm₀ (by linarith) (by norm_num)]
    linarith
  have hlog' : ‖Complex.log (1 + w) - w‖ ≤ 484 * t ^ 2 := by
    refine hlog.trans ?_
    have d1 : ‖w‖ ^ 2 ≤ (22 * t) ^ 2 := pow_le_pow_left₀ (norm_nonneg _) hw 2
    have d2 : ‖w‖ ^ 2 * (1 - ‖w‖)⁻¹ ≤ (22 * t) ^ 2 * 2 := mul_le_mul d1 hinv (inv_nonneg.mpr (by linarith)) (by positivity)
    linarith
  have e1 : 1 + w = z1 / z0 := by rw [hwd]; ring
  have e2 : Complex.arg (z1 / z0) - (x1 - x0).im = (Complex.log (1 + w) - w).im + (w - (x1 - x0)).im := by
    rw [Complex.sub_im (Complex.log _) w, Complex.log_im, e1, Complex.sub_im w]
    ring
  rw [e2]
  refine (abs_add_le _ _).trans ?_
  have f1 := (Complex.abs_im_le_norm (Complex.log (1 + w) - w)).trans hlog'
  have f2 := (Complex.abs_im_le_norm (w - (x1 - x0))).trans hmain
  linarith [sq_nonneg t]

/-! ## The scan of the notebook -/

theorem kerrTerm_src (s : Sim Nx Ny) (J : Grid Nx Ny ℂ) : Spec.kerrTerm { s with src := J } = Spec.kerrTerm s := rfl

/-- A device driven `a` times as hard: the linear field is `a` times, the correction `a³` times, the Kerr effect `a²` times as large. -/
theorem Spec.LowPower.scale {s : Sim Nx Ny} {E1 E3 : Grid Nx Ny ℂ} {μ κ q : ℝ} (h : Spec.LowPower s E1 μ κ q) (h3 : Spec.FirstOrder s E1 E3) (a : ℝ) (ha : a ^ 2 * q ≤ 1 / 40) :
    Spec.LowPower { s with src := Spec.times (a : ℂ) s.src } (Spec.times (a : ℂ) E1) μ κ (a ^ 2 * q) ∧
      Spec.FirstOrder { s with src := Spec.times (a : ℂ) s.src } (Spec.times (a : ℂ) E1) (Spec.times ((a ^ 3 : ℝ) : ℂ) E3) := by
  have hn : ∀ c : ℂ, ∀ f : Grid Nx Ny ℂ, Spec.times c f = c • f := fun c f => rfl
  have hfl : ∀ c : ℂ, ∀ f : Grid Nx Ny ℂ, flatten (Spec.times c f) = c • flatten f := fun c f => rfl
  refine ⟨⟨h.mu_pos, h.stable, h.kerr, h.kappa_nonneg, ?_, ?_, ha⟩, ?_⟩
  · show s.A *ᵥ _ = _
    rw [hfl, Matrix.mulVec_smul, h.linear]
    funext k
    show (a : ℂ) * (flatten s.src k * Complex.I * (s.omega : ℂ)) = flatten (Spec.times (a : ℂ) s.src) k * Complex.I * (s.omega : ℂ)
    rw [hfl, Pi.smul_apply, smul_eq_mul]
    ring
  · rw [hn, norm_smul, Complex.norm_real, Real.norm_eq_abs, mul_pow, sq_abs]
    have := mul_le_mul_of_nonneg_left h.small (sq_nonneg a)
    linarith
  · show s.A *ᵥ _ = _
    rw [hfl, Matrix.mulVec_smul, h3]
    refine flat_ext fun i j => ?_
    rw [Pi.smul_apply, smul_eq_mul, flatten_pair, flatten_pair, kerrTerm_src]
    show _ = -(Spec.kerrTerm s i j * ((‖(a : ℂ) * E1 i j‖ ^ 2 : ℝ) : ℂ) * ((a : ℂ) * E1 i j))
    rw [norm_mul, Complex.norm_real, Real.norm_eq_abs, mul_pow, sq_abs]
    push_cast
    ring

/-- **C106, the notebook's scan.** The linear field `E1` of the unit source is stored.  Scanning over amplitudes `a ≥ 1` with `a² q ≤ 1/40`, `a² q ρ ≤ 1/44`, the loop does not fail, and at every
amplitude the transmission relative to the linear one, and its phase, change in proportion to `a²`, that is to the power, up to errors of the order of `a⁴`: the straight line of the log-log plot. -/
theorem C106_scan (env : Env) (he : env.Exact) (hb : env.backend = .pardiso) (s : Sim Nx Ny) (hp : s.pol = .Ez) (E1 E3 : Grid Nx Ny ℂ) (μ κ q ρ : ℝ) (h : Spec.LowPower s E1 μ κ q)
    (h3 : Spec.FirstOrder s E1 E3) (hstored : s.fields .Ez = some E1) (p0 p1 : Fin Nx × Fin Ny)
    (h0 : E1 p0.1 p0.2 ≠ 0) (h0' : ‖E1‖ ≤ ρ * ‖E1 p0.1 p0.2‖) (h1 : E1 p1.1 p1.2 ≠ 0) (h1' : ‖E1‖ ≤ ρ * ‖E1 p1.1 p1.2‖)
    (srcval : List ℝ) (ha1 : ∀ a ∈ srcval, 1 ≤ a) (ha : ∀ a ∈ srcval, a ^ 2 * q ≤ 1 / 40) (haρ : ∀ a ∈ srcval, a ^ 2 * q * ρ ≤ 1 / 44) :
    ∃ T_lin T_vec s', spmTransmission E1 p0 p1 = .ok T_lin ∧ spmScan env p0 p1 (fun a => Spec.times (a : ℂ) s.src) srcval s = (.ok T_vec, s') ∧
      List.Forall₂ (fun a T => ‖T / T_lin - 1 - ((a ^ 2 : ℝ) : ℂ) * (Spec.relChange E1 E3 p1 - Spec.relChange E1 E3 p0)‖ ≤ 500 * (a ^ 2 * q * ρ) ^ 2 ∧
        |Complex.arg (T / T_lin) - a ^ 2 * (Spec.relChange E1 E3 p1 - Spec.relChange E1 E3 p0).im| ≤ 1000 * (a ^ 2 * q * ρ) ^ 2) srcval T_vec := by
  refine ⟨E1 p1.1 p1.2 / E1 p0.1 p0.2, ?_⟩
  have hlin : spmTransmission E1 p0 p1 = .ok (E1 p1.1 p1.2 / E1 p0.1 p0.2) := if_neg h0
  have hq := h.q_nonneg
  suffices key : ∀ (l : List ℝ) (s2 : Sim Nx Ny), (∀ a ∈ l, 1 ≤ a) → (∀ a ∈ l, a ^ 2 * q ≤ 1 / 40) → (∀ a ∈ l, a ^ 2 * q * ρ ≤ 1 / 44) → s2.pol = .Ez → s2.fields .Ez = some E1 →
      s2.A = s.A → s2.nonlinearity = s.nonlinearity → s2.eps_r = s.eps_r → s2.omega = s.omega → s2.L0 = s.L0 →
      ∃ T_vec s', spmScan env p0 p1 (fun a => Spec.times (a : ℂ) s.src) l s2 = (.ok T_vec, s') ∧
      List.Forall₂ (fun a T => ‖T / (E1 p1.1 p1.2 / E1 p0.1 p0.2) - 1 - ((a ^ 2 : ℝ) : ℂ) * (Spec.relChange E1 E3 p1 - Spec.relChange E1 E3 p0)‖ ≤ 500 * (a ^ 2 * q * ρ) ^ 2 ∧
        |Complex.arg (T / (E1 p1.1 p1.2 / E1 p0.1 p0.2)) - a ^ 2 * (Spec.relChange E1 E3 p1 - Spec.relChange E1 E3 p0).im| ≤ 1000 * (a ^ 2 * q * ρ) ^ 2) l T_vec by
    obtain ⟨T_vec, s', k1, k2⟩ := key srcval s ha1 ha haρ hp hstored rfl rfl rfl rfl rfl
    exact ⟨T_vec, s', hlin, k1, k2⟩
  intro l
  induction l with
  | nil => exact fun s2 _ _ _ _ _ _ _ _ _ _ => ⟨[], s2, rfl, List.Forall₂.nil⟩
  | cons a l ih =>
    intro s2 c1 c2 c3 hp2 hf2 hA hnl heps hom hL
    have ha1 : 1 ≤ a := c1 a (by simp)
    have ha0 : (a : ℂ) ≠ 0 := by exact_mod_cast (by linarith : a ≠ 0)
    obtain ⟨hl, hf⟩ := h.scale h3 a (c2 a (by simp))
    set sa : Sim Nx Ny := { s2 with src := Spec.times (a : ℂ) s.src } with hsa
    have hkt : Spec.kerrTerm sa = Spec.kerrTerm s := by
      funext i j
      show ((s2.omega ^ 2 * EPSILON_0 * s2.L0 : ℝ) : ℂ) * Spec.kerrSum s2.nonlinearity s2.eps_r i j = _
      rw [hom, hL, hnl, heps]
      rfl
    have hl' : Spec.LowPower sa (Spec.times (a : ℂ) E1) μ κ (a ^ 2 * q) := by
      refine ⟨hl.mu_pos, fun f b hfb => ?_, fun i j => ?_, hl.kappa_nonneg, ?_, hl.small, hl.q_le⟩
      · rw [show sa.A = s.A from hA] at hfb
        exact h.stable f b hfb
      · rw [hkt]
        exact h.kerr i j
      · have h4 := hl.linear
        rw [show sa.A = s.A from hA]
        refine h4.trans ?_
        funext k
        show flatten (Spec.times (a : ℂ) s.src) k * Complex.I * (s.omega : ℂ) = flatten (Spec.times (a : ℂ) s.src) k * Complex.I * (s2.omega : ℂ)
        rw [hom]
    have hf' : Spec.FirstOrder sa (Spec.times (a : ℂ) E1) (Spec.times ((a ^ 3 : ℝ) : ℂ) E3) := by
      unfold Spec.FirstOrder at hf ⊢
      rw [hkt, show sa.A = s.A from hA]
      exact hf
    have hnorm : ‖Spec.times (a : ℂ) E1‖ = a * ‖E1‖ := by
      rw [show Spec.times (a : ℂ) E1 = (a : ℂ) • E1 from rfl, norm_smul, Complex.norm_real, Real.norm_of_nonneg (by linarith)]
    obtain ⟨r, s3, g1, g2, g3⟩ := C106_newton env he hb sa hp2 _ _ μ κ _ hl' hf' none (fun e he' => by
      rcases he' with h4 | ⟨-, h4⟩
      · cases h4
      · rw [show sa.fields .Ez = some E1 from hf2] at h4
        rw [← Option.some.inj h4, hnorm]
        nlinarith [norm_nonneg E1]) 1e-10 49
    have hkeep : s3.pol = .Ez ∧ s3.fields .Ez = some E1 ∧ s3.A = s.A ∧ s3.nonlinearity = s.nonlinearity ∧ s3.eps_r = s.eps_r ∧ s3.omega = s.omega ∧ s3.L0 = s.L0 := by
      have hk : SimKeep sa s3 := by
        have := SimKeep.solve_nl env sa none .newton 1e-10 50
        rwa [g1] at this
      have hfld : s3.fields .Ez = some E1 := by
        obtain ⟨s4, ⟨-, h4⟩, h5⟩ := Frame.solve_fields_nl env sa none .newton 1e-10 50
        have h6 : s4.fields .Ez = some E1 := by
          rcases h4 with h4 | ⟨h4, -⟩
          · rw [h4]; exact hf2
          · rw [show sa.pol = .Ez from hp2] at h4
            exact absurd (hf2.symm.trans h4) (by simp)
        rw [g1] at h5
        rcases h5 with ⟨_, -, h5⟩ | ⟨_, -, h5⟩
        · rw [show s3 = s4 from h5]
          exact h6
        · rw [show s3 = _ from h5]
          exact h6
      refine ⟨hk.pol.trans hp2, hfld, hk.A.trans hA, ?_, hk.eps_r.trans heps, hk.omega.trans hom, ?_⟩
      · rw [show s3.nonlinearity = sa.nonlinearity by rw [hk]]
        exact hnl
      · rw [show s3.L0 = sa.L0 by rw [hk]]
        exact hL
    obtain ⟨T, TL, t1, t2, -, t3, t4⟩ := C106_transmission r.Fz _ _ (a ^ 2 * q) ρ (by positivity) (c2 a (by simp)) g3 (hl'.third_le hf') p0 p1 (mul_ne_zero ha0 h0)
      (by rw [hnorm]; show _ ≤ ρ * ‖(a : ℂ) * E1 p0.1 p0.2‖; rw [norm_mul, Complex.norm_real, Real.norm_of_nonneg (by linarith)]; nlinarith) (mul_ne_zero ha0 h1)
      (by rw [hnorm]; show _ ≤ ρ * ‖(a : ℂ) * E1 p1.1 p1.2‖; rw [norm_mul, Complex.norm_real, Real.norm_of_nonneg (by linarith)]; nlinarith) (c3 a (by simp))
    have hTL : TL = E1 p1.1 p1.2 / E1 p0.1 p0.2 := by
      have h5 : spmTransmission (Spec.times (a : ℂ) E1) p0 p1 = .ok ((a : ℂ) * E1 p1.1 p1.2 / ((a : ℂ) * E1 p0.1 p0.2)) := if_neg (mul_ne_zero ha0 h0)
      rw [h5] at t2
      rw [← Except.ok.inj t2, mul_div_mul_left _ _ ha0]
    have hrel : ∀ p : Fin Nx × Fin Ny, E1 p.1 p.2 ≠ 0 → Spec.relChange (Spec.times (a : ℂ) E1) (Spec.times ((a ^ 3 : ℝ) : ℂ) E3) p = ((a ^ 2 : ℝ) : ℂ) * Spec.relChange E1 E3 p := fun p hp => by
      show ((a ^ 3 : ℝ) : ℂ) * E3 p.1 p.2 / ((a : ℂ) * E1 p.1 p.2) = ((a ^ 2 : ℝ) : ℂ) * (E3 p.1 p.2 / E1 p.1 p.2)
      push_cast
      field_simp
    rw [hTL, hrel p1 h1, hrel p0 h0, ← mul_sub] at t3 t4
    rw [Complex.im_ofReal_mul] at t4
    obtain ⟨T_vec, s', k1, k2⟩ := ih s3 (fun b hb => c1 b (by simp [hb])) (fun b hb => c2 b (by simp [hb])) (fun b hb => c3 b (by simp [hb])) hkeep.1 hkeep.2.1 hkeep.2.2.1 hkeep.2.2.2.1 hkeep.2.2.2.2.1
      hkeep.2.2.2.2.2.1 hkeep.2.2.2.2.2.2
    refine ⟨T :: T_vec, s', ?_, List.Forall₂.cons ⟨t3, t4⟩ k2⟩
    unfold spmScan
    simp only [← hsa, g1, g2, t1, k1]

/-! ## The effective width -/

/-- **C106, effective width.** `width_eff` fails exactly for a profile that vanishes everywhere; otherwise it lies between one cell and the number of cells where the profile does not vanish, does not
depend on the amplitude, and for a profile of constant modulus on a set of cells is the number of those cells. -/
theorem C106_width {N : ℕ} (f : Fin N → ℂ) :
    (f = 0 → widthEff f = .error .nonFinite) ∧
      (f ≠ 0 → ∃ w, widthEff f = .ok w ∧ 1 ≤ w ∧ w ≤ ((Finset.univ.filter fun j => f j ≠ 0).card : ℝ) ∧ (∀ c : ℂ, c ≠ 0 → widthEff (fun j => c * f j) = .ok w) ∧
        ∀ r : ℝ, (∀ j, f j ≠ 0 → ‖f j‖ = r) → w = ((Finset.univ.filter fun j => f j ≠ 0).card : ℝ)) := by
  have hpos : f ≠ 0 → 0 < ∑ j, ‖f j‖ ^ 4 := fun hf => by
    obtain ⟨j, hj⟩ := Function.ne_iff.mp hf
    exact Finset.sum_pos' (fun j _ => by positivity) ⟨j, Finset.mem_univ _, pow_pos (norm_pos_iff.mpr hj) 4⟩
  have hfil : ∀ k : ℕ, k ≠ 0 → ∑ j, ‖f j‖ ^ k = ∑ j ∈ Finset.univ.filter (fun j => f j ≠ 0), ‖f j‖ ^ k := fun k hk => by
    rw [Finset.sum_filter_of_ne]
    intro j _ hj h0
    rw [h0, norm_zero, zero_pow hk] at hj
    exact hj rfl
  refine ⟨fun hf => ?_, fun hf => ?_⟩
  · unfold widthEff
    rw [if_pos]
    refine Finset.sum_eq_zero fun j _ => ?_
    rw [hf, Pi.zero_apply, norm_zero]
    norm_num
  have hp := hpos hf
  refine ⟨(∑ j, ‖f j‖ ^ 2) ^ 2 / ∑ j, ‖f j‖ ^ 4, if_neg hp.ne', ?_, ?_, fun c hc => ?_, fun r hr => ?_⟩
  · rw [le_div_iff₀ hp, one_mul]
    have := Finset.sum_sq_le_sq_sum_of_nonneg (s := Finset.univ) (f := fun j => ‖f j‖ ^ 2) (fun j _ => by positivity)
    refine le_trans (le_of_eq (Finset.sum_congr rfl fun j _ => ?_)) this
    ring
  · rw [div_le_iff₀ hp, hfil 2 two_ne_zero, hfil 4 (by norm_num)]
    have := sq_sum_le_card_mul_sum_sq (s := Finset.univ.filter fun j => f j ≠ 0) (f := fun j => ‖f j‖ ^ 2)
    refine this.trans (le_of_eq ?_)
    congr 1
    refine Finset.sum_congr rfl fun j _ => ?_
    ring
  · have e : ∀ k : ℕ, ∑ j, ‖c * f j‖ ^ k = ‖c‖ ^ k * ∑ j, ‖f j‖ ^ k := fun k => by
      rw [Finset.mul_sum]
      refine Finset.sum_congr rfl fun j _ => ?_
      rw [norm_mul, mul_pow]
    have hc' : 0 < ‖c‖ := norm_pos_iff.mpr hc
    unfold widthEff
    rw [e, e, if_neg (by positivity)]
    refine congrArg _ ?_
    rw [mul_pow, ← pow_mul, mul_div_mul_left _ _ (by positivity)]
  · have hr0 : r ≠ 0 := by
      obtain ⟨j, hj⟩ := Function.ne_iff.mp hf
      rw [← hr j hj]
      exact norm_ne_zero_iff.mpr hj
    have e : ∀ k : ℕ, k ≠ 0 → ∑ j, ‖f j‖ ^ k = ((Finset.univ.filter fun j => f j ≠ 0).card : ℝ) * r ^ k := fun k hk => by
      rw [hfil k hk, Finset.sum_congr rfl fun j hj => by rw [hr j (Finset.mem_filter.mp hj).2], Finset.sum_const, nsmul_eq_mul]
    have hc : ((Finset.univ.filter fun j => f j ≠ 0).card : ℝ) ≠ 0 := fun h0 => by
      rw [e 4 (by norm_num), h0, zero_mul] at hp
      exact lt_irrefl _ hp
    rw [e 2 two_ne_zero, e 4 (by norm_num)]
    field_simp

/-! ## A device -/

/-- A cavity driven uniformly, one cell `p` of which is a Kerr material; its linear field, `1` everywhere, is stored. -/
noncomputable def spmDev (p : Fin Nx × Fin Ny) : Sim Nx Ny :=
  { fsim 0 (fun _ _ => 1) (fun _ _ => -Complex.I) with
    nonlinearity := [⟨1 / 27000, fun i j => if (i, j) = p then 1 else 0, none⟩], fields := fun c => match c with | .Ez => some fun _ _ => 1 | _ => none }

theorem spmDev_kerr (p : Fin Nx × Fin Ny) (i : Fin Nx) (j : Fin Ny) : Spec.kerrTerm (spmDev p) i j = if (i, j) = p then ((1 / 9000 : ℝ) : ℂ) else 0 := by
  show (((1 : ℝ) ^ 2 * EPSILON_0 * (1 / EPSILON_0) : ℝ) : ℂ) * ([Spec.kerrCoef ⟨1 / 27000, fun i j => if (i, j) = p then 1 else 0, none⟩ _ i j].sum) = _
  rw [one_pow, one_mul, mul_one_div_cancel EPSILON_0_pos.ne', List.sum_singleton, Complex.ofReal_one, one_mul]
  unfold Spec.kerrCoef
  by_cases hp : (i, j) = p
  · simp only [if_pos hp]
    push_cast
    norm_num
  · simp only [if_neg hp]
    simp

theorem spmDev_low (hx : 1 < Nx) (hy : 1 < Ny) (p : Fin Nx × Fin Ny) : Spec.LowPower (spmDev p) (fun _ _ => 1) (1 / 9) (1 / 9000) (1 / 1000) where
  mu_pos := by norm_num
  stable f b h := by
    have h1 : ∀ i j, (f (Spec.next i) j + f (Spec.prev i) j + f i (Spec.next j) + f i (Spec.prev j) - 4 * f i j) / 9 + 1 * f i j = b i j := fun i j => by
      have h2 := congrFun ((fsim_apply hx hy (fun _ _ => 1) (fun _ _ => -Complex.I) f).symm.trans h) (finProdFinEquiv (i, j))
      rwa [flatten_pair, flatten_pair] at h2
    have h3 : ‖f‖ ≤ ‖b‖ + 8 / 9 * ‖f‖ := by
      refine grid_norm_le (by positivity) fun i j => ?_
      have e : f i j = b i j - (f (Spec.next i) j + f (Spec.prev i) j + f i (Spec.next j) + f i (Spec.prev j) - 4 * f i j) / 9 := by
        rw [← h1 i j]
        ring
      rw [e]
      refine (norm_sub_le _ _).trans (add_le_add (norm_entry_le b i j) ?_)
      rw [norm_div, show ‖(9 : ℂ)‖ = 9 by norm_num]
      have n1 := norm_sub_le (f (Spec.next i) j + f (Spec.prev i) j + f i (Spec.next j) + f i (Spec.prev j)) (4 * f i j)
      have n2 := norm_add₄_le (a := f (Spec.next i) j) (b := f (Spec.prev i) j) (c := f i (Spec.next j)) (d := f i (Spec.prev j))
      rw [norm_mul, show ‖(4 : ℂ)‖ = 4 by norm_num] at n1
      have a1 := norm_entry_le f (Spec.next i) j
      have a2 := norm_entry_le f (Spec.prev i) j
      have a3 := norm_entry_le f i (Spec.next j)
      have a4 := norm_entry_le f i (Spec.prev j)
      have a5 := norm_entry_le f i j
      rw [div_le_iff₀ (by norm_num)]
      linarith
    linarith
  kerr i j := by
    rw [spmDev_kerr]
    split_ifs
    · rw [Complex.norm_real]; norm_num
    · rw [norm_zero]; norm_num
  kappa_nonneg := by norm_num
  linear := by
    refine (fsim_apply hx hy (fun _ _ => 1) (fun _ _ => -Complex.I) fun _ _ => 1).trans (flat_ext fun i j => ?_)
    rw [flatten_pair]
    show _ = flatten (fun _ _ => -Complex.I) (finProdFinEquiv (i, j)) * Complex.I * ((1 : ℝ) : ℂ)
    rw [flatten_pair, neg_mul, Complex.I_mul_I]
    push_cast
    norm_num
  small := by
    have : ‖(fun _ _ => 1 : Grid Nx Ny ℂ)‖ ≤ 1 := grid_norm_le zero_le_one fun i j => by rw [norm_one]
    have h2 : ‖(fun _ _ => 1 : Grid Nx Ny ℂ)‖ ^ 2 ≤ 1 := pow_le_one₀ (norm_nonneg _) this
    linarith
  q_le := by norm_num

/-- The scan of the notebook over amplitudes 1, 2, 4 on that device: the hypotheses hold, with one point of the transmission in the Kerr material and one outside. -/
example (p0 p1 : Fin 5 × Fin 7) : ∃ E3 T_lin T_vec s', Spec.FirstOrder (spmDev p1) (fun _ _ => 1) E3 ∧ spmTransmission (fun _ _ => 1) p0 p1 = .ok T_lin ∧
    spmScan (exactEnv .pardiso) p0 p1 (fun a => Spec.times (a : ℂ) (spmDev p1).src) [1, 2, 4] (spmDev p1) = (.ok T_vec, s') ∧
    List.Forall₂ (fun a T => ‖T / T_lin - 1 - ((a ^ 2 : ℝ) : ℂ) * (Spec.relChange (fun _ _ => 1) E3 p1 - Spec.relChange (fun _ _ => 1) E3 p0)‖ ≤ 500 * (a ^ 2 * (1 / 1000) * 1) ^ 2 ∧
      |Complex.arg (T / T_lin) - a ^ 2 * (Spec.relChange (fun _ _ => 1) E3 p1 - Spec.relChange (fun _ _ => 1) E3 p0).im| ≤ 1000 * (a ^ 2 * (1 / 1000) * 1) ^ 2) [1, 2, 4] T_vec := by
  have hl := spmDev_low (Nx := 5) (Ny := 7) (by norm_num) (by norm_num) p1
  have hdet := hl.det_linear
  have h3 : Spec.FirstOrder (spmDev p1) (fun _ _ => 1)
      (unflatten ((spmDev p1).A⁻¹ *ᵥ flatten fun i j => -(Spec.kerrTerm (spmDev p1) i j * ((‖(1 : ℂ)‖ ^ 2 : ℝ) : ℂ) * 1))) := by
    unfold Spec.FirstOrder
    rw [flatten_unflatten, Matrix.mulVec_mulVec, Matrix.mul_nonsing_inv _ (isUnit_iff_ne_zero.2 hdet), Matrix.one_mulVec]
  have hn : ‖(fun _ _ => 1 : Grid 5 7 ℂ)‖ ≤ 1 * ‖(1 : ℂ)‖ := by
    rw [norm_one, mul_one]
    exact grid_norm_le zero_le_one fun i j => by rw [norm_one]
  obtain ⟨T_lin, T_vec, s', k1, k2, k3⟩ := C106_scan (exactEnv .pardiso) (exactEnv_exact .pardiso) rfl (spmDev p1) rfl (fun _ _ => 1) _ _ _ _ 1 hl h3 rfl p0 p1 one_ne_zero hn one_ne_zero hn [1, 2, 4]
    (by simp) (by simp; norm_num) (by simp; norm_num)
  exact ⟨_, T_lin, T_vec, s', h3, k1, k2, k3⟩

/-- A profile over four cells of which two carry the field. -/
example : ∃ w, widthEff ![0, 3, 3 * Complex.I, 0] = .ok w ∧ w ≤ 2 := by
  obtain ⟨w, h1, -, h2, -⟩ := (C106_width ![0, 3, 3 * Complex.I, 0]).2 (Function.ne_iff.mpr ⟨1, by simp⟩)
  refine ⟨w, h1, h2.trans ?_⟩
  have : (Finset.univ.filter fun j : Fin 4 => (![0, 3, 3 * Complex.I, 0] : Fin 4 → ℂ) j ≠ 0) ⊆ {1, 2} := fun j hj => by
    fin_cases j <;> simp at hj ⊢
  exact_mod_cast (Finset.card_le_card this).trans (by decide)

end Angler
