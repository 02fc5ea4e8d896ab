import Verif.Lemmas.ShiftWitness
import Verif.Props.Lbfgs

/-! # C44: source amplitude control -/

namespace Angler

variable {Nx Ny : ℕ}

/-- The largest entry of the index shift. -/
def Spec.MaxShift (dn : Grid Nx Ny ℝ) (M : ℝ) : Prop := (∀ i j, dn i j ≤ M) ∧ (M = 0 ∨ ∃ i j, dn i j = M)

theorem gridMax_spec (g : Grid Nx Ny ℝ) (hg : ∀ i j, 0 ≤ g i j) : Spec.MaxShift g (gridMax g) ∧ 0 ≤ gridMax g := by
  have h0 : 0 ≤ gridMax g := (Finset.le_fold_max _).2 (Or.inl le_rfl)
  refine ⟨⟨fun i j => (Finset.le_fold_max _).2 (Or.inr ⟨(i, j), Finset.mem_univ _, le_rfl⟩), ?_⟩, h0⟩
  rcases eq_or_lt_of_le h0 with h | h
  · exact Or.inl h.symm
  · rcases (Finset.le_fold_max (gridMax g)).1 (le_refl (gridMax g)) with h' | ⟨p, -, hp⟩
    · exact absurd h' (not_le.2 h)
    · exact Or.inr ⟨p.1, p.2, le_antisymm ((Finset.le_fold_max _).2 (Or.inr ⟨p, Finset.mem_univ _, le_rfl⟩)) hp⟩

theorem index_shift_nonneg (env : Env) (s s' : Sim Nx Ny) (dn : Grid Nx Ny ℝ) (h : s.compute_index_shift env = (.ok dn, s')) (i : Fin Nx) (j : Fin Ny) : 0 ≤ dn i j := by
  unfold Sim.compute_index_shift at h
  generalize s.solve_fields env = R at h
  obtain ⟨e | t, s1⟩ := R
  · cases h
  · simp only [pySeq] at h
    generalize solve_fields_nl env s1 = R at h
    obtain ⟨e | t, s2⟩ := R
    · cases h
    · simp only at h
      by_cases hc : ∃ i j, (s2.eps_r i j + s2.eps_nl i j).re < 0 ∨ (s2.eps_r i j).re < 0
      · rw [if_pos hc] at h; cases h
      · rw [if_neg hc] at h
        cases h
        exact abs_nonneg _

/-- What a successful `_set_source_amplitude` with `max_ind_shift = m` does: it measures the shift `dn` and multiplies the source by `√(m/M) - 0.01`. -/
theorem set_source_amplitude_ok (env : Env) (o o' : Opt Nx Ny) (m : ℝ) (hm : o.max_ind_shift = some m) (h : Opt.set_source_amplitude env o = (.ok (), o')) :
    ∃ (dn : Grid Nx Ny ℝ) (s' : Sim Nx Ny) (M : ℝ), o.simulation.compute_index_shift env = (.ok dn, s') ∧ SimKeep o.simulation s' ∧ Spec.MaxShift dn M ∧ 0 < M ∧ 0 ≤ m / M ∧
      o'.simulation = { s' with src := fun i j => o.simulation.src i j * ((Real.sqrt (m / M) - 1e-2 : ℝ) : ℂ) } := by
  unfold Opt.set_source_amplitude at h
  rw [hm] at h
  simp only at h
  have hk := SimKeep.compute_index_shift env o.simulation
  rcases hr : o.simulation.compute_index_shift env with ⟨e | dn, s1⟩
  · rw [hr] at h; cases h
  · rw [hr] at h hk
    simp only at h
    obtain ⟨h1, h2⟩ := gridMax_spec dn (index_shift_nonneg env _ _ _ hr)
    by_cases hc : gridMax dn = 0 ∨ m / gridMax dn < 0
    · rw [if_pos hc] at h; cases h
    · rw [if_neg hc] at h
      rw [not_or] at hc
      have ho := (Prod.mk.inj h).2
      refine ⟨dn, s1, gridMax dn, rfl, hk, h1, lt_of_le_of_ne h2 (Ne.symm hc.1), not_lt.1 hc.2, ?_⟩
      rw [← ho]
      have : s1.src = o.simulation.src := hk.src
      rw [this]

/-- **C44 (partial).** Let `M` be the largest index shift measured before the update.  If `m ≥ 2.5·10⁻⁵ M` then, by the square law for the amplitude, the predicted shift at the new
source is at most `m`: at every pixel `|src'|² M ≤ m |src|²`, strictly where the source is not zero and `m > 2.5·10⁻⁵ M`.  Missing: `m < 2.5·10⁻⁵ M`, where it fails
(`C44_false`); and the nonlinear response deviates from the square law. -/
theorem C44_amplitude_partial (env : Env) (o o' : Opt Nx Ny) (m : ℝ) (hm : o.max_ind_shift = some m) (h : Opt.set_source_amplitude env o = (.ok (), o')) :
    ∃ (dn : Grid Nx Ny ℝ) (M : ℝ), (o.simulation.compute_index_shift env).1 = .ok dn ∧ Spec.MaxShift dn M ∧ 0 < M ∧
      (2.5e-5 * M ≤ m → ∀ i j, ‖o'.simulation.src i j‖ ^ 2 * M ≤ m * ‖o.simulation.src i j‖ ^ 2) ∧
      (2.5e-5 * M < m → ∀ i j, o.simulation.src i j ≠ 0 → ‖o'.simulation.src i j‖ ^ 2 * M < m * ‖o.simulation.src i j‖ ^ 2) ∧
      (m < 2.5e-5 * M → ∀ i j, o.simulation.src i j ≠ 0 → m * ‖o.simulation.src i j‖ ^ 2 < ‖o'.simulation.src i j‖ ^ 2 * M) := by
  obtain ⟨dn, s', M, hdn, -, hM, hpos, hr, hs⟩ := set_source_amplitude_ok env o o' m hm h
  have hnorm : ∀ i j, ‖o'.simulation.src i j‖ ^ 2 * M = (Real.sqrt (m / M) - 1e-2) ^ 2 * M * ‖o.simulation.src i j‖ ^ 2 := by
    intro i j
    rw [hs]
    simp only [norm_mul, Complex.norm_real, Real.norm_eq_abs, mul_pow, sq_abs]
    ring
  have hsq : Real.sqrt (m / M) ^ 2 * M = m := by
    rw [Real.sq_sqrt hr]
    field_simp
  have hq := Real.sqrt_nonneg (m / M)
  have hdiff : (Real.sqrt (m / M) - 1e-2) ^ 2 * M = m - M * (2e-2 * (Real.sqrt (m / M) - 5e-3)) := by
    nlinarith [hsq]
  have hge : 2.5e-5 * M ≤ m → 5e-3 ≤ Real.sqrt (m / M) := by
    intro h1
    apply Real.le_sqrt_of_sq_le
    rw [le_div_iff₀ hpos]
    norm_num at h1 ⊢
    linarith
  have hgt : 2.5e-5 * M < m → 5e-3 < Real.sqrt (m / M) := by
    intro h1
    apply Real.lt_sqrt_of_sq_lt
    rw [lt_div_iff₀ hpos]
    norm_num at h1 ⊢
    linarith
  have hlt : m < 2.5e-5 * M → Real.sqrt (m / M) < 5e-3 := by
    intro h1
    rw [Real.sqrt_lt' (by norm_num), div_lt_iff₀ hpos]
    norm_num at h1 ⊢
    linarith
  refine ⟨dn, M, by rw [hdn], hM, hpos, fun h1 i j => ?_, fun h1 i j hne => ?_, fun h1 i j hne => ?_⟩
  · rw [hnorm, hdiff]
    refine mul_le_mul_of_nonneg_right ?_ (by positivity)
    nlinarith [mul_nonneg hpos.le (sub_nonneg.2 (hge h1))]
  · rw [hnorm, hdiff]
    refine mul_lt_mul_of_pos_right ?_ (by positivity)
    nlinarith [mul_pos hpos (sub_pos.2 (hgt h1))]
  · rw [hnorm, hdiff]
    refine mul_lt_mul_of_pos_right ?_ (by positivity)
    nlinarith [mul_pos hpos (sub_pos.2 (hlt h1))]

/-- The optimisation of the negation: the Kerr witness with a uniform source producing the field `t` and the bound `m`. -/
noncomputable def aopt (S : ℂ) (m : ℝ) : Opt 2 2 :=
  { objective := Objective.mk' (intensityJ 2 2) [⟨.Ez, false, .linear_Ez⟩], simulation := psim fun _ _ => S, design_region := fun _ _ => 1, W := 1, eps_m := 5, eta := 1 / 2, beta := 1,
    max_ind_shift := some m, src_amplitudes := [], objfn_list := [], fields_current := false, field_arg_list := none }

theorem aopt_step (env : Env) (he : env.Exact) (t r : ℝ) (ht : t ≠ 0) (ht2 : t ^ 2 < 1e-10) (hr : 0 ≤ r) (hr2 : (Real.sqrt r - 1e-2) ≠ 0) (hr3 : (t * (Real.sqrt r - 1e-2)) ^ 2 < 1e-10) :
    ∃ (o' : Opt 2 2) (dn : Grid 2 2 ℝ), Opt.set_source_amplitude env (aopt (-Complex.I * (10 * t)) (r * (Real.sqrt (10 + 10 * t ^ 2) - Real.sqrt 10))) = (.ok (), o') ∧
      (o'.simulation.compute_index_shift env).1 = .ok dn ∧
      ∀ i j, dn i j = Real.sqrt (10 + 10 * (t * (Real.sqrt r - 1e-2)) ^ 2) - Real.sqrt 10 := by
  have hS : 10 * (t : ℂ) = -Complex.I * (10 * t) * Complex.I := by
    have := Complex.I_mul_I
    linear_combination 10 * (t : ℂ) * this
  obtain ⟨s1, h1, hk1⟩ := psim_index_shift env he _ t ht ht2 hS (psim fun _ _ => -Complex.I * (10 * t)) (SimKeep.refl _)
  have hD : 0 < Real.sqrt (10 + 10 * t ^ 2) - Real.sqrt 10 := by
    have : 0 < t ^ 2 := by positivity
    exact sub_pos.2 (Real.sqrt_lt_sqrt (by norm_num) (by linarith))
  generalize hDe : Real.sqrt (10 + 10 * t ^ 2) - Real.sqrt 10 = D at h1 hD
  have hmax := gridMax_uniform D hD.le
  have hratio : r * D / D = r := by field_simp
  have hset : Opt.set_source_amplitude env (aopt (-Complex.I * (10 * t)) (r * D)) = (.ok (), { aopt (-Complex.I * (10 * t)) (r * D) with
      src_amplitudes := [gridMax fun (_ : Fin 2) (_ : Fin 2) => ‖-Complex.I * (10 * (t : ℂ))‖],
      simulation := { s1 with src := fun i j => s1.src i j * ((Real.sqrt r - 1e-2 : ℝ) : ℂ) }, fields_current := false }) := by
    unfold Opt.set_source_amplitude
    simp only [aopt, h1, hmax]
    rw [if_neg (by rw [hratio, not_or]; exact ⟨hD.ne', not_lt.2 hr⟩), hratio]
    rfl
  have hsrc : s1.src = fun _ _ => -Complex.I * (10 * (t : ℂ)) := hk1.src
  have hk2 : SimKeep (psim fun _ _ => -Complex.I * (10 * (t : ℂ)) * ((Real.sqrt r - 1e-2 : ℝ) : ℂ)) ({ s1 with src := fun i j => s1.src i j * ((Real.sqrt r - 1e-2 : ℝ) : ℂ) } : Sim 2 2) := by
    rw [hsrc]
    exact hk1.withSrc _
  obtain ⟨s2, h2, -⟩ := psim_index_shift env he _ (t * (Real.sqrt r - 1e-2)) (mul_ne_zero ht hr2) hr3 (by
    push_cast at hS ⊢
    linear_combination (((Real.sqrt r : ℝ) : ℂ) - 1e-2) * hS) _ hk2
  exact ⟨_, _, hset, by rw [h2], fun _ _ => rfl⟩

theorem sqrt_shift (x : ℝ) : Real.sqrt (10 + 10 * x ^ 2) - Real.sqrt 10 = 10 * x ^ 2 / (Real.sqrt (10 + 10 * x ^ 2) + Real.sqrt 10) := by
  have h0 : 0 < Real.sqrt 10 := Real.sqrt_pos.2 (by norm_num)
  have h1 := Real.sqrt_nonneg (10 + 10 * x ^ 2)
  rw [eq_div_iff (by positivity)]
  have e1 := Real.sq_sqrt (show (0 : ℝ) ≤ 10 by norm_num)
  have e2 := Real.sq_sqrt (show (0 : ℝ) ≤ 10 + 10 * x ^ 2 by positivity)
  nlinarith

/-- **C44, negation.** A call with positive `max_ind_shift` after which the index shift, measured again by the code itself, exceeds it everywhere: the subtraction of `0.01`
flips the sign of the amplitude when the required reduction is strong. -/
theorem C44_false (env : Env) (he : env.Exact) : ∃ (o o' : Opt 2 2) (m : ℝ) (dn : Grid 2 2 ℝ), o.max_ind_shift = some m ∧ 0 < m ∧
    Opt.set_source_amplitude env o = (.ok (), o') ∧ (o'.simulation.compute_index_shift env).1 = .ok dn ∧ ∀ i j, m < dn i j := by
  have hs : Real.sqrt 1e-6 = 1e-3 := by
    rw [show (1e-6 : ℝ) = (1e-3) ^ 2 by norm_num]
    exact Real.sqrt_sq (by norm_num)
  obtain ⟨o', dn, h1, h2, h3⟩ := aopt_step env he 1e-6 1e-6 (by norm_num) (by norm_num) (by norm_num) (by rw [hs]; norm_num) (by rw [hs]; norm_num)
  have hD : 0 < Real.sqrt (10 + 10 * 1e-6 ^ 2) - Real.sqrt 10 := sub_pos.2 (Real.sqrt_lt_sqrt (by norm_num) (by norm_num))
  refine ⟨_, o', _, dn, rfl, ?_, h1, h2, fun i j => ?_⟩
  · exact mul_pos (by norm_num) hD
  · rw [h3, hs, sqrt_shift, sqrt_shift]
    have a0 : 0 < Real.sqrt 10 := Real.sqrt_pos.2 (by norm_num)
    have a1 : Real.sqrt (10 + 10 * (1e-6 * (1e-3 - 1e-2)) ^ 2) ≤ 4 := by
      rw [Real.sqrt_le_left (by norm_num)]
      norm_num
    have a2 : Real.sqrt 10 ≤ 4 := by
      rw [Real.sqrt_le_left (by norm_num)]
      norm_num
    have a3 : (3 : ℝ) ≤ Real.sqrt 10 := Real.le_sqrt_of_sq_le (by norm_num)
    have a4 : (3 : ℝ) ≤ Real.sqrt (10 + 10 * 1e-6 ^ 2) := Real.le_sqrt_of_sq_le (by norm_num)
    have b1 : (10 * 1e-6 ^ 2 : ℝ) / (Real.sqrt (10 + 10 * 1e-6 ^ 2) + Real.sqrt 10) ≤ 10 * 1e-6 ^ 2 / 6 := by
      apply div_le_div_of_nonneg_left (by norm_num) (by norm_num)
      linarith
    have b2 : (10 * (1e-6 * (1e-3 - 1e-2)) ^ 2 : ℝ) / 8 ≤ 10 * (1e-6 * (1e-3 - 1e-2)) ^ 2 / (Real.sqrt (10 + 10 * (1e-6 * (1e-3 - 1e-2)) ^ 2) + Real.sqrt 10) := by
      apply div_le_div_of_nonneg_left (by norm_num) (by positivity)
      linarith
    have b3 : (1e-6 : ℝ) * (10 * 1e-6 ^ 2 / 6) < 10 * (1e-6 * (1e-3 - 1e-2)) ^ 2 / 8 := by norm_num
    calc _ ≤ (1e-6 : ℝ) * (10 * 1e-6 ^ 2 / 6) := mul_le_mul_of_nonneg_left b1 (by norm_num)
      _ < _ := b3
      _ ≤ _ := b2

/-- The hypotheses of the partial theorem are met with a moderate reduction (`m = M/4`). -/
example (env : Env) (he : env.Exact) : ∃ (o o' : Opt 2 2) (m : ℝ), o.max_ind_shift = some m ∧ Opt.set_source_amplitude env o = (.ok (), o') := by
  have hs : Real.sqrt (1 / 4) = 1 / 2 := by
    rw [show (1 / 4 : ℝ) = (1 / 2) ^ 2 by norm_num]
    exact Real.sqrt_sq (by norm_num)
  obtain ⟨o', dn, h1, -⟩ := aopt_step env he 1e-6 (1 / 4) (by norm_num) (by norm_num) (by norm_num) (by rw [hs]; norm_num) (by rw [hs]; norm_num)
  exact ⟨_, o', _, rfl, h1⟩

end Angler
