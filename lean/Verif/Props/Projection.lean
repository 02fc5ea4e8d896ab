import Verif.Model.Filter
import Verif.Lemmas.Tanh

/-! # C01–C04: projection and the density / permittivity parametrisation -/

namespace Angler

open Filter Topology

/-! ## C01 -/

/-- The denominator of the projection is positive for each threshold `eta` (also outside `[0,1]`). -/
theorem rhot2rhob_den_pos (eta beta : ℝ) (hb : 0 < beta) :
    0 < Real.tanh (beta * eta) + Real.tanh (beta * (1 - eta)) := by
  have h : -(beta * eta) < beta * (1 - eta) := by linarith [mul_sub beta 1 eta]
  have := tanh_strictMono h
  rw [Real.tanh_neg] at this
  linarith

/-- C01: endpoints, strict monotonicity, invariance of `[0,1]`, and physical permittivity. -/
theorem C01_projection_physical (eta beta : ℝ) (hb : 0 < beta) :
    rhot2rhob 0 eta beta = 0 ∧ rhot2rhob 1 eta beta = 1 ∧ StrictMono (fun r => rhot2rhob r eta beta) ∧
    (∀ r ∈ Set.Icc (0 : ℝ) 1, rhot2rhob r eta beta ∈ Set.Icc (0 : ℝ) 1) ∧
    ∀ eps_m, 1 ≤ eps_m → ∀ r ∈ Set.Icc (0 : ℝ) 1, rhob2eps (rhot2rhob r eta beta) eps_m ∈ Set.Icc 1 eps_m := by
  have hd := rhot2rhob_den_pos eta beta hb
  have h0 : rhot2rhob 0 eta beta = 0 := by
    have : beta * (0 - eta) = -(beta * eta) := by ring
    simp [rhot2rhob, Real.tanh_neg]
  have h1 : rhot2rhob 1 eta beta = 1 := div_self hd.ne'
  have hm : StrictMono (fun r => rhot2rhob r eta beta) := by
    intro a b hab
    apply div_lt_div_of_pos_right _ hd
    have : beta * (a - eta) < beta * (b - eta) := mul_lt_mul_of_pos_left (by linarith) hb
    linarith [tanh_strictMono this]
  have hI : ∀ r ∈ Set.Icc (0 : ℝ) 1, rhot2rhob r eta beta ∈ Set.Icc (0 : ℝ) 1 := by
    intro r hr
    refine ⟨?_, ?_⟩
    · rw [← h0]; exact hm.monotone hr.1
    · calc rhot2rhob r eta beta ≤ rhot2rhob 1 eta beta := hm.monotone hr.2
        _ = 1 := h1
  refine ⟨h0, h1, hm, hI, fun em hem r hr => ?_⟩
  have := hI r hr
  refine ⟨?_, ?_⟩ <;> unfold rhob2eps <;> nlinarith [this.1, this.2]

/-- Non-vacuity: the default parameters of `Optimization`. -/
example : rhot2rhob 0 0.5 1e-6 = 0 ∧ rhot2rhob (1 / 4) 0.5 100 < rhot2rhob (1 / 2) 0.5 100 :=
  ⟨(C01_projection_physical 0.5 1e-6 (by norm_num)).1,
   (C01_projection_physical 0.5 100 (by norm_num)).2.2.1 (by norm_num)⟩

/-! ## C02 -/

/-- C02: `drhob_drhot` is the derivative of `rhot2rhob`, for `beta ≠ 0` (at `beta = 0` the code divides 0 by 0). -/
theorem C02_projection_derivative (eta beta r : ℝ) (_hb : beta ≠ 0) :
    HasDerivAt (fun x => rhot2rhob x eta beta) (drhob_drhot r eta beta) r := by
  have h0 : HasDerivAt (fun x : ℝ => beta * (x - eta)) beta r := by
    simpa using ((hasDerivAt_id r).sub_const eta).const_mul beta
  have h1 := (hasDerivAt_tanh (beta * (r - eta))).comp r h0
  have h2 := (h1.const_add (Real.tanh (beta * eta))).div_const (Real.tanh (beta * eta) + Real.tanh (beta * (1 - eta)))
  refine h2.congr_deriv ?_
  unfold drhob_drhot
  ring

/-- Non-vacuity: at the threshold the slope for `beta = 2`, `eta = 1/2` is `2 / (2 tanh 1) > 1`. -/
example : drhob_drhot 0.5 0.5 2 = 2 / (Real.tanh 1 + Real.tanh 1) := by
  norm_num [drhob_drhot]

/-! ## C03 -/

/-- C03, first half: as `beta → 0` the projection tends to the identity. -/
theorem C03_beta_zero (eta r : ℝ) : Tendsto (fun beta => rhot2rhob r eta beta) (𝓝[≠] 0) (𝓝 r) := by
  have hn := (tanh_mul_div_tendsto eta).add (tanh_mul_div_tendsto (r - eta))
  have hd := (tanh_mul_div_tendsto eta).add (tanh_mul_div_tendsto (1 - eta))
  have h := hn.div hd (by ring_nf; norm_num)
  have e : (eta + (r - eta)) / (eta + (1 - eta)) = r := by ring
  rw [e] at h
  refine h.congr' ?_
  filter_upwards [self_mem_nhdsWithin] with b hb
  have hb' : b ≠ 0 := hb
  simp only [Pi.div_apply]
  rw [← add_div, ← add_div, div_div_div_cancel_right₀ hb']
  rfl

/-- C03, second half: as `beta → ∞` the projection is a hard threshold at `eta ∈ (0,1)`. -/
theorem C03_beta_infinity (eta r : ℝ) (h0 : 0 < eta) (h1 : eta < 1) :
    (r < eta → Tendsto (fun beta => rhot2rhob r eta beta) atTop (𝓝 0)) ∧
    (eta < r → Tendsto (fun beta => rhot2rhob r eta beta) atTop (𝓝 1)) ∧
    (r = eta → Tendsto (fun beta => rhot2rhob r eta beta) atTop (𝓝 (1 / 2))) := by
  have pos : ∀ a : ℝ, 0 < a → Tendsto (fun b : ℝ => Real.tanh (b * a)) atTop (𝓝 1) := fun a ha =>
    tanh_tendsto_atTop.comp (tendsto_id.atTop_mul_const ha)
  have hd := (pos eta h0).add (pos (1 - eta) (by linarith))
  refine ⟨fun h => ?_, fun h => ?_, fun h => ?_⟩
  · have hneg : Tendsto (fun b : ℝ => Real.tanh (b * (r - eta))) atTop (𝓝 (-1)) :=
      tanh_tendsto_atBot.comp (tendsto_id.atTop_mul_const_of_neg (by linarith))
    have := ((pos eta h0).add hneg).div hd (by norm_num)
    norm_num at this
    exact this
  · have := ((pos eta h0).add (pos (r - eta) (by linarith))).div hd (by norm_num)
    norm_num at this
    exact this
  · subst h
    have := (pos r h0).div hd (by norm_num)
    norm_num at this
    refine this.congr fun b => ?_
    simp [rhot2rhob]

/-- C03: both limits. -/
theorem C03_projection_limits (eta r : ℝ) :
    Tendsto (fun beta => rhot2rhob r eta beta) (𝓝[>] 0) (𝓝 r) ∧
    (0 < eta → eta < 1 → r < eta → Tendsto (fun beta => rhot2rhob r eta beta) atTop (𝓝 0)) ∧
    (0 < eta → eta < 1 → eta < r → Tendsto (fun beta => rhot2rhob r eta beta) atTop (𝓝 1)) :=
  ⟨(C03_beta_zero eta r).mono_left (nhdsWithin_mono _ fun _ hx => ne_of_gt hx),
   fun a b => (C03_beta_infinity eta r a b).1, fun a b => (C03_beta_infinity eta r a b).2.1⟩

/-- Non-vacuity: density `0.7` with threshold `0.5` is rounded up. -/
example : Tendsto (fun beta => rhot2rhob 0.7 0.5 beta) atTop (𝓝 1) :=
  (C03_projection_limits 0.5 0.7).2.2 (by norm_num) (by norm_num) (by norm_num)

/-! ## C04 -/

/-- C04 for `filter.py`: mutually inverse, and range equivalence. -/
theorem C04_density_permittivity_inverse (eps_m : ℝ) (h : eps_m ≠ 1) :
    (∀ eps, rhob2eps (eps2rho eps eps_m) eps_m = eps) ∧ (∀ rho, eps2rho (rhob2eps rho eps_m) eps_m = rho) ∧
    (1 < eps_m → ∀ eps, eps ∈ Set.Icc 1 eps_m ↔ eps2rho eps eps_m ∈ Set.Icc (0 : ℝ) 1) := by
  have h' : eps_m - 1 ≠ 0 := sub_ne_zero.2 h
  refine ⟨fun e => ?_, fun r => ?_, fun hm e => ?_⟩
  · unfold rhob2eps eps2rho; field_simp; ring
  · unfold rhob2eps eps2rho; field_simp; ring
  · have hp : 0 < eps_m - 1 := by linarith
    unfold eps2rho
    simp only [Set.mem_Icc, div_nonneg_iff, div_le_one hp]
    constructor
    · rintro ⟨a, b⟩; exact ⟨Or.inl ⟨by linarith, by linarith⟩, by linarith⟩
    · rintro ⟨a, b⟩
      rcases a with a | a
      · exact ⟨by linarith, by linarith⟩
      · exact absurd a.2 (by linarith)

/-- Non-vacuity: silicon-like `eps_m = 12.25`, `eps = 6.625` is the halfway density. -/
example : eps2rho 6.625 12.25 = 1 / 2 ∧ rhob2eps (1 / 2) 12.25 = 6.625 := by
  constructor <;> norm_num [eps2rho, rhob2eps]

end Angler
