import Mathlib.Analysis.SpecialFunctions.Trigonometric.DerivHyp
import Mathlib.Analysis.SpecialFunctions.Artanh
import Mathlib.Analysis.Calculus.Deriv.Slope

/-! # Facts about `tanh` -/

namespace Angler

open Filter Topology

theorem hasDerivAt_tanh (x : ℝ) : HasDerivAt Real.tanh (1 - Real.tanh x ^ 2) x := by
  have h := (Real.hasDerivAt_sinh x).div (Real.hasDerivAt_cosh x) (Real.cosh_pos x).ne'
  have e : (Real.sinh / Real.cosh) = Real.tanh := by
    funext y; simp [Real.tanh_eq_sinh_div_cosh]
  rw [e] at h
  refine h.congr_deriv ?_
  rw [Real.tanh_eq_sinh_div_cosh]
  have := (Real.cosh_pos x).ne'
  field_simp

theorem tanh_strictMono : StrictMono Real.tanh := by
  apply strictMono_of_deriv_pos
  intro x
  rw [(hasDerivAt_tanh x).deriv]
  have := Real.tanh_sq_lt_one x
  linarith

theorem tanh_pos {x : ℝ} (h : 0 < x) : 0 < Real.tanh x := by
  simpa using tanh_strictMono h

theorem tanh_tendsto_atTop : Tendsto Real.tanh atTop (𝓝 1) := by
  have e : ∀ x : ℝ, Real.tanh x = 1 - 2 / (Real.exp (2 * x) + 1) := by
    intro x
    have h1 : Real.exp (2 * x) = Real.exp x * Real.exp x := by rw [← Real.exp_add]; ring_nf
    have h2 : 0 < Real.exp x := Real.exp_pos x
    rw [Real.tanh_eq, h1, Real.exp_neg]
    have h3 : Real.exp x * Real.exp x + 1 ≠ 0 := by positivity
    have h4 : Real.exp x + (Real.exp x)⁻¹ ≠ 0 := by positivity
    field_simp
    ring
  have h : Tendsto (fun x : ℝ => 1 - 2 / (Real.exp (2 * x) + 1)) atTop (𝓝 (1 - 0)) := by
    apply Tendsto.sub tendsto_const_nhds
    apply Tendsto.div_atTop tendsto_const_nhds
    apply tendsto_atTop_add_const_right
    exact Real.tendsto_exp_atTop.comp (tendsto_id.const_mul_atTop (by norm_num))
  rw [sub_zero] at h
  exact h.congr fun x => (e x).symm

theorem tanh_tendsto_atBot : Tendsto Real.tanh atBot (𝓝 (-1)) := by
  have := (tanh_tendsto_atTop.comp tendsto_neg_atBot_atTop).neg
  exact this.congr fun x => by simp [Real.tanh_neg]

/-- `tanh (β a) / β → a` as `β → 0`. -/
theorem tanh_mul_div_tendsto (a : ℝ) : Tendsto (fun b : ℝ => Real.tanh (b * a) / b) (𝓝[≠] 0) (𝓝 a) := by
  have h : HasDerivAt (fun b : ℝ => Real.tanh (b * a)) a 0 := by
    have h0 : HasDerivAt (fun b : ℝ => b * a) a 0 := by simpa using (hasDerivAt_id (0 : ℝ)).mul_const a
    have h1 := (hasDerivAt_tanh (0 * a)).comp (0 : ℝ) h0
    simpa [Function.comp_def] using h1
  have := hasDerivAt_iff_tendsto_slope.1 h
  refine this.congr fun b => ?_
  simp [slope_def_field]

end Angler
