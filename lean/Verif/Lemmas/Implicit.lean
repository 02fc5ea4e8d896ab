import Verif.Lemmas.Sim
import Mathlib.Analysis.Calculus.Deriv.Slope
import Mathlib.Analysis.Calculus.Deriv.Pi
import Mathlib.Analysis.Calculus.Deriv.Add
import Mathlib.Topology.Instances.Matrix
import Mathlib.Analysis.Complex.Basic

/-! # Differentiating the solution of a linear system -/

namespace Angler

open Matrix Filter Topology

variable {𝕜 : Type*} [RCLike 𝕜] {ι : Type*} [Fintype ι] [DecidableEq ι]

theorem continuousAt_matrix_det {A : ℝ → Matrix ι ι 𝕜} (hA : ContinuousAt A 0) : ContinuousAt (fun t => (A t).det) 0 :=
  ContinuousAt.comp (g := fun M : Matrix ι ι 𝕜 => M.det) (Continuous.matrix_det continuous_id).continuousAt hA

theorem continuousAt_matrix_inv {A : ℝ → Matrix ι ι 𝕜} (hA : ContinuousAt A 0) (hdet : (A 0).det ≠ 0) :
    ContinuousAt (fun t => (A t)⁻¹) 0 := by
  have e : (fun t => (A t)⁻¹) = fun t => ((A t).det)⁻¹ • (A t).adjugate := by
    funext t
    rw [Matrix.inv_def, Ring.inverse_eq_inv']
  rw [e]
  have hd := continuousAt_matrix_det hA
  have ha : ContinuousAt (fun t => (A t).adjugate) 0 :=
    ContinuousAt.comp (g := fun M : Matrix ι ι 𝕜 => M.adjugate) (Continuous.matrix_adjugate continuous_id).continuousAt hA
  exact (hd.inv₀ hdet).smul ha

/-- The matrix of slopes. -/
noncomputable def slopeMat (A : ℝ → Matrix ι ι 𝕜) (t : ℝ) : Matrix ι ι 𝕜 := (t⁻¹ : ℝ) • (A t - A 0)

theorem tendsto_slopeMat {A : ℝ → Matrix ι ι 𝕜} {A' : Matrix ι ι 𝕜} (hA : ∀ i j, HasDerivAt (fun t => A t i j) (A' i j) 0) :
    Tendsto (slopeMat A) (𝓝[≠] 0) (𝓝 A') := by
  refine tendsto_pi_nhds.2 fun i => tendsto_pi_nhds.2 fun j => ?_
  have h := hasDerivAt_iff_tendsto_slope.1 (hA i j)
  refine h.congr fun t => ?_
  simp [slopeMat, slope, Matrix.sub_apply, Matrix.smul_apply]

theorem tendsto_mulVec {l : Filter ℝ} {M : ℝ → Matrix ι ι 𝕜} {M0 : Matrix ι ι 𝕜} {v : ℝ → ι → 𝕜} {v0 : ι → 𝕜} (hM : Tendsto M l (𝓝 M0))
    (hv : Tendsto v l (𝓝 v0)) : Tendsto (fun t => M t *ᵥ v t) l (𝓝 (M0 *ᵥ v0)) := by
  refine tendsto_pi_nhds.2 fun i => ?_
  have hMij : ∀ j, Tendsto (fun t => M t i j) l (𝓝 (M0 i j)) := fun j => tendsto_pi_nhds.1 (tendsto_pi_nhds.1 hM i) j
  exact tendsto_finset_sum _ fun j _ => (hMij j).mul (tendsto_pi_nhds.1 hv j)

theorem slope_solve {A : ℝ → Matrix ι ι 𝕜} {x : ℝ → ι → 𝕜} {b : ι → 𝕜} (hx0 : A 0 *ᵥ x 0 = b) {t : ℝ} (h1 : A t *ᵥ x t = b) (h2 : (A t).det ≠ 0) :
    -((A t)⁻¹ *ᵥ (slopeMat A t *ᵥ x 0)) = slope x 0 t := by
  have hu : IsUnit (A t).det := isUnit_iff_ne_zero.2 h2
  have e1 : A t *ᵥ (x t - x 0) = -((A t - A 0) *ᵥ x 0) := by
    rw [Matrix.mulVec_sub, h1, Matrix.sub_mulVec, hx0, neg_sub]
  have e2 : x t - x 0 = -((A t)⁻¹ *ᵥ ((A t - A 0) *ᵥ x 0)) := by
    rw [← Matrix.mulVec_neg, ← e1, Matrix.mulVec_mulVec, Matrix.nonsing_inv_mul _ hu, Matrix.one_mulVec]
  rw [slopeMat, slope, vsub_eq_sub, e2, sub_zero, Matrix.smul_mulVec, Matrix.mulVec_smul, smul_neg]

/-- If `A(t) x(t) = b` near `0`, `A` is differentiable and `A(0)` nonsingular, then `x` is differentiable and `A(0) x' = -A' x(0)`. -/
theorem hasDerivAt_linear_solve {A : ℝ → Matrix ι ι 𝕜} {A' : Matrix ι ι 𝕜} (hA : ∀ i j, HasDerivAt (fun t => A t i j) (A' i j) 0)
    (hdet : (A 0).det ≠ 0) {x : ℝ → ι → 𝕜} {b : ι → 𝕜} (hx : ∀ᶠ t in 𝓝 (0 : ℝ), A t *ᵥ x t = b) :
    HasDerivAt x (-((A 0)⁻¹ *ᵥ (A' *ᵥ x 0))) 0 := by
  have hcont : ContinuousAt A 0 := continuousAt_pi.2 fun i => continuousAt_pi.2 fun j => (hA i j).continuousAt
  have hdet' : ∀ᶠ t in 𝓝 (0 : ℝ), (A t).det ≠ 0 := (continuousAt_matrix_det hcont).eventually_ne hdet
  rw [hasDerivAt_iff_tendsto_slope]
  have key : ∀ᶠ t in 𝓝[≠] (0 : ℝ), -((A t)⁻¹ *ᵥ (slopeMat A t *ᵥ x 0)) = slope x 0 t := by
    filter_upwards [hx.filter_mono nhdsWithin_le_nhds, hdet'.filter_mono nhdsWithin_le_nhds] with t h1 h2
    exact slope_solve hx.self_of_nhds h1 h2
  refine Tendsto.congr' key ?_
  have hinv' : Tendsto (fun t => (A t)⁻¹) (𝓝[≠] 0) (𝓝 (A 0)⁻¹) := (continuousAt_matrix_inv hcont hdet).tendsto.mono_left nhdsWithin_le_nhds
  exact (tendsto_mulVec hinv' (tendsto_mulVec (tendsto_slopeMat hA) tendsto_const_nhds)).neg

/-- The adjoint identity: with `A(0)ᵀ a = -p`, the directional derivative `p · x'` is `a · (A' x(0))`. -/
theorem adjoint_identity {A : Matrix ι ι 𝕜} (hdet : A.det ≠ 0) {a p w : ι → 𝕜} (ha : Aᵀ *ᵥ a = -p) :
    p ⬝ᵥ (-(A⁻¹ *ᵥ w)) = a ⬝ᵥ w := by
  have hu : IsUnit A.det := isUnit_iff_ne_zero.2 hdet
  have hp : p = -(Aᵀ *ᵥ a) := by rw [ha, neg_neg]
  rw [hp, neg_dotProduct, dotProduct_neg, neg_neg, Matrix.mulVec_transpose, ← Matrix.dotProduct_mulVec, Matrix.mulVec_mulVec,
    Matrix.mul_nonsing_inv _ hu, Matrix.one_mulVec]

end Angler
