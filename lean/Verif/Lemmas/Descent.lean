import Verif.Props.AscentPath
import Mathlib.Analysis.Calculus.ContDiff.RCLike
import Mathlib.Analysis.Calculus.MeanValue

/-! # Projected gradient ascent on twice differentiable functions of the density -/

namespace Angler

open Filter Topology

variable {Nx Ny : ℕ}

/-- The box of densities as a set. -/
def boxSet (Nx Ny : ℕ) : Set (Grid Nx Ny ℝ) := {x | Spec.Box x}

theorem boxSet_eq : boxSet Nx Ny = Set.pi Set.univ fun _ => Set.pi Set.univ fun _ => Set.Icc (0 : ℝ) 1 := by
  ext x
  simp only [boxSet, Set.mem_setOf_eq, Spec.Box, Set.mem_pi, Set.mem_univ, true_implies, Set.mem_Icc]

theorem boxSet_compact : IsCompact (boxSet Nx Ny) := by
  rw [boxSet_eq]
  exact isCompact_univ_pi fun _ => isCompact_univ_pi fun _ => isCompact_Icc

theorem boxSet_convex : Convex ℝ (boxSet Nx Ny) := by
  rw [boxSet_eq]
  exact convex_pi fun _ _ => convex_pi fun _ _ => convex_Icc 0 1

/-- The square of the sup norm is at most the sum of the squares. -/
theorem norm_sq_le_sum (d : Grid Nx Ny ℝ) : ‖d‖ ^ 2 ≤ ∑ i, ∑ j, d i j ^ 2 := by
  have h : ∀ i j, ‖d i j‖ ≤ Real.sqrt (∑ i, ∑ j, d i j ^ 2) := by
    intro i j
    refine Real.le_sqrt_of_sq_le ?_
    rw [Real.norm_eq_abs, sq_abs]
    refine (Finset.single_le_sum (f := fun j => d i j ^ 2) (fun j _ => sq_nonneg _) (Finset.mem_univ j)).trans ?_
    exact Finset.single_le_sum (f := fun i => ∑ j, d i j ^ 2) (fun i _ => Finset.sum_nonneg fun j _ => sq_nonneg _) (Finset.mem_univ i)
  have h2 : ‖d‖ ≤ Real.sqrt (∑ i, ∑ j, d i j ^ 2) :=
    (pi_norm_le_iff_of_nonneg (Real.sqrt_nonneg _)).2 fun i => (pi_norm_le_iff_of_nonneg (Real.sqrt_nonneg _)).2 fun j => h i j
  calc ‖d‖ ^ 2 ≤ Real.sqrt (∑ i, ∑ j, d i j ^ 2) ^ 2 := pow_le_pow_left₀ (norm_nonneg _) h2 2
    _ = _ := Real.sq_sqrt (Finset.sum_nonneg fun i _ => Finset.sum_nonneg fun j _ => sq_nonneg _)

/-- The derivative of a function that is twice continuously differentiable at all densities of the box is Lipschitz on the box. -/
theorem fderiv_lipschitz {F : Grid Nx Ny ℝ → ℝ} (hF : ∀ x, Spec.Box x → ContDiffAt ℝ 2 F x) :
    ∃ L : ℝ, 0 ≤ L ∧ ∀ x y, Spec.Box x → Spec.Box y → ‖fderiv ℝ F y - fderiv ℝ F x‖ ≤ L * ‖y - x‖ := by
  have h1 : ∀ x ∈ boxSet Nx Ny, ContDiffAt ℝ 1 (fderiv ℝ F) x := fun x hx => (hF x hx).fderiv_right (m := 1) (by norm_num)
  have hc : ContinuousOn (fderiv ℝ (fderiv ℝ F)) (boxSet Nx Ny) := fun x hx =>
    ((h1 x hx).fderiv_right (m := 0) (by norm_num)).continuousAt.continuousWithinAt
  obtain ⟨L, hL⟩ := IsCompact.exists_bound_of_continuousOn (E := Grid Nx Ny ℝ →L[ℝ] Grid Nx Ny ℝ →L[ℝ] ℝ) (boxSet_compact (Nx := Nx) (Ny := Ny)) hc
  refine ⟨max L 0, le_max_right _ _, fun x y hx hy => ?_⟩
  exact boxSet_convex.norm_image_sub_le_of_norm_fderiv_le (fun z hz => (h1 z hz).differentiableAt (by norm_num)) (fun z hz => (hL z hz).trans (le_max_left _ _)) hx hy

/-- The quadratic lower bound. -/
theorem descent_bound {F : Grid Nx Ny ℝ → ℝ} (hF : ∀ x, Spec.Box x → ContDiffAt ℝ 2 F x) {L : ℝ} (hL0 : 0 ≤ L)
    (hL : ∀ x y, Spec.Box x → Spec.Box y → ‖fderiv ℝ F y - fderiv ℝ F x‖ ≤ L * ‖y - x‖) {x y : Grid Nx Ny ℝ} (hx : Spec.Box x) (hy : Spec.Box y) :
    F x + fderiv ℝ F x (y - x) - L * ∑ i, ∑ j, (y i j - x i j) ^ 2 ≤ F y := by
  have hd : ∀ z ∈ segment ℝ x y, Spec.Box z := fun z hz => boxSet_convex.segment_subset hx hy hz
  have hb : ∀ z ∈ segment ℝ x y, ‖fderiv ℝ (F - ⇑(fderiv ℝ F x)) z‖ ≤ L * ‖y - x‖ := by
    intro z hz
    have hFz := (hF z (hd z hz)).differentiableAt (by norm_num)
    rw [(hFz.hasFDerivAt.sub (fderiv ℝ F x).hasFDerivAt).fderiv]
    refine (hL x z hx (hd z hz)).trans (mul_le_mul_of_nonneg_left ?_ hL0)
    exact norm_sub_le_of_mem_segment hz
  have h := (convex_segment x y).norm_image_sub_le_of_norm_fderiv_le (𝕜 := ℝ)
    (fun z hz => ((hF z (hd z hz)).differentiableAt (by norm_num)).sub (fderiv ℝ F x).differentiableAt) hb (left_mem_segment ℝ x y) (right_mem_segment ℝ x y)
  rw [Real.norm_eq_abs] at h
  have h2 := (abs_le.1 h).1
  have h3 : L * ‖y - x‖ * ‖y - x‖ ≤ L * ∑ i, ∑ j, (y i j - x i j) ^ 2 := by
    rw [mul_assoc, ← sq]
    exact mul_le_mul_of_nonneg_left (norm_sq_le_sum (y - x)) hL0
  rw [map_sub]
  simp only [Pi.sub_apply] at h2
  linarith

/-- Partial derivatives are values of the derivative. -/
theorem partials_eq_fderiv {F : Grid Nx Ny ℝ → ℝ} {x : Grid Nx Ny ℝ} (hF : DifferentiableAt ℝ F x) (i : Fin Nx) (j : Fin Ny) :
    Spec.partials F x i j = fderiv ℝ F x fun p q => if p = i ∧ q = j then 1 else 0 := by
  have hb : HasDerivAt (Spec.bump x i j) (fun p q => if p = i ∧ q = j then 1 else 0) 0 := by
    refine hasDerivAt_pi.2 fun p => hasDerivAt_pi.2 fun q => ?_
    exact hasDerivAt_bump x i j p q
  have h0 : HasFDerivAt F (fderiv ℝ F x) (Spec.bump x i j 0) := by rw [bump_zero]; exact hF.hasFDerivAt
  exact (h0.comp_hasDerivAt 0 hb).deriv

theorem fderiv_eq_partials {F : Grid Nx Ny ℝ → ℝ} {x : Grid Nx Ny ℝ} (hF : DifferentiableAt ℝ F x) (d : Grid Nx Ny ℝ) : fderiv ℝ F x d = ∑ i, ∑ j, Spec.partials F x i j * d i j := by
  have hd : d = ∑ i, ∑ j, d i j • (fun p q => if p = i ∧ q = j then 1 else 0 : Grid Nx Ny ℝ) := by
    funext p q
    simp only [Finset.sum_apply, Pi.smul_apply, smul_eq_mul]
    rw [Finset.sum_eq_single p (fun i _ hi => Finset.sum_eq_zero fun j _ => by rw [if_neg (fun hc => hi hc.1.symm), mul_zero]) (fun hc => absurd (Finset.mem_univ _) hc),
      Finset.sum_eq_single q (fun j _ hj => by rw [if_neg (fun hc => hj hc.2.symm), mul_zero]) (fun hc => absurd (Finset.mem_univ _) hc), if_pos ⟨rfl, rfl⟩, mul_one]
  conv_lhs => rw [hd]
  rw [map_sum]
  refine Finset.sum_congr rfl fun i _ => ?_
  rw [map_sum]
  refine Finset.sum_congr rfl fun j _ => ?_
  rw [map_smul, ← partials_eq_fderiv hF, smul_eq_mul, mul_comm]

/-- The projection inequality at one pixel. -/
theorem clip_step {s x g : ℝ} (hs : 0 < s) (hx : 0 ≤ x ∧ x ≤ 1) : (max 0 (min 1 (x + s * g)) - x) ^ 2 / s ≤ g * (max 0 (min 1 (x + s * g)) - x) := by
  rw [div_le_iff₀ hs]
  rcases le_total (x + s * g) 0 with h0 | h0
  · rw [min_eq_right (by linarith), max_eq_left h0]
    nlinarith
  · rcases le_total (x + s * g) 1 with h1 | h1
    · rw [min_eq_right h1, max_eq_right h0]
      nlinarith
    · rw [min_eq_left h1, max_eq_right zero_le_one]
      nlinarith

/-- One step of projected gradient ascent with a small step size. -/
theorem projected_step {F : Grid Nx Ny ℝ → ℝ} (hF : ∀ x, Spec.Box x → ContDiffAt ℝ 2 F x) {L : ℝ} (hL0 : 0 ≤ L)
    (hL : ∀ x y, Spec.Box x → Spec.Box y → ‖fderiv ℝ F y - fderiv ℝ F x‖ ≤ L * ‖y - x‖) (design : Grid Nx Ny ℝ) {s : ℝ} (hs : 0 < s) (hsL : 2 * L * s ≤ 1) {x : Grid Nx Ny ℝ} (hx : Spec.Box x) :
    let y := Spec.move design x fun i j => s * Spec.partials F x i j
    F x + 1 / (2 * s) * ∑ i, ∑ j, (y i j - x i j) ^ 2 ≤ F y := by
  intro y
  have h := descent_bound hF hL0 hL hx (box_move hx (design := design) fun i j => s * Spec.partials F x i j)
  rw [fderiv_eq_partials ((hF x hx).differentiableAt (by norm_num))] at h
  have hS : 1 / s * ∑ i, ∑ j, (y i j - x i j) ^ 2 ≤ ∑ i, ∑ j, Spec.partials F x i j * (y - x) i j := by
    rw [Finset.mul_sum]
    refine Finset.sum_le_sum fun i _ => ?_
    rw [Finset.mul_sum]
    refine Finset.sum_le_sum fun j _ => ?_
    show 1 / s * (Spec.move design x (fun i j => s * Spec.partials F x i j) i j - x i j) ^ 2 ≤ Spec.partials F x i j * (Spec.move design x (fun i j => s * Spec.partials F x i j) i j - x i j)
    unfold Spec.move
    split_ifs
    · have := clip_step (g := Spec.partials F x i j) hs (hx i j)
      rw [div_eq_inv_mul] at this
      rwa [one_div]
    · simp
  have hpos : 0 ≤ ∑ i, ∑ j, (y i j - x i j) ^ 2 := Finset.sum_nonneg fun i _ => Finset.sum_nonneg fun j _ => sq_nonneg _
  have hc : L ≤ 1 / (2 * s) := by
    rw [le_div_iff₀ (by linarith)]
    linarith
  have e : 1 / s = 1 / (2 * s) + 1 / (2 * s) := by
    field_simp
    norm_num
  have h4 : L * ∑ i, ∑ j, (y i j - x i j) ^ 2 ≤ 1 / (2 * s) * ∑ i, ∑ j, (y i j - x i j) ^ 2 := mul_le_mul_of_nonneg_right hc hpos
  rw [e, add_mul] at hS
  have h' : F x + ∑ i, ∑ j, Spec.partials F x i j * (y - x) i j - L * ∑ i, ∑ j, (y i j - x i j) ^ 2 ≤ F y := h
  linarith

end Angler
