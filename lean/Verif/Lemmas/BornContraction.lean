import Verif.Props.Solvable
import Verif.Props.NonlinearSolve
import Mathlib.Topology.MetricSpace.Contracting

/-! # Weak Kerr devices: one Born step contracts -/

namespace Angler

open Matrix

variable {Nx Ny : ℕ}

/-- By how much the permittivity term outweighs the differences. -/
noncomputable def Spec.margin (s : Sim Nx Ny) (m : ℝ) : ℝ := s.omega ^ 2 * EPSILON_0 * s.L0 * m - 8 / (MU_0 * s.L0 * s.dl ^ 2)

/-- A coarse device with focusing nonlinearities whose Kerr coefficient is at most `κ` and whose source is too weak to drive a field beyond `R`, where the Kerr change `2 κ R²` of the permittivity
stays within the margin. -/
structure Spec.WeakKerr (s : Sim Nx Ny) (m κ R : ℝ) : Prop where
  perm : ∀ i j, m ≤ (s.eps_r i j).re
  coarse : Spec.Coarse s m
  focusing : ∀ n ∈ s.nonlinearity, Spec.Focusing n s.eps_r
  kerr : ∀ i j, ‖Spec.kerrSum s.nonlinearity s.eps_r i j‖ ≤ κ
  source : ∀ i j, s.omega * ‖s.src i j‖ ≤ Spec.margin s m * R
  weak : 2 * (s.omega ^ 2 * EPSILON_0 * s.L0) * κ * R ^ 2 < Spec.margin s m

/-- The contraction factor. -/
noncomputable def Spec.bornRate (s : Sim Nx Ny) (m κ R : ℝ) : ℝ := 2 * (s.omega ^ 2 * EPSILON_0 * s.L0) * κ * R ^ 2 / Spec.margin s m

theorem margin_pos {s : Sim Nx Ny} {m : ℝ} (h : Spec.Coarse s m) : 0 < Spec.margin s m := by
  have := h.2
  unfold Spec.margin
  linarith

theorem Spec.WeakKerr.R_nonneg {s : Sim Nx Ny} {m κ R : ℝ} (h : Spec.WeakKerr s m κ R) (hv : s.Valid) (hx : 1 < Nx) (hy : 1 < Ny) : 0 ≤ R := by
  have h1 := h.source ⟨0, by omega⟩ ⟨0, by omega⟩
  have h2 : 0 ≤ s.omega * ‖s.src ⟨0, by omega⟩ ⟨0, by omega⟩‖ := mul_nonneg hv.omega_pos.le (norm_nonneg _)
  have h3 := margin_pos h.coarse
  by_contra h4
  nlinarith

theorem Spec.WeakKerr.kappa_nonneg {s : Sim Nx Ny} {m κ R : ℝ} (h : Spec.WeakKerr s m κ R) (hx : 1 < Nx) (hy : 1 < Ny) : 0 ≤ κ :=
  (norm_nonneg _).trans (h.kerr ⟨0, by omega⟩ ⟨0, by omega⟩)

theorem Spec.WeakKerr.rate_mem {s : Sim Nx Ny} {m κ R : ℝ} (h : Spec.WeakKerr s m κ R) (hv : s.Valid) (hx : 1 < Nx) (hy : 1 < Ny) : 0 ≤ Spec.bornRate s m κ R ∧ Spec.bornRate s m κ R < 1 := by
  have hc : 0 ≤ s.omega ^ 2 * EPSILON_0 * s.L0 := by have := EPSILON_0_pos; have := hv.L0_pos; positivity
  have hk := h.kappa_nonneg hx hy
  have hm := margin_pos h.coarse
  exact ⟨by unfold Spec.bornRate; positivity, (div_lt_one hm).2 h.weak⟩

/-- The field of one pass of the Born loop solves the frozen system. -/
theorem bornStep_solves {env : Env} (he : env.Exact) {s : Sim Nx Ny} (F : Grid Nx Ny ℂ) (hdet : (bornMat s F).det ≠ 0) : bornMat s F *ᵥ flatten (bornStep env s F).2.2 = s.rhs := by
  rw [bornStep_third, flatten_unflatten]
  exact solver_direct_spec he (Or.inl hdet)

theorem Spec.WeakKerr.bornMat_det {s : Sim Nx Ny} {m κ R : ℝ} (h : Spec.WeakKerr s m κ R) (hv : s.Valid) (hp : s.pol = .Ez) (hx : 1 < Nx) (hy : 1 < Ny) (F : Grid Nx Ny ℂ) :
    (bornMat s F).det ≠ 0 := by
  have := C75_coarse_frozen s hv hp hx hy m h.perm h.coarse h.focusing F
  rwa [compute_nl_Anl] at this

/-- A solution of the system frozen at `F`, with right-hand side `b`, is at most `‖b‖` over the margin. -/
theorem Spec.WeakKerr.frozen_bound {s : Sim Nx Ny} {m κ R : ℝ} (h : Spec.WeakKerr s m κ R) (hv : s.Valid) (hp : s.pol = .Ez) (hx : 1 < Nx) (hy : 1 < Ny) (F f b : Grid Nx Ny ℂ)
    (hf : bornMat s F *ᵥ flatten f = flatten b) : Spec.margin s m * ‖f‖ ≤ ‖b‖ := by
  refine stable_Ez s hv hp h.coarse.1 hx hy f
    (fun i j => ((s.omega ^ 2 * EPSILON_0 * s.L0 : ℝ) : ℂ) * (Spec.kerrSum s.nonlinearity s.eps_r i j * ((‖F i j‖ ^ 2 : ℝ) : ℂ)) * f i j) b (s.omega ^ 2 * EPSILON_0 * s.L0 * m) (fun i j => ?_) ?_
  · rw [show ∀ c e k x : ℂ, c * e * x + c * k * x = c * (e + k) * x from fun c e k x => by ring]
    refine norm_permittivity_ge s hv m _ _ (le_trans ?_ (Complex.re_le_norm _))
    rw [Complex.add_re, Complex.re_mul_ofReal]
    have := mul_nonneg (kerrSum_re _ _ h.focusing i j) (sq_nonneg ‖F i j‖)
    linarith [h.perm i j]
  · rw [← hf, bornMat_spdiag, Matrix.add_mulVec, spdiag_mulVec]
    rfl

/-- Every field of one pass lies in the ball of radius `R`. -/
theorem Spec.WeakKerr.step_bound {s : Sim Nx Ny} {m κ R : ℝ} (h : Spec.WeakKerr s m κ R) {env : Env} (he : env.Exact) (hv : s.Valid) (hp : s.pol = .Ez) (hx : 1 < Nx) (hy : 1 < Ny)
    (F : Grid Nx Ny ℂ) : ‖(bornStep env s F).2.2‖ ≤ R := by
  have h1 := h.frozen_bound hv hp hx hy F (bornStep env s F).2.2 (fun i j => s.src i j * Complex.I * s.omega) (bornStep_solves he F (h.bornMat_det hv hp hx hy F))
  have hm := margin_pos h.coarse
  have hR := h.R_nonneg hv hx hy
  refine le_of_mul_le_mul_left (h1.trans ?_) hm
  refine (pi_norm_le_iff_of_nonneg (by positivity)).2 fun i => (pi_norm_le_iff_of_nonneg (by positivity)).2 fun j => ?_
  rw [norm_mul, norm_mul, Complex.norm_I, mul_one, Complex.norm_real, Real.norm_of_nonneg hv.omega_pos.le, mul_comm]
  exact h.source i j

theorem sq_diff_le {a b R : ℝ} (ha : 0 ≤ a) (hb : 0 ≤ b) (haR : a ≤ R) (hbR : b ≤ R) {d : ℝ} (hd : |a - b| ≤ d) : |a ^ 2 - b ^ 2| ≤ 2 * R * d := by
  rw [show a ^ 2 - b ^ 2 = (a + b) * (a - b) by ring, abs_mul, abs_of_nonneg (by linarith)]
  exact mul_le_mul (by linarith) hd (abs_nonneg _) (by linarith)

/-- One pass contracts the ball of radius `R`. -/
theorem Spec.WeakKerr.step_contracts {s : Sim Nx Ny} {m κ R : ℝ} (h : Spec.WeakKerr s m κ R) {env : Env} (he : env.Exact) (hv : s.Valid) (hp : s.pol = .Ez) (hx : 1 < Nx) (hy : 1 < Ny)
    (F G : Grid Nx Ny ℂ) (hF : ‖F‖ ≤ R) (hG : ‖G‖ ≤ R) : ‖(bornStep env s F).2.2 - (bornStep env s G).2.2‖ ≤ Spec.bornRate s m κ R * ‖F - G‖ := by
  set f := (bornStep env s F).2.2 with hfdef
  set g := (bornStep env s G).2.2 with hgdef
  have hsf : bornMat s F *ᵥ flatten f = s.rhs := bornStep_solves he F (h.bornMat_det hv hp hx hy F)
  have hsg : bornMat s G *ᵥ flatten g = s.rhs := bornStep_solves he G (h.bornMat_det hv hp hx hy G)
  have hgR : ‖g‖ ≤ R := h.step_bound he hv hp hx hy G
  have hm := margin_pos h.coarse
  have hR := h.R_nonneg hv hx hy
  have hk := h.kappa_nonneg hx hy
  set c : ℝ := s.omega ^ 2 * EPSILON_0 * s.L0 with hcdef
  have hc : 0 ≤ c := by have := EPSILON_0_pos; have := hv.L0_pos; positivity
  have hb := h.frozen_bound hv hp hx hy F (f - g)
    (fun i j => (c : ℂ) * (Spec.kerrSum s.nonlinearity s.eps_r i j * ((‖G i j‖ ^ 2 - ‖F i j‖ ^ 2 : ℝ) : ℂ)) * g i j) (by
      have e : flatten (f - g) = flatten f - flatten g := rfl
      rw [e, Matrix.mulVec_sub, hsf, ← hsg, bornMat_spdiag, bornMat_spdiag, Matrix.add_mulVec, Matrix.add_mulVec, spdiag_mulVec, spdiag_mulVec]
      refine flat_ext fun i j => ?_
      simp only [Pi.sub_apply, Pi.add_apply, flatten_pair, hcdef]
      push_cast
      ring)
  unfold Spec.bornRate
  rw [div_mul_eq_mul_div, le_div_iff₀ hm, mul_comm]
  refine hb.trans ?_
  refine (pi_norm_le_iff_of_nonneg (by positivity)).2 fun i => (pi_norm_le_iff_of_nonneg (by positivity)).2 fun j => ?_
  have h1 : |‖G i j‖ ^ 2 - ‖F i j‖ ^ 2| ≤ 2 * R * ‖F - G‖ := by
    refine sq_diff_le (norm_nonneg _) (norm_nonneg _) ((norm_entry_le _ _ _).trans hG) ((norm_entry_le _ _ _).trans hF) ?_
    refine (abs_norm_sub_norm_le _ _).trans ?_
    rw [norm_sub_rev]
    exact norm_entry_le (F - G) i j
  rw [norm_mul, norm_mul, norm_mul, Complex.norm_real, Complex.norm_real, Real.norm_of_nonneg hc, Real.norm_eq_abs]
  have h2 := h.kerr i j
  have h3 : ‖g i j‖ ≤ R := (norm_entry_le _ _ _).trans hgR
  calc c * (‖Spec.kerrSum s.nonlinearity s.eps_r i j‖ * |‖G i j‖ ^ 2 - ‖F i j‖ ^ 2|) * ‖g i j‖ ≤ c * (κ * (2 * R * ‖F - G‖)) * R := by gcongr
    _ = 2 * c * κ * R ^ 2 * ‖F - G‖ := by ring

/-- The nonlinear equation says that a Born pass does not move the field. -/
theorem nlResidual_zero_iff {env : Env} (he : env.Exact) (s : Sim Nx Ny) (F : Grid Nx Ny ℂ) (hdet : (bornMat s F).det ≠ 0) :
    (∀ i j, Spec.nlResidual s F i j = 0) ↔ (bornStep env s F).2.2 = F := by
  have key : (∀ i j, Spec.nlResidual s F i j = 0) ↔ bornMat s F *ᵥ flatten F = s.rhs := by
    rw [bornMat_spdiag, Matrix.add_mulVec, spdiag_mulVec]
    constructor
    · intro h
      refine flat_ext fun i j => ?_
      have h1 := h i j
      unfold Spec.nlResidual at h1
      have hr : s.rhs (finProdFinEquiv (i, j)) = s.src i j * Complex.I * s.omega := by simp only [Sim.rhs, flatten_pair]
      rw [hr, Pi.add_apply, flatten_pair, flatten_pair]
      push_cast at h1 ⊢
      linear_combination h1
    · intro h i j
      have h1 := congrFun h (finProdFinEquiv (i, j))
      have hr : s.rhs (finProdFinEquiv (i, j)) = s.src i j * Complex.I * s.omega := by simp only [Sim.rhs, flatten_pair]
      rw [hr, Pi.add_apply, flatten_pair, flatten_pair] at h1
      unfold Spec.nlResidual
      push_cast at h1 ⊢
      linear_combination h1
  rw [key, bornStep_third]
  constructor
  · intro h
    rw [solver_direct_unique he hdet h, unflatten_flatten]
  · intro h
    have h1 := bornStep_solves he F hdet
    rwa [bornStep_third, h] at h1

/-- There is a field solving the nonlinear equation. -/
theorem Spec.WeakKerr.exists_fixed {s : Sim Nx Ny} {m κ R : ℝ} (h : Spec.WeakKerr s m κ R) {env : Env} (he : env.Exact) (hv : s.Valid) (hp : s.pol = .Ez) (hx : 1 < Nx) (hy : 1 < Ny) :
    ∃ Z, (bornStep env s Z).2.2 = Z := by
  obtain ⟨hq0, hq1⟩ := h.rate_mem hv hx hy
  have hR := h.R_nonneg hv hx hy
  set T : Grid Nx Ny ℂ → Grid Nx Ny ℂ := fun F => (bornStep env s F).2.2 with hT
  set B := Metric.closedBall (0 : Grid Nx Ny ℂ) R with hB
  have hmaps : Set.MapsTo T B B := fun F _ => by
    rw [hB, mem_closedBall_zero_iff]
    exact h.step_bound he hv hp hx hy F
  have hcon : ContractingWith ⟨Spec.bornRate s m κ R, hq0⟩ (hmaps.restrict T B B) := by
    refine ⟨by exact_mod_cast hq1, LipschitzWith.of_dist_le_mul fun x y => ?_⟩
    rw [Subtype.dist_eq, Subtype.dist_eq, dist_eq_norm, dist_eq_norm]
    exact h.step_contracts he hv hp hx hy x y (mem_closedBall_zero_iff.1 x.2) (mem_closedBall_zero_iff.1 y.2)
  obtain ⟨y, -, hy, -⟩ := hcon.exists_fixedPoint' (Metric.isClosed_closedBall.isComplete) hmaps (x := 0) (by rw [hB, mem_closedBall_zero_iff, norm_zero]; exact hR) (edist_ne_top _ _)
  exact ⟨y, hy⟩

end Angler
