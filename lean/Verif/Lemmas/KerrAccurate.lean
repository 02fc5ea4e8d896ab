import Verif.Props.GradientApprox

/-! # How far the computed Kerr gradient is from the exact one -/

namespace Angler

open Matrix

variable {Nx Ny : ℕ}

/-- The linearised Kerr operator with stored field `E` and stored state `E2`. -/
theorem kerrD_mulVec (s : Sim Nx Ny) (E2 E h : Grid Nx Ny ℂ) (hreal : ∀ i j, (Spec.kerrSum s.nonlinearity s.eps_r i j).im = 0) (i : Fin Nx) (j : Fin Ny) :
    (kerrD11 s E2 E *ᵥ flatten h + kerrD12 s E2 E *ᵥ fun k => (starRingEnd ℂ) (flatten h k)) (finProdFinEquiv (i, j)) =
      (bornMat s E2 *ᵥ flatten h) (finProdFinEquiv (i, j)) + ((s.omega ^ 2 * EPSILON_0 * s.L0 : ℝ) : ℂ) * Spec.kerrSum s.nonlinearity s.eps_r i j *
        ((starRingEnd ℂ) (E2 i j) * E i j * h i j + E2 i j * E i j * (starRingEnd ℂ) (h i j)) := by
  unfold kerrD11 kerrD12 bornMat
  rw [Matrix.add_mulVec, spdiag_mulVec, spdiag_mulVec]
  have hc := Complex.conj_eq_iff_im.2 (hreal i j)
  simp only [Pi.add_apply, flatten_pair, compute_nl_dnl_de, map_mul, map_pow, Complex.conj_conj, Complex.conj_ofReal, hc]
  push_cast
  ring

theorem bornMat_mulVec_pair (s : Sim Nx Ny) (E2 h : Grid Nx Ny ℂ) (i : Fin Nx) (j : Fin Ny) :
    (bornMat s E2 *ᵥ flatten h) (finProdFinEquiv (i, j)) = (s.A *ᵥ flatten h) (finProdFinEquiv (i, j)) +
      ((s.omega ^ 2 * EPSILON_0 * s.L0 : ℝ) : ℂ) * Spec.kerrSum s.nonlinearity s.eps_r i j * (E2 i j * (starRingEnd ℂ) (E2 i j)) * h i j := by
  have hn : (((‖E2 i j‖ ^ 2 : ℝ)) : ℂ) = E2 i j * (starRingEnd ℂ) (E2 i j) := by
    rw [← Complex.normSq_eq_norm_sq, ← Complex.mul_conj]
  unfold bornMat
  rw [Matrix.add_mulVec, kerrMat_mulVec]
  simp only [Pi.add_apply, flatten_pair, hn]
  ring

/-- The solution of the linearised equation is bounded by its right-hand side. -/
theorem Spec.WeakKerr.linearised_bound {s : Sim Nx Ny} {m κ R : ℝ} (h : Spec.WeakKerr s m κ R) (hv : s.Valid) (hp : s.pol = .Ez) (hx : 1 < Nx) (hy : 1 < Ny)
    (hreal : ∀ i j, (Spec.kerrSum s.nonlinearity s.eps_r i j).im = 0) {E2 E f u : Grid Nx Ny ℂ} {a b : ℝ} (hE : ‖E‖ ≤ a) (hE2 : ‖E2‖ ≤ b)
    (hf : kerrD11 s E2 E *ᵥ flatten f + kerrD12 s E2 E *ᵥ (fun k => (starRingEnd ℂ) (flatten f k)) = flatten u) :
    (Spec.margin s m - 2 * (s.omega ^ 2 * EPSILON_0 * s.L0) * κ * (a * b)) * ‖f‖ ≤ ‖u‖ := by
  have hk := h.kappa_nonneg hx hy
  set c : ℝ := s.omega ^ 2 * EPSILON_0 * s.L0 with hcdef
  have hc : 0 ≤ c := by have := EPSILON_0_pos; have := hv.L0_pos; positivity
  have ha : 0 ≤ a := (norm_nonneg _).trans hE
  have hb : 0 ≤ b := (norm_nonneg _).trans hE2
  let w : Grid Nx Ny ℂ := fun i j => (c : ℂ) * Spec.kerrSum s.nonlinearity s.eps_r i j * ((starRingEnd ℂ) (E2 i j) * E i j * f i j + E2 i j * E i j * (starRingEnd ℂ) (f i j))
  have h1 := h.frozen_bound hv hp hx hy E2 f (u - w) (flat_ext fun i j => by
    have h2 := congrFun hf (finProdFinEquiv (i, j))
    rw [kerrD_mulVec s E2 E f hreal, flatten_pair, ← hcdef] at h2
    rw [flatten_pair]
    show _ = u i j - w i j
    rw [← h2]
    simp only [w]
    ring)
  have hw : ‖w‖ ≤ 2 * c * κ * (a * b) * ‖f‖ := by
    refine (pi_norm_le_iff_of_nonneg (by positivity)).2 fun i => (pi_norm_le_iff_of_nonneg (by positivity)).2 fun j => ?_
    have h2 : ‖E i j‖ ≤ a := (norm_entry_le _ _ _).trans hE
    have h3 : ‖E2 i j‖ ≤ b := (norm_entry_le _ _ _).trans hE2
    have h4 := norm_entry_le f i j
    have h5 := h.kerr i j
    simp only [w]
    rw [norm_mul, norm_mul, Complex.norm_real, Real.norm_of_nonneg hc]
    have h6 : ‖(starRingEnd ℂ) (E2 i j) * E i j * f i j + E2 i j * E i j * (starRingEnd ℂ) (f i j)‖ ≤ 2 * (a * b) * ‖f‖ := by
      refine (norm_add_le _ _).trans ?_
      simp only [norm_mul, RCLike.norm_conj]
      have : ‖E2 i j‖ * ‖E i j‖ * ‖f i j‖ ≤ b * a * ‖f‖ := by gcongr
      linarith
    calc c * ‖Spec.kerrSum s.nonlinearity s.eps_r i j‖ * _ ≤ c * κ * (2 * (a * b) * ‖f‖) := by gcongr
      _ = 2 * c * κ * (a * b) * ‖f‖ := by ring
  have h7 := h1.trans (norm_sub_le u w)
  linarith

/-- A real-linear injective operator of this shape has a solution for each right-hand side. -/
theorem conj_system_solvable {n : ℕ} (C11 C12 : Mat n ℂ) (hinj : ∀ h : Vec n ℂ, C11 *ᵥ h + C12 *ᵥ (fun k => (starRingEnd ℂ) (h k)) = 0 → h = 0) (b : Vec n ℂ) :
    ∃ h : Vec n ℂ, C11 *ᵥ h + C12 *ᵥ (fun k => (starRingEnd ℂ) (h k)) = b := by
  let T : Vec n ℂ →ₗ[ℝ] Vec n ℂ :=
    { toFun := fun h => C11 *ᵥ h + C12 *ᵥ fun k => (starRingEnd ℂ) (h k)
      map_add' := fun x y => by
        have e : (fun k => (starRingEnd ℂ) ((x + y) k)) = (fun k => (starRingEnd ℂ) (x k)) + fun k => (starRingEnd ℂ) (y k) := by
          funext k
          simp
        rw [e, Matrix.mulVec_add, Matrix.mulVec_add]
        abel
      map_smul' := fun r x => by
        have e : (fun k => (starRingEnd ℂ) ((r • x) k)) = r • fun k => (starRingEnd ℂ) (x k) := by
          funext k
          simp
        rw [e, Matrix.mulVec_smul, Matrix.mulVec_smul, RingHom.id_apply, smul_add] }
  have hT : Function.Injective T := by
    rw [← LinearMap.ker_eq_bot, LinearMap.ker_eq_bot']
    exact hinj
  have : FiniteDimensional ℝ (Vec n ℂ) := inferInstanceAs (FiniteDimensional ℝ (Fin n → ℂ))
  exact (LinearMap.injective_iff_surjective.1 hT) b

/-- The right-hand side of the linearised equation when a density pixel with chain-rule weights `w` moves. -/
noncomputable def kerrPush (s : Sim Nx Ny) (w : Grid Nx Ny ℝ) (E : Grid Nx Ny ℂ) : Grid Nx Ny ℂ := fun i j =>
  ((s.omega ^ 2 * EPSILON_0 * s.L0 : ℝ) : ℂ) * ((1 + (s.compute_nl E).dnl_deps i j) * (w i j : ℂ)) * E i j

theorem mul_diff_le {x y z t : ℂ} {A B d : ℝ} (hx : ‖x‖ ≤ A) (hz : ‖z‖ ≤ B) (h1 : ‖x - y‖ ≤ d) (h2 : ‖t - z‖ ≤ d) (hA : 0 ≤ A) : ‖x * t - y * z‖ ≤ (A + B) * d := by
  have e : x * t - y * z = x * (t - z) + (x - y) * z := by ring
  rw [e]
  refine (norm_add_le _ _).trans ?_
  rw [norm_mul, norm_mul]
  have := mul_le_mul hx h2 (norm_nonneg _) hA
  have := mul_le_mul h1 hz (norm_nonneg _) ((norm_nonneg _).trans h1)
  linarith

theorem norm_kerrPush_le {s : Sim Nx Ny} (hv : s.Valid) {w : Grid Nx Ny ℝ} {E : Grid Nx Ny ℂ} {a ω κ1 : ℝ} (hE : ‖E‖ ≤ a) (hw : ∀ i j, |w i j| ≤ ω) (hs : ∀ i j, ‖kerrSlope s.nonlinearity i j‖ ≤ κ1)
    (hω : 0 ≤ ω) (hκ : 0 ≤ κ1) : ‖kerrPush s w E‖ ≤ s.omega ^ 2 * EPSILON_0 * s.L0 * ω * ((1 + κ1 * a ^ 2) * a) := by
  have hc : 0 ≤ s.omega ^ 2 * EPSILON_0 * s.L0 := by have := EPSILON_0_pos; have := hv.L0_pos; positivity
  have ha : 0 ≤ a := (norm_nonneg _).trans hE
  refine (pi_norm_le_iff_of_nonneg (by positivity)).2 fun i => (pi_norm_le_iff_of_nonneg (by positivity)).2 fun j => ?_
  have h1 : ‖E i j‖ ≤ a := (norm_entry_le _ _ _).trans hE
  have h2 : ‖1 + (s.compute_nl E).dnl_deps i j‖ ≤ 1 + κ1 * a ^ 2 := by
    rw [dnl_deps_slope]
    refine (norm_add_le _ _).trans ?_
    rw [norm_one, norm_mul, norm_mul, RCLike.norm_conj]
    have := hs i j
    have h3 : ‖E i j‖ * ‖E i j‖ ≤ a ^ 2 := by nlinarith [norm_nonneg (E i j)]
    have := mul_le_mul this h3 (by positivity) hκ
    linarith
  unfold kerrPush
  rw [norm_mul, norm_mul, norm_mul, Complex.norm_real, Complex.norm_real, Real.norm_of_nonneg hc, Real.norm_eq_abs]
  calc s.omega ^ 2 * EPSILON_0 * s.L0 * (‖1 + (s.compute_nl E).dnl_deps i j‖ * |w i j|) * ‖E i j‖ ≤ s.omega ^ 2 * EPSILON_0 * s.L0 * ((1 + κ1 * a ^ 2) * ω) * a := by
        have := hw i j
        gcongr
    _ = _ := by ring

theorem norm_kerrPush_sub_le {s : Sim Nx Ny} (hv : s.Valid) {w : Grid Nx Ny ℝ} {E Z : Grid Nx Ny ℂ} {a ω κ1 δ : ℝ} (hE : ‖E‖ ≤ a) (hZ : ‖Z‖ ≤ a) (hδ : ‖E - Z‖ ≤ δ) (hw : ∀ i j, |w i j| ≤ ω)
    (hs : ∀ i j, ‖kerrSlope s.nonlinearity i j‖ ≤ κ1) (hω : 0 ≤ ω) (hκ : 0 ≤ κ1) : ‖kerrPush s w E - kerrPush s w Z‖ ≤ s.omega ^ 2 * EPSILON_0 * s.L0 * ω * ((1 + 3 * κ1 * a ^ 2) * δ) := by
  have hc : 0 ≤ s.omega ^ 2 * EPSILON_0 * s.L0 := by have := EPSILON_0_pos; have := hv.L0_pos; positivity
  have ha : 0 ≤ a := (norm_nonneg _).trans hE
  have hδ0 : 0 ≤ δ := (norm_nonneg _).trans hδ
  refine (pi_norm_le_iff_of_nonneg (by positivity)).2 fun i => (pi_norm_le_iff_of_nonneg (by positivity)).2 fun j => ?_
  have h1 : ‖E i j‖ ≤ a := (norm_entry_le _ _ _).trans hE
  have h1' : ‖Z i j‖ ≤ a := (norm_entry_le _ _ _).trans hZ
  have hd : ‖E i j - Z i j‖ ≤ δ := (norm_entry_le (E - Z) _ _).trans hδ
  have hd' : ‖(starRingEnd ℂ) (E i j) - (starRingEnd ℂ) (Z i j)‖ ≤ δ := by rw [← map_sub, RCLike.norm_conj]; exact hd
  have e : (kerrPush s w E - kerrPush s w Z) i j = ((s.omega ^ 2 * EPSILON_0 * s.L0 : ℝ) : ℂ) * (w i j : ℂ) * ((E i j - Z i j) +
      kerrSlope s.nonlinearity i j * ((E i j * (starRingEnd ℂ) (E i j)) * E i j - (Z i j * (starRingEnd ℂ) (Z i j)) * Z i j)) := by
    show kerrPush s w E i j - kerrPush s w Z i j = _
    simp only [kerrPush, dnl_deps_slope]
    ring
  have h2 : ‖E i j * (starRingEnd ℂ) (E i j) - Z i j * (starRingEnd ℂ) (Z i j)‖ ≤ 2 * a * δ := by
    have := mul_diff_le h1 (show ‖(starRingEnd ℂ) (Z i j)‖ ≤ a by rw [RCLike.norm_conj]; exact h1') hd hd' ha
    linarith
  have h3 : ‖E i j * (starRingEnd ℂ) (E i j) * E i j - Z i j * (starRingEnd ℂ) (Z i j) * Z i j‖ ≤ 3 * a ^ 2 * δ := by
    have e2 : E i j * (starRingEnd ℂ) (E i j) * E i j - Z i j * (starRingEnd ℂ) (Z i j) * Z i j = E i j * (starRingEnd ℂ) (E i j) * (E i j - Z i j) +
        (E i j * (starRingEnd ℂ) (E i j) - Z i j * (starRingEnd ℂ) (Z i j)) * Z i j := by ring
    rw [e2]
    refine (norm_add_le _ _).trans ?_
    rw [norm_mul, norm_mul, norm_mul, RCLike.norm_conj]
    have h4 : ‖E i j‖ * ‖E i j‖ * ‖E i j - Z i j‖ ≤ a * a * δ := by gcongr
    have h5 := mul_le_mul h2 h1' (norm_nonneg _) (by positivity)
    linarith
  rw [e, norm_mul, norm_mul, Complex.norm_real, Complex.norm_real, Real.norm_of_nonneg hc, Real.norm_eq_abs]
  have h6 : ‖(E i j - Z i j) + kerrSlope s.nonlinearity i j * ((E i j * (starRingEnd ℂ) (E i j)) * E i j - (Z i j * (starRingEnd ℂ) (Z i j)) * Z i j)‖ ≤ (1 + 3 * κ1 * a ^ 2) * δ := by
    refine (norm_add_le _ _).trans ?_
    rw [norm_mul]
    have := mul_le_mul (hs i j) h3 (norm_nonneg _) hκ
    linarith
  have := hw i j
  gcongr

/-- The linearised equations of two states differ by little when the states do. -/
theorem Spec.WeakKerr.linearised_diff {s : Sim Nx Ny} {m κ R : ℝ} (h : Spec.WeakKerr s m κ R) (hv : s.Valid) (hp : s.pol = .Ez) (hx : 1 < Nx) (hy : 1 < Ny)
    (hreal : ∀ i j, (Spec.kerrSum s.nonlinearity s.eps_r i j).im = 0) {E2 E Z f f0 u u0 : Grid Nx Ny ℂ} {a b δ : ℝ} (hE : ‖E‖ ≤ a) (hZ : ‖Z‖ ≤ a) (hE2 : ‖E2‖ ≤ b)
    (hd : ‖E - Z‖ ≤ δ) (hd2 : ‖E2 - Z‖ ≤ δ)
    (hf : kerrD11 s E2 E *ᵥ flatten f + kerrD12 s E2 E *ᵥ (fun k => (starRingEnd ℂ) (flatten f k)) = flatten u)
    (hf0 : kerrD11 s Z Z *ᵥ flatten f0 + kerrD12 s Z Z *ᵥ (fun k => (starRingEnd ℂ) (flatten f0 k)) = flatten u0) :
    (Spec.margin s m - 2 * (s.omega ^ 2 * EPSILON_0 * s.L0) * κ * (a * b)) * ‖f - f0‖ ≤ ‖u - u0‖ + s.omega ^ 2 * EPSILON_0 * s.L0 * κ * (3 * (a + b) * δ) * ‖f0‖ := by
  have hk := h.kappa_nonneg hx hy
  have ha : 0 ≤ a := (norm_nonneg _).trans hE
  have hb : 0 ≤ b := (norm_nonneg _).trans hE2
  have hδ0 : 0 ≤ δ := (norm_nonneg _).trans hd
  set c : ℝ := s.omega ^ 2 * EPSILON_0 * s.L0 with hcdef
  have hc : 0 ≤ c := by have := EPSILON_0_pos; have := hv.L0_pos; positivity
  let w : Grid Nx Ny ℂ := fun i j => (c : ℂ) * Spec.kerrSum s.nonlinearity s.eps_r i j * ((E2 i j * (starRingEnd ℂ) (E2 i j) - Z i j * (starRingEnd ℂ) (Z i j)) * f0 i j +
    ((starRingEnd ℂ) (E2 i j) * E i j - (starRingEnd ℂ) (Z i j) * Z i j) * f0 i j + (E2 i j * E i j - Z i j * Z i j) * (starRingEnd ℂ) (f0 i j))
  have h1 := h.linearised_bound hv hp hx hy hreal (f := f - f0) (u := (u - u0) - w) hE hE2 (flat_ext fun i j => by
    have h2 := congrFun hf (finProdFinEquiv (i, j))
    have h3 := congrFun hf0 (finProdFinEquiv (i, j))
    rw [kerrD_mulVec s E2 E f hreal, bornMat_mulVec_pair, flatten_pair, ← hcdef] at h2
    rw [kerrD_mulVec s Z Z f0 hreal, bornMat_mulVec_pair, flatten_pair, ← hcdef] at h3
    rw [kerrD_mulVec s E2 E _ hreal, bornMat_mulVec_pair, flatten_pair, ← hcdef]
    have e : flatten (f - f0) = flatten f - flatten f0 := rfl
    have e2 : (f - f0) i j = f i j - f0 i j := rfl
    have e3 : ((u - u0) - w) i j = u i j - u0 i j - w i j := rfl
    rw [e, Matrix.mulVec_sub, Pi.sub_apply, e2, e3, map_sub, ← h2, ← h3]
    simp only [w]
    ring)
  have hw : ‖w‖ ≤ c * κ * (3 * (a + b) * δ) * ‖f0‖ := by
    refine (pi_norm_le_iff_of_nonneg (by positivity)).2 fun i => (pi_norm_le_iff_of_nonneg (by positivity)).2 fun j => ?_
    have g1 : ‖E i j‖ ≤ a := (norm_entry_le _ _ _).trans hE
    have g2 : ‖E2 i j‖ ≤ b := (norm_entry_le _ _ _).trans hE2
    have g3 : ‖Z i j‖ ≤ a := (norm_entry_le _ _ _).trans hZ
    have g4 : ‖E i j - Z i j‖ ≤ δ := (norm_entry_le (E - Z) _ _).trans hd
    have g5 : ‖E2 i j - Z i j‖ ≤ δ := (norm_entry_le (E2 - Z) _ _).trans hd2
    have g2' : ‖(starRingEnd ℂ) (E2 i j)‖ ≤ b := by rw [RCLike.norm_conj]; exact g2
    have g3' : ‖(starRingEnd ℂ) (Z i j)‖ ≤ a := by rw [RCLike.norm_conj]; exact g3
    have g5' : ‖(starRingEnd ℂ) (E2 i j) - (starRingEnd ℂ) (Z i j)‖ ≤ δ := by rw [← map_sub, RCLike.norm_conj]; exact g5
    have h4 := norm_entry_le f0 i j
    have h5 := h.kerr i j
    have k1 := mul_diff_le g2 g3' g5 g5' hb
    have k2 := mul_diff_le g2' g3 g5' g4 hb
    have k3 := mul_diff_le g2 g3 g5 g4 hb
    simp only [w]
    rw [norm_mul, norm_mul, Complex.norm_real, Real.norm_of_nonneg hc]
    have h6 : ‖(E2 i j * (starRingEnd ℂ) (E2 i j) - Z i j * (starRingEnd ℂ) (Z i j)) * f0 i j + ((starRingEnd ℂ) (E2 i j) * E i j - (starRingEnd ℂ) (Z i j) * Z i j) * f0 i j +
        (E2 i j * E i j - Z i j * Z i j) * (starRingEnd ℂ) (f0 i j)‖ ≤ 3 * (a + b) * δ * ‖f0‖ := by
      refine (norm_add₃_le).trans ?_
      rw [norm_mul, norm_mul, norm_mul, RCLike.norm_conj]
      have l1 := mul_le_mul k1 h4 (norm_nonneg _) (by positivity)
      have l2 := mul_le_mul k2 h4 (norm_nonneg _) (by positivity)
      have l3 := mul_le_mul k3 h4 (norm_nonneg _) (by positivity)
      linarith
    calc c * ‖Spec.kerrSum s.nonlinearity s.eps_r i j‖ * _ ≤ c * κ * (3 * (a + b) * δ * ‖f0‖) := by gcongr
      _ = c * κ * (3 * (a + b) * δ) * ‖f0‖ := by ring
  have h7 := h1.trans (norm_sub_le (u - u0) w)
  linarith

/-- A gradient contribution of the code, through the linearised equation instead of its adjoint. -/
theorem Spec.WeakKerr.argGrad2_eq {o : Opt Nx Ny} {m κ R : ℝ} (h : Spec.WeakKerr o.simulation m κ R) {env : Env} (he : env.Exact) (hv : o.simulation.Valid) (hp : o.simulation.pol = .Ez) (hx : 1 < Nx) (hy : 1 < Ny)
    (hreal : ∀ i j, (Spec.kerrSum o.simulation.nonlinearity o.simulation.eps_r i j).im = 0) {E2 E : Grid Nx Ny ℂ} {a b : ℝ} (hE : ‖E‖ ≤ a) (hE2 : ‖E2‖ ≤ b)
    (hpos : 0 < Spec.margin o.simulation m - 2 * (o.simulation.omega ^ 2 * EPSILON_0 * o.simulation.L0) * κ * (a * b)) (rho : Grid Nx Ny ℝ) (i0 : Fin Nx) (j0 : Fin Ny) (w : Grid Nx Ny ℝ)
    (hw : w = fun i j => (o.eps_m - 1) * drhob_drhot (rho2rhot rho o.W i j) o.eta o.beta * (o.W (finProdFinEquiv (i0, j0)) (finProdFinEquiv (i, j)) * o.design_region i j)) :
    ∃ f : Grid Nx Ny ℂ, kerrD11 o.simulation E2 E *ᵥ flatten f + kerrD12 o.simulation E2 E *ᵥ (fun k => (starRingEnd ℂ) (flatten f k)) = flatten (kerrPush o.simulation w E) ∧
      ∀ (p : Grid Nx Ny ℂ) (arg : ObjArg), arg.nl = true → argGrad2 env o rho E2 E p arg i0 j0 = -(∑ i, ∑ j, p i j * f i j).re := by
  have hinj : ∀ v : Vec (Nx * Ny) ℂ, kerrD11 o.simulation E2 E *ᵥ v + kerrD12 o.simulation E2 E *ᵥ (fun k => (starRingEnd ℂ) (v k)) = 0 → v = 0 := by
    intro v hv0
    have h1 := h.linearised_bound hv hp hx hy hreal (f := unflatten v) (u := 0) hE hE2 (by rw [flatten_unflatten]; exact hv0)
    rw [norm_zero] at h1
    have h2 : ‖(unflatten v : Grid Nx Ny ℂ)‖ = 0 := le_antisymm (by nlinarith [norm_nonneg (unflatten v : Grid Nx Ny ℂ)]) (norm_nonneg _)
    rw [← flatten_unflatten (Nx := Nx) (Ny := Ny) v, norm_eq_zero.1 h2]
    rfl
  obtain ⟨f, hf⟩ := conj_system_solvable _ _ hinj (flatten (kerrPush o.simulation w E))
  refine ⟨unflatten f, by rw [flatten_unflatten]; exact hf, fun p arg hn => ?_⟩
  have hdet := stackConj_det _ _ hinj
  have hz : (stackConj (kerrD11 o.simulation E2 E) (kerrD12 o.simulation E2 E))ᵀ *ᵥ kerrAdj2 env o.simulation E2 E p = stackVec (-(flatten p)) :=
    solver_direct_spec he (Or.inl (by rw [Matrix.det_transpose]; exact hdet))
  have h3 := kerr_adjoint_identity _ _ hdet (flatten p) _ hz (-f) (flatten (kerrPush o.simulation w E)) (by
    rw [← hf]
    have e : (fun k => (starRingEnd ℂ) ((-f) k)) = -fun k => (starRingEnd ℂ) (f k) := by
      funext k
      simp
    rw [e, Matrix.mulVec_neg, Matrix.mulVec_neg]
    abel)
  unfold argGrad2
  rw [if_pos hn, tail_kerr_apply]
  rw [dotProduct_neg, Complex.neg_re] at h3
  have e1 : (flatten p ⬝ᵥ f) = ∑ i, ∑ j, p i j * (unflatten f : Grid Nx Ny ℂ) i j := by
    unfold dotProduct
    rw [sum_flat]
    refine Finset.sum_congr rfl fun i _ => Finset.sum_congr rfl fun j _ => ?_
    rw [flatten_pair]
    rfl
  rw [← e1, h3]
  congr 1
  unfold dotProduct
  rw [sum_flat]
  refine Finset.sum_congr rfl fun i _ => Finset.sum_congr rfl fun j _ => ?_
  rw [flatten_pair, hw]
  rfl

/-- What the default call of the nonlinear solver leaves on a weak device: the returned field and the field of the pass before are close to the solution. -/
theorem Spec.WeakKerr.default_near {s : Sim Nx Ny} {m κ R : ℝ} (h : Spec.WeakKerr s m κ R) {env : Env} (he : env.Exact) (hb : env.backend = .pardiso) (hv : s.Valid) (hp : s.pol = .Ez)
    (hx : 1 < Nx) (hy : 1 < Ny) (hk : Spec.RealKerr s m κ) (hq : Spec.bornRate s m κ R ≤ 1 / 2) (hsrc : s.src ≠ 0) (hE : ∀ e, s.fields .Ez = some e → ∀ i j, ‖e i j‖ ≤ R)
    {Z : Grid Nx Ny ℂ} (hZ : ∀ i j, Spec.nlResidual s Z i j = 0) :
    ∃ r G fl fn, solve_fields_nl env s = (.ok r, { ({ s with fields := fl } : Sim Nx Ny).compute_nl G with fields_nl := fn }) ∧ fn .Ez = some r.Fz ∧ ‖Z‖ ≤ R ∧ ‖r.Fz‖ ≤ R ∧
      ‖G‖ ≤ 1001 / 1000 * R ∧ ‖r.Fz - Z‖ ≤ 3e-10 * Spec.bornRate s m κ R * (Real.sqrt (Nx * Ny) * R) ∧ ‖G - Z‖ ≤ 2e-10 * (Real.sqrt (Nx * Ny) * R) := by
  have hfix := (nlResidual_zero_iff he s Z (h.bornMat_det hv hp hx hy Z)).1 hZ
  have hZR : ‖Z‖ ≤ R := by rw [← hfix]; exact h.step_bound he hv hp hx hy Z
  have hR := h.R_nonneg hv hx hy
  obtain ⟨hq0, hq1⟩ := h.rate_mem hv hx hy
  have hm := margin_pos h.coarse
  have hβ := hk.ratio_nonneg hv hx hy
  have hqβ : Spec.bornRate s m κ R = 2 * Spec.kerrRatio s m κ * R ^ 2 := by unfold Spec.bornRate Spec.kerrRatio; ring
  set q := Spec.bornRate s m κ R with hqdef
  set β := Spec.kerrRatio s m κ with hβdef
  set C : ℝ := Real.sqrt (Nx * Ny) with hC
  have hC2 : 2 ≤ C := by
    rw [hC]
    refine Real.le_sqrt_of_sq_le ?_
    have h1 : (2 : ℝ) ≤ Nx := by exact_mod_cast hx
    have h2 : (2 : ℝ) ≤ Ny := by exact_mod_cast hy
    nlinarith
  have hne : ∀ G, (bornStep env s G).2.2 ≠ 0 := by
    intro G h0
    have h1 := bornStep_solves he G (h.bornMat_det hv hp hx hy G)
    rw [h0, show flatten (0 : Grid Nx Ny ℂ) = 0 from rfl, Matrix.mulVec_zero] at h1
    apply hsrc
    funext i j
    have h2 := congrFun h1 (finProdFinEquiv (i, j))
    have hr : s.rhs (finProdFinEquiv (i, j)) = s.src i j * Complex.I * s.omega := by simp only [Sim.rhs, flatten_pair]
    rw [hr, Pi.zero_apply] at h2
    have h3 : (s.omega : ℂ) ≠ 0 := by exact_mod_cast hv.omega_pos.ne'
    simpa [h3, Complex.I_ne_zero] using h2.symm
  obtain ⟨E0, fl, k, conv, hst, hkn, heq, hnot, hstop, hlen, hrow, hzero⟩ := born_solve_spec env s none 1e-10 19
  have hball : ‖bornIter env s E0 k‖ ≤ R := by
    cases k with
    | zero => exact h.start_bound he hv hp hx hy hE hst
    | succ k => rw [bornIter_succ]; exact h.step_bound he hv hp hx hy _
  have hlast : conv.getLast? = if k = 19 then some (bornConv env s E0 k) else some (.fin 0) := by
    rw [List.getLast?_eq_getElem?, hlen]
    by_cases h : k = 19
    · subst h
      rw [if_pos rfl]
      exact hrow 19 (le_refl _)
    · rw [if_neg h]
      exact hzero 19 (by omega) (by omega)
  by_cases hgt : ((conv.getLast?).getD (.fin 0)).Gt 1e-10
  · -- Newton
    have hk19 : k = 19 := by
      by_contra hne
      rw [hlast, if_neg hne, Option.getD_some] at hgt
      have : (1e-10 : ℝ) < 0 := hgt
      norm_num at this
    set s1 : Sim Nx Ny := ({ s with fields := fl } : Sim Nx Ny).compute_nl (bornIter env s E0 k) with hs1
    have hv1 : s1.Valid := { hv with }
    have hk1 : Spec.RealKerr s1 m κ := ⟨hk.perm, hk.coarse, hk.coef⟩
    have hZ1 : ∀ i j, Spec.nlResidual s1 Z i j = 0 := hZ
    set ρ : ℝ := q ^ 19 * (2 * R) with hρ
    have hq19 : q ^ 19 ≤ 1 / 4000 := (pow_le_pow_left₀ hq0 hq 19).trans (by norm_num)
    have hq19' : 0 ≤ q ^ 19 := by positivity
    have hρ0 : 0 ≤ ρ := by positivity
    have hρR : ρ ≤ 1 / 2000 * R := by rw [hρ]; nlinarith
    have hnear : Spec.NewtonNear s1 m κ Z ρ := by
      refine ⟨hρ0, ?_⟩
      show β * (3 * ‖Z‖ + 2 * ρ) * ρ ≤ 1 / 2
      have h1 : β * (3 * ‖Z‖ + 2 * ρ) * ρ ≤ β * (3 * R + 2 * (1 / 2000 * R)) * (1 / 2000 * R) := by gcongr
      refine h1.trans ?_
      have h2 : β * (3 * R + 2 * (1 / 2000 * R)) * (1 / 2000 * R) = (2 * β * R ^ 2) * (3001 / 4000000) := by ring
      rw [h2, ← hqβ]
      nlinarith
    obtain ⟨r, s2, hr⟩ := newton_solve_ok env hb s1 hp (some (bornIter env s E0 (k + 1))) 1e-10 19
    obtain ⟨E1, fl1, l, it, -, hst1, hl, h0, hstep, hfin, hs', hnot1, hstop1, hlen1, hrow1, hzero1⟩ := newton_solve_spec env s1 _ 1e-10 19 r s2 hr
    have hst0 : ‖it 0 - Z‖ ≤ ρ := by
      rw [h0, hst1.1 _ rfl, hρ]
      have := (h.iter_error he hv hp hx hy hfix E0 k).2
      rwa [hk19] at this ⊢
    have hit := newton_iterates hk1 he hb hv1 hp hx hy hZ1 hnear it (l + 1) hst0 (fun l hl => hstep l (by omega))
    have hpw : ∀ k : ℕ, ((1 : ℝ) / 2) ^ (2 ^ k - 1) ≤ 1 := fun k => pow_le_one₀ (by norm_num) (by norm_num)
    have hl1 : ‖it (l + 1) - Z‖ ≤ ρ := (hit (l + 1) le_rfl).trans (by nlinarith [hpw (l + 1)])
    have hnorm : ‖it (l + 1)‖ ≤ 1001 / 1000 * R := by
      have : ‖it (l + 1)‖ ≤ ‖it (l + 1) - Z‖ + ‖Z‖ := by
        have := norm_add_le (it (l + 1) - Z) Z
        rwa [sub_add_cancel] at this
      linarith
    -- the last iterate
    have hG : ‖it (l + 1) - Z‖ ≤ 1e-10 * (C * (1001 / 1000 * R)) := by
      by_cases hlt : (convergence (it (l + 1)) (it l)).Lt 1e-10
      · by_cases hF0 : it (l + 1) = 0
        · exfalso
          obtain ⟨-, c2, c3⟩ := convergence_spec (it (l + 1)) (it l)
          by_cases hG0 : it l = 0
          · rw [c3 hF0 hG0] at hlt; exact hlt
          · rw [c2 hF0 hG0] at hlt; exact hlt
        have hch := change_le hF0 (not_gt_of_lt hlt)
        have hstepq := hk1.newton_step he hb hv1 hp hx hy hZ1 _ _ (hstep l le_rfl)
        have hl0 : ‖it l - Z‖ ≤ ρ := (hit l (by omega)).trans (by nlinarith [hpw l])
        have hhalf : ‖it (l + 1) - Z‖ ≤ 1 / 2 * ‖it l - Z‖ := by
          refine hstepq.trans ?_
          calc Spec.kerrRatio s1 m κ * (3 * ‖Z‖ + 2 * ‖it l - Z‖) * ‖it l - Z‖ ^ 2 = (β * (3 * ‖Z‖ + 2 * ‖it l - Z‖) * ‖it l - Z‖) * ‖it l - Z‖ := by
                show β * _ * _ = _
                ring
            _ ≤ (β * (3 * ‖Z‖ + 2 * ρ) * ρ) * ‖it l - Z‖ := by gcongr
            _ ≤ 1 / 2 * ‖it l - Z‖ := mul_le_mul_of_nonneg_right hnear.half (norm_nonneg _)
        have htri : ‖it l - Z‖ ≤ ‖it (l + 1) - Z‖ + ‖it (l + 1) - it l‖ := by
          have := norm_sub_le (it (l + 1) - Z) (it (l + 1) - it l)
          rwa [sub_sub_sub_cancel_left] at this
        have hla : laNorm (it (l + 1)) ≤ C * (1001 / 1000 * R) := (laNorm_le_sqrt _).trans (mul_le_mul_of_nonneg_left hnorm (by linarith))
        have : (1e-10 : ℝ) * laNorm (it (l + 1)) ≤ 1e-10 * (C * (1001 / 1000 * R)) := mul_le_mul_of_nonneg_left hla (by norm_num)
        linarith
      · have hl19 : l = 19 := hstop1.resolve_left hlt
        have h1 := hit (l + 1) le_rfl
        have h2 : ((1 : ℝ) / 2) ^ (2 ^ (l + 1) - 1) ≤ 1e-10 := by
          rw [hl19]
          refine (pow_le_pow_of_le_one (by norm_num) (by norm_num) (show 40 ≤ 2 ^ (19 + 1) - 1 by norm_num)).trans ?_
          norm_num
        refine h1.trans ?_
        have h3 : ρ * (1 / 2) ^ (2 ^ (l + 1) - 1) ≤ ρ * 1e-10 := mul_le_mul_of_nonneg_left h2 hρ0
        nlinarith
    have hFz : r.Fz = (bornStep env s1 (it (l + 1))).2.2 := by rw [← hfin]
    refine ⟨r, it (l + 1), fl1, Sim.store s2.pol s2.fields_nl (r.Fx, r.Fy, r.Fz), ?_, ?_, hZR, ?_, hnorm, ?_, ?_⟩
    · unfold solve_fields_nl
      simp only [heq]
      rw [if_pos hgt, hr]
      simp only [hs']
      rfl
    · have hp2 : s2.pol = .Ez := by rw [hs']; exact hp
      rw [hp2]
      rfl
    · rw [hFz]
      exact h.step_bound he hv hp hx hy _
    · rw [hFz]
      refine (hk1.born_step he hv1 hp hx hy hZ1 (it (l + 1))).trans ?_
      calc Spec.kerrRatio s1 m κ * (‖Z‖ * (2 * ‖Z‖ + ‖it (l + 1) - Z‖)) * ‖it (l + 1) - Z‖ ≤ β * (R * (2 * R + 1 / 2000 * R)) * (1e-10 * (C * (1001 / 1000 * R))) := by
            have : ‖it (l + 1) - Z‖ ≤ 1 / 2000 * R := by linarith
            show β * _ * _ ≤ _
            gcongr
        _ = (2 * β * R ^ 2) * (4001 / 4000 * (1001 / 1000) * 1e-10 * (C * R)) := by ring
        _ ≤ 3e-10 * q * (C * R) := by
          rw [← hqβ]
          have : 0 ≤ q * (C * R) := by positivity
          nlinarith
    · have : 0 ≤ C * R := by positivity
      linarith
  · have hngt : ¬ (bornConv env s E0 k).Gt 1e-10 := by
      rcases hstop with h1 | h1
      · exact not_gt_of_lt h1
      · rw [hlast, if_pos h1, Option.getD_some] at hgt
        exact hgt
    have hF0 : bornIter env s E0 (k + 1) ≠ 0 := by rw [bornIter_succ]; exact hne _
    have hch := change_le hF0 hngt
    have hFR : ‖bornIter env s E0 (k + 1)‖ ≤ R := by rw [bornIter_succ]; exact h.step_bound he hv hp hx hy _
    have hla : laNorm (bornIter env s E0 (k + 1)) ≤ C * R := (laNorm_le_sqrt _).trans (mul_le_mul_of_nonneg_left hFR (by linarith))
    have hstep : ‖bornIter env s E0 (k + 1) - Z‖ ≤ q * ‖bornIter env s E0 k - Z‖ := by
      have := h.step_contracts he hv hp hx hy _ _ hball hZR
      rwa [hfix, ← bornIter_succ] at this
    have h1 : ‖bornIter env s E0 (k + 1) - bornIter env s E0 k‖ ≤ 1e-10 * (C * R) := hch.trans (mul_le_mul_of_nonneg_left hla (by norm_num))
    have htri : ‖bornIter env s E0 k - Z‖ ≤ ‖bornIter env s E0 (k + 1) - Z‖ + ‖bornIter env s E0 (k + 1) - bornIter env s E0 k‖ := by
      have := norm_sub_le (bornIter env s E0 (k + 1) - Z) (bornIter env s E0 (k + 1) - bornIter env s E0 k)
      rwa [sub_sub_sub_cancel_left] at this
    have h0 := norm_nonneg (bornIter env s E0 k - Z)
    have hG : ‖bornIter env s E0 k - Z‖ ≤ 2e-10 * (C * R) := by nlinarith
    have hCR : 0 ≤ C * R := by positivity
    refine ⟨⟨(bornStep env s (bornIter env s E0 k)).1, (bornStep env s (bornIter env s E0 k)).2.1, bornIter env s E0 (k + 1), conv⟩, bornIter env s E0 k, fl,
      Sim.store s.pol s.fields_nl ((bornStep env s (bornIter env s E0 k)).1, (bornStep env s (bornIter env s E0 k)).2.1, bornIter env s E0 (k + 1)), ?_, ?_, hZR, hFR, ?_, ?_, hG⟩
    · unfold solve_fields_nl
      simp only [heq]
      rw [if_neg hgt]
      rfl
    · rw [hp]
      rfl
    · linarith
    · refine hstep.trans ?_
      have := mul_le_mul_of_nonneg_left hG hq0
      have : 0 ≤ q * (C * R) := by positivity
      nlinarith

theorem abs_re_sum_le (p f : Grid Nx Ny ℂ) {A B : ℝ} (hp : ∑ i, ∑ j, ‖p i j‖ ≤ A) (hf : ‖f‖ ≤ B) : |(∑ i, ∑ j, p i j * f i j).re| ≤ A * B := by
  have hB : 0 ≤ B := (norm_nonneg _).trans hf
  refine (Complex.abs_re_le_norm _).trans ?_
  calc ‖∑ i, ∑ j, p i j * f i j‖ ≤ ∑ i, ∑ j, ‖p i j‖ * B := by
        refine (norm_sum_le _ _).trans (Finset.sum_le_sum fun i _ => (norm_sum_le _ _).trans (Finset.sum_le_sum fun j _ => ?_))
        rw [norm_mul]
        exact mul_le_mul_of_nonneg_left ((norm_entry_le f i j).trans hf) (norm_nonneg _)
    _ = (∑ i, ∑ j, ‖p i j‖) * B := by simp only [Finset.sum_mul]
    _ ≤ A * B := mul_le_mul_of_nonneg_right hp hB

/-- The error of one gradient contribution. -/
theorem Spec.WeakKerr.contribution_error {o : Opt Nx Ny} {m κ R : ℝ} (h : Spec.WeakKerr o.simulation m κ R) {env : Env} (he : env.Exact) (hv : o.simulation.Valid) (hp : o.simulation.pol = .Ez)
    (hx : 1 < Nx) (hy : 1 < Ny) (hq : Spec.bornRate o.simulation m κ R ≤ 1 / 2) (hreal : ∀ i j, (Spec.kerrSum o.simulation.nonlinearity o.simulation.eps_r i j).im = 0)
    {κ1 ω δ : ℝ} (hs : ∀ i j, ‖kerrSlope o.simulation.nonlinearity i j‖ ≤ κ1) (hω : 0 ≤ ω) (rho : Grid Nx Ny ℝ) (i0 : Fin Nx) (j0 : Fin Ny)
    (hw : ∀ i j, |(o.eps_m - 1) * drhob_drhot (rho2rhot rho o.W i j) o.eta o.beta * (o.W (finProdFinEquiv (i0, j0)) (finProdFinEquiv (i, j)) * o.design_region i j)| ≤ ω)
    {E E2 Z : Grid Nx Ny ℂ} (hE : ‖E‖ ≤ R) (hZ : ‖Z‖ ≤ R) (hE2 : ‖E2‖ ≤ 1001 / 1000 * R) (hd : ‖E - Z‖ ≤ δ) (hd2 : ‖E2 - Z‖ ≤ δ)
    {p p0 : Grid Nx Ny ℂ} {A B : ℝ} (hp1 : ∑ i, ∑ j, ‖p i j - p0 i j‖ ≤ A) (hp0 : ∑ i, ∑ j, ‖p0 i j‖ ≤ B) (arg : ObjArg) (hn : arg.nl = true) :
    |argGrad2 env o rho E2 E p arg i0 j0 - argGrad2 env o rho Z Z p0 arg i0 j0| ≤
      o.simulation.omega ^ 2 * EPSILON_0 * o.simulation.L0 * ω / Spec.margin o.simulation m * (3 * ((1 + κ1 * R ^ 2) * R) * A + (9 + 13 * κ1 * R ^ 2) * δ * B) := by
  have hm := margin_pos h.coarse
  have hk := h.kappa_nonneg hx hy
  have hR := h.R_nonneg hv hx hy
  have hκ1 : 0 ≤ κ1 := (norm_nonneg _).trans (hs i0 j0)
  have hδ0 : 0 ≤ δ := (norm_nonneg _).trans hd
  have hA0 : 0 ≤ A := (Finset.sum_nonneg fun i _ => Finset.sum_nonneg fun j _ => norm_nonneg _).trans hp1
  have hB0 : 0 ≤ B := (Finset.sum_nonneg fun i _ => Finset.sum_nonneg fun j _ => norm_nonneg _).trans hp0
  set w : Grid Nx Ny ℝ := fun i j => (o.eps_m - 1) * drhob_drhot (rho2rhot rho o.W i j) o.eta o.beta * (o.W (finProdFinEquiv (i0, j0)) (finProdFinEquiv (i, j)) * o.design_region i j) with hwdef
  set M := Spec.margin o.simulation m with hM
  have hqM : 2 * (o.simulation.omega ^ 2 * EPSILON_0 * o.simulation.L0) * κ * R ^ 2 ≤ M / 2 := by
    unfold Spec.bornRate at hq
    rw [div_le_iff₀ hm] at hq
    linarith
  set c : ℝ := o.simulation.omega ^ 2 * EPSILON_0 * o.simulation.L0 with hcdef
  have hc : 0 ≤ c := by have := EPSILON_0_pos; have := hv.L0_pos; positivity
  have hB1 : 499 / 1000 * M ≤ M - 2 * c * κ * (R * (1001 / 1000 * R)) := by nlinarith
  have hB2 : 499 / 1000 * M ≤ M - 2 * c * κ * (R * R) := by nlinarith
  have hZ2 : ‖Z‖ ≤ 1001 / 1000 * R := by linarith
  obtain ⟨f, hf, hg⟩ := h.argGrad2_eq he hv hp hx hy hreal hE hE2 (by rw [← hM, ← hcdef]; nlinarith) rho i0 j0 w rfl
  obtain ⟨f0, hf0, hg0⟩ := h.argGrad2_eq he hv hp hx hy hreal hZ hZ (by rw [← hM, ← hcdef]; nlinarith) rho i0 j0 w rfl
  rw [hg p arg hn, hg0 p0 arg hn]
  have hpush := norm_kerrPush_le hv hE hw hs hω hκ1
  have hpush0 := norm_kerrPush_le hv hZ hw hs hω hκ1
  have hpd := norm_kerrPush_sub_le hv hE hZ hd hw hs hω hκ1
  rw [← hcdef] at hpush hpush0 hpd
  have b1 := h.linearised_bound hv hp hx hy hreal hE hE2 hf
  have b2 := h.linearised_bound hv hp hx hy hreal hZ hZ hf0
  have b3 := h.linearised_diff hv hp hx hy hreal hE hZ hE2 hd hd2 hf hf0
  rw [← hM, ← hcdef] at b1 b2 b3
  set U : ℝ := c * ω * ((1 + κ1 * R ^ 2) * R) with hU
  set V : ℝ := c * ω * ((1 + 3 * κ1 * R ^ 2) * δ) with hV
  have hU0 : 0 ≤ U := by positivity
  have hV0 : 0 ≤ V := by positivity
  have n1 : ‖f‖ ≤ 3 * (U / M) := by
    rw [← mul_div_assoc, le_div_iff₀ hm]
    nlinarith [mul_le_mul_of_nonneg_right hB1 (norm_nonneg f)]
  have n2 : 499 / 1000 * M * ‖f0‖ ≤ U := (mul_le_mul_of_nonneg_right hB2 (norm_nonneg f0)).trans (b2.trans hpush0)
  have n3 : 499 / 1000 * M * ‖f - f0‖ ≤ V + c * κ * (3 * (R + 1001 / 1000 * R) * δ) * ‖f0‖ :=
    (mul_le_mul_of_nonneg_right hB1 (norm_nonneg (f - f0))).trans (b3.trans (add_le_add_left hpd _))
  -- the perturbation of the operator
  have n4 : c * κ * (3 * (R + 1001 / 1000 * R) * δ) * ‖f0‖ ≤ 31 / 10 * (c * ω * ((1 + κ1 * R ^ 2) * δ)) := by
    have e1 : c * κ * R ^ 2 ≤ M / 4 := by linarith
    rcases hR.eq_or_lt with hR0 | hRpos
    · rw [← hR0]
      simp only [mul_zero, add_zero, zero_mul]
      positivity
    · have e2 : ‖f0‖ ≤ U / (499 / 1000 * M) := by
        rw [le_div_iff₀ (by positivity)]
        linarith
      calc c * κ * (3 * (R + 1001 / 1000 * R) * δ) * ‖f0‖ ≤ c * κ * (3 * (R + 1001 / 1000 * R) * δ) * (U / (499 / 1000 * M)) := by gcongr
        _ = (c * κ * R ^ 2) * (6003 / 499 / M * (c * ω * ((1 + κ1 * R ^ 2) * δ))) := by
          rw [hU]
          field_simp
          ring
        _ ≤ M / 4 * (6003 / 499 / M * (c * ω * ((1 + κ1 * R ^ 2) * δ))) := mul_le_mul_of_nonneg_right e1 (by positivity)
        _ = 6003 / 1996 * (c * ω * ((1 + κ1 * R ^ 2) * δ)) := by
          field_simp
          ring
        _ ≤ 31 / 10 * (c * ω * ((1 + κ1 * R ^ 2) * δ)) := mul_le_mul_of_nonneg_right (by norm_num) (by positivity)
  have n5 : ‖f - f0‖ ≤ c * ω / M * ((9 + 13 * κ1 * R ^ 2) * δ) := by
    rw [div_mul_eq_mul_div, le_div_iff₀ hm]
    have e3 := n3.trans (add_le_add_right n4 V)
    have e4 : 0 ≤ c * ω * δ := by positivity
    have e5 : 0 ≤ c * ω * δ * (κ1 * R ^ 2) := by positivity
    have e6 : 0 ≤ ‖f - f0‖ * M := by positivity
    have e7 : V = c * ω * δ + 3 * (c * ω * δ * (κ1 * R ^ 2)) := by rw [hV]; ring
    have e8 : c * ω * ((1 + κ1 * R ^ 2) * δ) = c * ω * δ + c * ω * δ * (κ1 * R ^ 2) := by ring
    have e9 : c * ω * ((9 + 13 * κ1 * R ^ 2) * δ) = 9 * (c * ω * δ) + 13 * (c * ω * δ * (κ1 * R ^ 2)) := by ring
    have e10 : 499 / 1000 * M * ‖f - f0‖ = 499 / 1000 * (‖f - f0‖ * M) := by ring
    rw [e7, e8, e10] at e3
    rw [e9]
    linarith
  have split : -(∑ i, ∑ j, p i j * f i j).re - -(∑ i, ∑ j, p0 i j * f0 i j).re =
      -(∑ i, ∑ j, (p - p0) i j * f i j).re - (∑ i, ∑ j, p0 i j * (f - f0) i j).re := by
    have e1 : ∑ i, ∑ j, (p - p0) i j * f i j = ∑ i, ∑ j, p i j * f i j - ∑ i, ∑ j, p0 i j * f i j := by
      simp only [← Finset.sum_sub_distrib, Pi.sub_apply, sub_mul]
    have e2 : ∑ i, ∑ j, p0 i j * (f - f0) i j = ∑ i, ∑ j, p0 i j * f i j - ∑ i, ∑ j, p0 i j * f0 i j := by
      simp only [← Finset.sum_sub_distrib, Pi.sub_apply, mul_sub]
    rw [e1, e2, Complex.sub_re, Complex.sub_re]
    ring
  rw [split]
  refine (abs_sub _ _).trans ?_
  rw [abs_neg]
  have t1 := abs_re_sum_le (p - p0) f hp1 n1
  have t2 := abs_re_sum_le p0 (f - f0) hp0 n5
  refine (add_le_add t1 t2).trans (le_of_eq ?_)
  rw [hU]
  field_simp

end Angler
