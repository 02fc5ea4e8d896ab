import Verif.Lemmas.NewtonContraction

/-! # Kerr devices at low power: the field is the linear field plus a first-order correction -/

namespace Angler

open Matrix

variable {Nx Ny : ℕ}

/-- The strength of the Kerr term of the discrete equations, at each cell. -/
noncomputable def Spec.kerrTerm (s : Sim Nx Ny) (i : Fin Nx) (j : Fin Ny) : ℂ := ((s.omega ^ 2 * EPSILON_0 * s.L0 : ℝ) : ℂ) * Spec.kerrSum s.nonlinearity s.eps_r i j

/-- `E1` is the linear field of the device, the device answers every source `b` with a field of size at most `‖b‖ / μ`, the Kerr term is at most `κ`, and the Kerr effect of the linear field,
`κ ‖E1‖² / μ`, is at most `q ≤ 1/40`. -/
structure Spec.LowPower (s : Sim Nx Ny) (E1 : Grid Nx Ny ℂ) (μ κ q : ℝ) : Prop where
  mu_pos : 0 < μ
  stable : ∀ f b : Grid Nx Ny ℂ, s.A *ᵥ flatten f = flatten b → μ * ‖f‖ ≤ ‖b‖
  kerr : ∀ i j, ‖Spec.kerrTerm s i j‖ ≤ κ
  kappa_nonneg : 0 ≤ κ
  linear : s.A *ᵥ flatten E1 = s.rhs
  small : κ * ‖E1‖ ^ 2 ≤ q * μ
  q_le : q ≤ 1 / 40

/-- The first-order correction: the field radiated by the Kerr polarisation of the linear field. -/
def Spec.FirstOrder (s : Sim Nx Ny) (E1 E3 : Grid Nx Ny ℂ) : Prop :=
  s.A *ᵥ flatten E3 = flatten fun i j => -(Spec.kerrTerm s i j * ((‖E1 i j‖ ^ 2 : ℝ) : ℂ) * E1 i j)

theorem grid_norm_le {f : Grid Nx Ny ℂ} {r : ℝ} (hr : 0 ≤ r) (h : ∀ i j, ‖f i j‖ ≤ r) : ‖f‖ ≤ r :=
  (pi_norm_le_iff_of_nonneg hr).2 fun i => (pi_norm_le_iff_of_nonneg hr).2 fun j => h i j

theorem sq_norm_diff_le {z w : ℂ} {r d : ℝ} (hz : ‖z‖ ≤ r) (hw : ‖w‖ ≤ r) (hd : ‖z - w‖ ≤ d) : ‖((‖z‖ ^ 2 : ℝ) : ℂ) - ((‖w‖ ^ 2 : ℝ) : ℂ)‖ ≤ 2 * r * d := by
  rw [← Complex.ofReal_sub, Complex.norm_real, Real.norm_eq_abs]
  exact sq_diff_le (norm_nonneg _) (norm_nonneg _) hz hw ((abs_norm_sub_norm_le _ _).trans hd)

theorem norm_sq_ofReal (z : ℂ) : ‖((‖z‖ ^ 2 : ℝ) : ℂ)‖ = ‖z‖ ^ 2 := by
  rw [Complex.norm_real, Real.norm_of_nonneg (by positivity)]

theorem bornMat_apply (s : Sim Nx Ny) (F f : Grid Nx Ny ℂ) (i : Fin Nx) (j : Fin Ny) :
    (bornMat s F *ᵥ flatten f) (finProdFinEquiv (i, j)) = (s.A *ᵥ flatten f) (finProdFinEquiv (i, j)) + Spec.kerrTerm s i j * ((‖F i j‖ ^ 2 : ℝ) : ℂ) * f i j := by
  unfold bornMat Spec.kerrTerm
  rw [Matrix.add_mulVec, kerrMat_mulVec, Pi.add_apply, flatten_pair]
  ring

namespace Spec.LowPower
variable {s : Sim Nx Ny} {E1 : Grid Nx Ny ℂ} {μ κ q : ℝ}

theorem q_nonneg (h : Spec.LowPower s E1 μ κ q) : 0 ≤ q := by
  have h1 : 0 ≤ κ * ‖E1‖ ^ 2 := mul_nonneg h.kappa_nonneg (by positivity)
  have h2 := h1.trans h.small
  by_contra h3
  nlinarith [h.mu_pos]

/-- The linear equations with a known right-hand side bound the field. -/
theorem bound (h : Spec.LowPower s E1 μ κ q) (f b : Grid Nx Ny ℂ) (hf : ∀ i j, (s.A *ᵥ flatten f) (finProdFinEquiv (i, j)) = b i j) {r : ℝ} (hr : 0 ≤ r) (hb : ∀ i j, ‖b i j‖ ≤ r) :
    μ * ‖f‖ ≤ r :=
  (h.stable f b (flat_ext fun i j => by rw [hf, flatten_pair])).trans (grid_norm_le hr hb)

/-- The same for the system frozen at a field of size at most `2 ‖E1‖`. -/
theorem frozen (h : Spec.LowPower s E1 μ κ q) (F f b : Grid Nx Ny ℂ) (hF : ‖F‖ ≤ 2 * ‖E1‖) (hf : bornMat s F *ᵥ flatten f = flatten b) : (1 - 4 * q) * (μ * ‖f‖) ≤ ‖b‖ := by
  have h1 := h.bound f (fun i j => b i j - Spec.kerrTerm s i j * ((‖F i j‖ ^ 2 : ℝ) : ℂ) * f i j) (fun i j => by
    have := congrFun hf (finProdFinEquiv (i, j))
    rw [bornMat_apply, flatten_pair] at this
    linear_combination this) (r := ‖b‖ + κ * (2 * ‖E1‖) ^ 2 * ‖f‖) (by have := h.kappa_nonneg; positivity) fun i j => by
    refine (norm_sub_le _ _).trans (add_le_add (norm_entry_le b i j) ?_)
    rw [norm_mul, norm_mul, norm_sq_ofReal]
    have a := h.kerr i j
    have b := (norm_entry_le F i j).trans hF
    have c := norm_entry_le f i j
    have := h.kappa_nonneg
    gcongr
  have h2 : κ * (2 * ‖E1‖) ^ 2 * ‖f‖ ≤ 4 * (q * μ) * ‖f‖ := by
    refine mul_le_mul_of_nonneg_right ?_ (norm_nonneg _)
    linarith [h.small]
  linarith

theorem det_frozen (h : Spec.LowPower s E1 μ κ q) (F : Grid Nx Ny ℂ) (hF : ‖F‖ ≤ 2 * ‖E1‖) : (bornMat s F).det ≠ 0 := by
  intro h0
  obtain ⟨v, hv, hv0⟩ := Matrix.exists_mulVec_eq_zero_iff.mpr h0
  have h1 := h.frozen F (unflatten v) 0 hF (by rw [flatten_unflatten, hv0]; rfl)
  rw [norm_zero] at h1
  have h2 : 0 < (1 - 4 * q) * μ := mul_pos (by linarith [h.q_le]) h.mu_pos
  have h3 : ‖(unflatten v : Grid Nx Ny ℂ)‖ = 0 := le_antisymm (by nlinarith) (norm_nonneg _)
  apply hv
  rw [← flatten_unflatten (Nx := Nx) (Ny := Ny) v, norm_eq_zero.mp h3]
  rfl

theorem det_linear (h : Spec.LowPower s E1 μ κ q) : s.A.det ≠ 0 := by
  intro h0
  obtain ⟨v, hv, hv0⟩ := Matrix.exists_mulVec_eq_zero_iff.mpr h0
  have h1 := h.stable (unflatten v) 0 (by rw [flatten_unflatten, hv0]; rfl)
  rw [norm_zero] at h1
  have h3 : ‖(unflatten v : Grid Nx Ny ℂ)‖ = 0 := le_antisymm (by nlinarith [h.mu_pos]) (norm_nonneg _)
  apply hv
  rw [← flatten_unflatten (Nx := Nx) (Ny := Ny) v, norm_eq_zero.mp h3]
  rfl

theorem rhs_apply (h : Spec.LowPower s E1 μ κ q) (i : Fin Nx) (j : Fin Ny) : s.rhs (finProdFinEquiv (i, j)) = (s.A *ᵥ flatten E1) (finProdFinEquiv (i, j)) := by rw [h.linear]

theorem apply_sub (s : Sim Nx Ny) (f g : Grid Nx Ny ℂ) (i : Fin Nx) (j : Fin Ny) :
    (s.A *ᵥ flatten (f - g)) (finProdFinEquiv (i, j)) = (s.A *ᵥ flatten f) (finProdFinEquiv (i, j)) - (s.A *ᵥ flatten g) (finProdFinEquiv (i, j)) := by
  rw [show flatten (f - g) = flatten f - flatten g from rfl, Matrix.mulVec_sub, Pi.sub_apply]

/-- The equation of a Born pass. -/
theorem born_eq (h : Spec.LowPower s E1 μ κ q) {env : Env} (he : env.Exact) (E : Grid Nx Ny ℂ) (hE : ‖E‖ ≤ 2 * ‖E1‖) (i : Fin Nx) (j : Fin Ny) :
    (s.A *ᵥ flatten (bornStep env s E).2.2) (finProdFinEquiv (i, j)) + Spec.kerrTerm s i j * ((‖E i j‖ ^ 2 : ℝ) : ℂ) * (bornStep env s E).2.2 i j = (s.A *ᵥ flatten E1) (finProdFinEquiv (i, j)) := by
  rw [← h.rhs_apply, ← bornMat_apply]
  exact congrFun (bornStep_solves he E (h.det_frozen E hE)) _

/-- One Born pass from a field of size at most `2 ‖E1‖` leads close to the linear field. -/
theorem born (h : Spec.LowPower s E1 μ κ q) {env : Env} (he : env.Exact) (E : Grid Nx Ny ℂ) (hE : ‖E‖ ≤ 2 * ‖E1‖) :
    ‖(bornStep env s E).2.2 - E1‖ ≤ 5 * q * ‖E1‖ ∧ ‖(bornStep env s E).2.2‖ ≤ 5 / 4 * ‖E1‖ := by
  have hq := h.q_nonneg
  have hq' := h.q_le
  have hμ := h.mu_pos
  have e := h.born_eq he E hE
  set F := (bornStep env s E).2.2
  have h1 := h.bound (F - E1) (fun i j => -(Spec.kerrTerm s i j * ((‖E i j‖ ^ 2 : ℝ) : ℂ) * F i j)) (fun i j => by
    rw [apply_sub]
    linear_combination e i j) (r := κ * (2 * ‖E1‖) ^ 2 * ‖F‖) (by have := h.kappa_nonneg; positivity) fun i j => by
    rw [norm_neg, norm_mul, norm_mul, norm_sq_ofReal]
    have a := h.kerr i j
    have b := (norm_entry_le E i j).trans hE
    have c := norm_entry_le F i j
    have := h.kappa_nonneg
    gcongr
  have h2 : κ * (2 * ‖E1‖) ^ 2 * ‖F‖ ≤ μ * (4 * q * ‖F‖) := by
    have : κ * (2 * ‖E1‖) ^ 2 ≤ 4 * (q * μ) := by linarith [h.small]
    nlinarith [norm_nonneg F]
  have h3 : ‖F - E1‖ ≤ 4 * q * ‖F‖ := le_of_mul_le_mul_left (h1.trans h2) hμ
  have h4 : ‖F‖ ≤ ‖F - E1‖ + ‖E1‖ := by
    have := norm_add_le (F - E1) E1
    rwa [sub_add_cancel] at this
  have h5 : ‖F‖ ≤ 5 / 4 * ‖E1‖ := by nlinarith [norm_nonneg F, norm_nonneg E1]
  refine ⟨h3.trans ?_, h5⟩
  nlinarith

/-- A Born pass from a field close to the linear field gives the first-order correction. -/
theorem born_first (h : Spec.LowPower s E1 μ κ q) {env : Env} (he : env.Exact) (E E3 : Grid Nx Ny ℂ) (hE : ‖E‖ ≤ 2 * ‖E1‖) (hd : ‖E - E1‖ ≤ 40 * q * ‖E1‖) (h3 : Spec.FirstOrder s E1 E3) :
    ‖(bornStep env s E).2.2 - (E1 + E3)‖ ≤ 180 * q ^ 2 * ‖E1‖ := by
  have hq := h.q_nonneg
  have hμ := h.mu_pos
  obtain ⟨hb1, hb2⟩ := h.born he E hE
  have e := h.born_eq he E hE
  set F := (bornStep env s E).2.2
  have hκ := h.kappa_nonneg
  have h1 := h.bound (F - (E1 + E3)) (fun i j => -(Spec.kerrTerm s i j * (((‖E i j‖ ^ 2 : ℝ) : ℂ) * (F i j - E1 i j) + (((‖E i j‖ ^ 2 : ℝ) : ℂ) - ((‖E1 i j‖ ^ 2 : ℝ) : ℂ)) * E1 i j))) (fun i j => by
    have e3 := congrFun h3 (finProdFinEquiv (i, j))
    rw [flatten_pair] at e3
    rw [← sub_sub, apply_sub, apply_sub, e3]
    linear_combination e i j) (r := κ * ((2 * ‖E1‖) ^ 2 * (5 * q * ‖E1‖) + 2 * (2 * ‖E1‖) * (40 * q * ‖E1‖) * ‖E1‖)) (by positivity) fun i j => by
    rw [norm_neg, norm_mul]
    have a := h.kerr i j
    have b := (norm_entry_le E i j).trans hE
    have c := (norm_entry_le (F - E1) i j).trans hb1
    have d := norm_entry_le E1 i j
    have d' : ‖E1 i j‖ ≤ 2 * ‖E1‖ := d.trans (by linarith [norm_nonneg E1])
    have f := sq_norm_diff_le b d' ((norm_entry_le (E - E1) i j).trans hd)
    refine mul_le_mul a ((norm_add_le _ _).trans (add_le_add ?_ ?_)) (norm_nonneg _) hκ
    · rw [norm_mul, norm_sq_ofReal]
      exact mul_le_mul (pow_le_pow_left₀ (norm_nonneg _) b 2) c (norm_nonneg _) (by positivity)
    · rw [norm_mul]
      exact mul_le_mul f d (norm_nonneg _) (by positivity)
  have h2 : κ * ((2 * ‖E1‖) ^ 2 * (5 * q * ‖E1‖) + 2 * (2 * ‖E1‖) * (40 * q * ‖E1‖) * ‖E1‖) = 180 * q * ‖E1‖ * (κ * ‖E1‖ ^ 2) := by ring
  rw [h2] at h1
  have h5 : 180 * q * ‖E1‖ * (κ * ‖E1‖ ^ 2) ≤ μ * (180 * q ^ 2 * ‖E1‖) := by
    have := mul_le_mul_of_nonneg_left h.small (by positivity : (0 : ℝ) ≤ 180 * q * ‖E1‖)
    linarith
  exact le_of_mul_le_mul_left (h1.trans h5) hμ

/-- Two Born passes contract the ball. -/
theorem born_contracts (h : Spec.LowPower s E1 μ κ q) {env : Env} (he : env.Exact) (E E' : Grid Nx Ny ℂ) (hE : ‖E‖ ≤ 2 * ‖E1‖) (hE' : ‖E'‖ ≤ 2 * ‖E1‖) :
    ‖(bornStep env s E).2.2 - (bornStep env s E').2.2‖ ≤ 1 / 2 * ‖E - E'‖ := by
  have hq := h.q_nonneg
  have hq' := h.q_le
  have hμ := h.mu_pos
  have hκ := h.kappa_nonneg
  obtain ⟨-, hG⟩ := h.born he E' hE'
  have e := h.born_eq he E hE
  have e' := h.born_eq he E' hE'
  set F := (bornStep env s E).2.2
  set G := (bornStep env s E').2.2
  have h1 := h.frozen E (F - G) (fun i j => -(Spec.kerrTerm s i j * (((‖E i j‖ ^ 2 : ℝ) : ℂ) - ((‖E' i j‖ ^ 2 : ℝ) : ℂ)) * G i j)) hE (flat_ext fun i j => by
    rw [bornMat_apply, apply_sub, flatten_pair]
    simp only [Pi.sub_apply]
    linear_combination e i j - e' i j)
  have h2 : ‖fun i j => -(Spec.kerrTerm s i j * (((‖E i j‖ ^ 2 : ℝ) : ℂ) - ((‖E' i j‖ ^ 2 : ℝ) : ℂ)) * G i j)‖ ≤ κ * (2 * (2 * ‖E1‖) * ‖E - E'‖) * (5 / 4 * ‖E1‖) := by
    refine grid_norm_le (by positivity) fun i j => ?_
    rw [norm_neg, norm_mul, norm_mul]
    have a := h.kerr i j
    have f := sq_norm_diff_le ((norm_entry_le E i j).trans hE) ((norm_entry_le E' i j).trans hE') (norm_entry_le (E - E') i j)
    have g := (norm_entry_le G i j).trans hG
    exact mul_le_mul (mul_le_mul a f (norm_nonneg _) hκ) g (norm_nonneg _) (by positivity)
  have h3 : κ * (2 * (2 * ‖E1‖) * ‖E - E'‖) * (5 / 4 * ‖E1‖) = 5 * (κ * ‖E1‖ ^ 2) * ‖E - E'‖ := by ring
  have h4 : 5 * (κ * ‖E1‖ ^ 2) * ‖E - E'‖ ≤ 5 * (q * μ) * ‖E - E'‖ := by
    have := h.small
    gcongr
  have h5 : (1 - 4 * q) * (μ * ‖F - G‖) ≤ 5 * (q * μ) * ‖E - E'‖ := h1.trans (h2.trans (h3.le.trans h4))
  have h6 : (1 - 4 * q) * ‖F - G‖ ≤ 5 * q * ‖E - E'‖ := le_of_mul_le_mul_left (a := μ) (by linarith) hμ
  have h7 : 9 / 10 * ‖F - G‖ ≤ (1 - 4 * q) * ‖F - G‖ := mul_le_mul_of_nonneg_right (by linarith) (norm_nonneg _)
  have h8 : 5 * q * ‖E - E'‖ ≤ 1 / 8 * ‖E - E'‖ := mul_le_mul_of_nonneg_right (by linarith) (norm_nonneg _)
  linarith [norm_nonneg (E - E')]

theorem exists_fixed (h : Spec.LowPower s E1 μ κ q) {env : Env} (he : env.Exact) : ∃ Z : Grid Nx Ny ℂ, ‖Z‖ ≤ 2 * ‖E1‖ ∧ (bornStep env s Z).2.2 = Z := by
  set T : Grid Nx Ny ℂ → Grid Nx Ny ℂ := fun F => (bornStep env s F).2.2 with hT
  set B := Metric.closedBall (0 : Grid Nx Ny ℂ) (2 * ‖E1‖) with hB
  have hmaps : Set.MapsTo T B B := fun F hF => by
    rw [hB, mem_closedBall_zero_iff] at hF ⊢
    exact (h.born he F hF).2.trans (by linarith [norm_nonneg E1])
  have hcon : ContractingWith ⟨1 / 2, by norm_num⟩ (hmaps.restrict T B B) := by
    refine ⟨by exact_mod_cast (show (1 / 2 : ℝ) < 1 by norm_num), LipschitzWith.of_dist_le_mul fun x y => ?_⟩
    rw [Subtype.dist_eq, Subtype.dist_eq, dist_eq_norm, dist_eq_norm]
    exact h.born_contracts he x y (mem_closedBall_zero_iff.1 x.2) (mem_closedBall_zero_iff.1 y.2)
  obtain ⟨y, hyB, hy, -⟩ := hcon.exists_fixedPoint' (Metric.isClosed_closedBall.isComplete) hmaps (x := 0) (by rw [hB, mem_closedBall_zero_iff, norm_zero]; positivity) (edist_ne_top _ _)
  exact ⟨y, mem_closedBall_zero_iff.1 hyB, hy⟩

/-- Newton's system, linearised at a field of size at most `2 ‖E1‖`. -/
theorem jac (h : Spec.LowPower s E1 μ κ q) (E f b : Grid Nx Ny ℂ) (hE : ‖E‖ ≤ 2 * ‖E1‖)
    (hf : (nl_eq_and_jac s E).1.2.1 *ᵥ flatten f + (nl_eq_and_jac s E).1.2.2 *ᵥ flatten (fun i j => (starRingEnd ℂ) (f i j)) = flatten b) : (1 - 12 * q) * (μ * ‖f‖) ≤ ‖b‖ := by
  have hκ := h.kappa_nonneg
  have h1 := h.bound f (fun i j => b i j - (2 * (Spec.kerrTerm s i j * (E i j * (starRingEnd ℂ) (E i j)) * f i j) + (starRingEnd ℂ) (Spec.kerrTerm s i j) * E i j * E i j * (starRingEnd ℂ) (f i j)))
    (fun i j => by
      have := congrFun hf (finProdFinEquiv (i, j))
      rw [Pi.add_apply, nl_jac11, nl_jac12, flatten_pair] at this
      unfold Spec.kerrTerm
      rw [map_mul, Complex.conj_ofReal]
      linear_combination this) (r := ‖b‖ + 3 * (κ * (2 * ‖E1‖) ^ 2 * ‖f‖)) (by positivity) fun i j => by
    refine (norm_sub_le _ _).trans (add_le_add (norm_entry_le b i j) ((norm_add_le _ _).trans ?_))
    simp only [norm_mul, RCLike.norm_conj, RCLike.norm_ofNat]
    have a := h.kerr i j
    have b := (norm_entry_le E i j).trans hE
    have c := norm_entry_le f i j
    have key : ‖Spec.kerrTerm s i j‖ * (‖E i j‖ * ‖E i j‖) * ‖f i j‖ ≤ κ * (2 * ‖E1‖) ^ 2 * ‖f‖ := by
      rw [← sq]
      gcongr
    linarith
  have h2 : 3 * (κ * (2 * ‖E1‖) ^ 2 * ‖f‖) ≤ 12 * (q * μ) * ‖f‖ := by
    have := mul_le_mul_of_nonneg_right h.small (norm_nonneg f)
    linarith
  linarith

/-- One Newton step from a field of size at most `2 ‖E1‖` leads close to the linear field. -/
theorem newton (h : Spec.LowPower s E1 μ κ q) {env : Env} (he : env.Exact) (hb : env.backend = .pardiso) (E F : Grid Nx Ny ℂ) (hE : ‖E‖ ≤ 2 * ‖E1‖) (hF : newtonStep env s E = .ok F) :
    ‖F - E1‖ ≤ 40 * q * ‖E1‖ ∧ ‖F‖ ≤ 2 * ‖E1‖ := by
  have hq := h.q_nonneg
  have hq' := h.q_le
  have hμ := h.mu_pos
  have hκ := h.kappa_nonneg
  have hdet : (Areal (nl_eq_and_jac s E).1.2.1 (nl_eq_and_jac s E).1.2.2).det ≠ 0 := by
    rw [Areal_det_ne_zero_iff]
    intro x hx0
    rw [← flatten_unflatten (Nx := Nx) (Ny := Ny) x] at hx0 ⊢
    have h1 := h.jac E (unflatten x) 0 hE hx0
    rw [norm_zero] at h1
    have h0 : 0 < (1 - 12 * q) * μ := mul_pos (by linarith) hμ
    have h2 : ‖(unflatten x : Grid Nx Ny ℂ)‖ = 0 := le_antisymm (by nlinarith [norm_nonneg (unflatten x : Grid Nx Ny ℂ)]) (norm_nonneg _)
    rw [flatten_eq_zero]
    exact norm_eq_zero.1 h2
  obtain ⟨x, hx1, hx2⟩ := C16_complex2real_partial env he _ _ (nl_eq_and_jac s E).1.1 (Or.inl hb) (Or.inl hdet)
  unfold newtonStep at hF
  rw [hx1] at hF
  obtain rfl : (fun i j => E i j - (unflatten x : Grid Nx Ny ℂ) i j) = F := Except.ok.inj hF
  rw [← flatten_unflatten (Nx := Nx) (Ny := Ny) x] at hx2
  set u : Grid Nx Ny ℂ := unflatten x with hu
  have hEu : (fun i j => E i j - u i j) = E - u := rfl
  rw [hEu]
  set F := E - u with hFd
  have hbd := h.bound (F - E1) (fun i j => Spec.kerrTerm s i j * (E i j * (starRingEnd ℂ) (E i j)) * E i j + (starRingEnd ℂ) (Spec.kerrTerm s i j) * E i j * E i j * (starRingEnd ℂ) (E i j)
      - (2 * (Spec.kerrTerm s i j * (E i j * (starRingEnd ℂ) (E i j)) * F i j) + (starRingEnd ℂ) (Spec.kerrTerm s i j) * E i j * E i j * (starRingEnd ℂ) (F i j))) (fun i j => by
    have h1 : ((nl_eq_and_jac s E).1.2.1 *ᵥ flatten u) (finProdFinEquiv (i, j)) +
        ((nl_eq_and_jac s E).1.2.2 *ᵥ flatten fun i j => (starRingEnd ℂ) (u i j)) (finProdFinEquiv (i, j)) = (nl_eq_and_jac s E).1.1 (finProdFinEquiv (i, j)) :=
      congrFun hx2 (finProdFinEquiv (i, j))
    rw [nl_jac11, nl_jac12, nl_eq_residual] at h1
    simp only [flatten_pair] at h1
    have hr : s.rhs (finProdFinEquiv (i, j)) = s.src i j * Complex.I * s.omega := by simp only [Sim.rhs, flatten_pair]
    have h2 := h.rhs_apply i j
    rw [hr] at h2
    have n1 : (((‖E i j‖ ^ 2 : ℝ)) : ℂ) = E i j * (starRingEnd ℂ) (E i j) := by rw [← Complex.normSq_eq_norm_sq, ← Complex.mul_conj]
    rw [n1] at h1
    rw [apply_sub, hFd, apply_sub]
    simp only [Pi.sub_apply, map_sub]
    unfold Spec.kerrTerm
    rw [map_mul, Complex.conj_ofReal]
    linear_combination h2 - h1) (r := 2 * (κ * (2 * ‖E1‖) ^ 2 * (2 * ‖E1‖)) + 3 * (κ * (2 * ‖E1‖) ^ 2 * ‖F‖)) (by positivity) fun i j => by
    have a := h.kerr i j
    have b := (norm_entry_le E i j).trans hE
    have c := norm_entry_le F i j
    have k1 : ‖Spec.kerrTerm s i j‖ * (‖E i j‖ * ‖E i j‖) * ‖F i j‖ ≤ κ * (2 * ‖E1‖) ^ 2 * ‖F‖ := by
      rw [← sq]
      gcongr
    have k2 : ‖Spec.kerrTerm s i j‖ * (‖E i j‖ * ‖E i j‖) * ‖E i j‖ ≤ κ * (2 * ‖E1‖) ^ 2 * (2 * ‖E1‖) := by
      rw [← sq]
      gcongr
    refine (norm_sub_le _ _).trans (add_le_add ((norm_add_le _ _).trans ?_) ((norm_add_le _ _).trans ?_))
    · simp only [norm_mul, RCLike.norm_conj]
      linarith
    · simp only [norm_mul, RCLike.norm_conj, RCLike.norm_ofNat]
      linarith
  have h2 : 2 * (κ * (2 * ‖E1‖) ^ 2 * (2 * ‖E1‖)) + 3 * (κ * (2 * ‖E1‖) ^ 2 * ‖F‖) = (κ * ‖E1‖ ^ 2) * (16 * ‖E1‖ + 12 * ‖F‖) := by ring
  have h3 : (κ * ‖E1‖ ^ 2) * (16 * ‖E1‖ + 12 * ‖F‖) ≤ q * μ * (16 * ‖E1‖ + 12 * ‖F‖) := mul_le_mul_of_nonneg_right h.small (by positivity)
  have h4 : ‖F - E1‖ ≤ q * (16 * ‖E1‖ + 12 * ‖F‖) := le_of_mul_le_mul_left (a := μ) (by linarith) hμ
  have h5 : ‖F‖ ≤ ‖F - E1‖ + ‖E1‖ := by
    have := norm_add_le (F - E1) E1
    rwa [sub_add_cancel] at this
  have h6 : q * (16 * ‖E1‖ + 12 * ‖F‖) ≤ 1 / 40 * (16 * ‖E1‖ + 12 * ‖F‖) := mul_le_mul_of_nonneg_right hq' (by positivity)
  have h7 : ‖F‖ ≤ 2 * ‖E1‖ := by linarith
  refine ⟨h4.trans ?_, h7⟩
  have : q * (16 * ‖E1‖ + 12 * ‖F‖) ≤ q * (16 * ‖E1‖ + 12 * (2 * ‖E1‖)) := by gcongr
  linarith

end Spec.LowPower

end Angler
