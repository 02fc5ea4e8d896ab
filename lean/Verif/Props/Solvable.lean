import Verif.Lemmas.Stable

/-! # C75: when the linear systems are solvable -/

namespace Angler

open Matrix

variable {Nx Ny : ℕ}

/-! ## Specification -/

/-- The material absorbs at every cell, or amplifies at every cell. -/
def Spec.LossEverywhere (eps : Grid Nx Ny ℂ) : Prop := (∀ i j, (eps i j).im < 0) ∨ ∀ i j, 0 < (eps i j).im

/-- A focusing Kerr nonlinearity: `χ` times the region is nowhere negative, and a scaled one is used with `ε_max > 1` and `Re ε ≥ 1`. -/
def Spec.Focusing (n : Nonlinearity Nx Ny) (eps : Grid Nx Ny ℂ) : Prop :=
  ∀ i j, 0 ≤ n.chi * n.nl_region i j ∧ match n.scale with | some m => 1 < (m : ℝ) ∧ 1 ≤ (eps i j).re | none => True

/-- The coarseness condition: at each cell the permittivity term outweighs the differences; `m` bounds the permittivity from below. -/
def Spec.Coarse (s : Sim Nx Ny) (m : ℝ) : Prop := 0 < s.dl ∧ 8 / (MU_0 * s.L0 * s.dl ^ 2) < s.omega ^ 2 * EPSILON_0 * s.L0 * m

/-! ## Kerr coefficients -/

theorem kerrCoef_re (n : Nonlinearity Nx Ny) (eps : Grid Nx Ny ℂ) (h : Spec.Focusing n eps) (i : Fin Nx) (j : Fin Ny) : 0 ≤ (Spec.kerrCoef n eps i j).re := by
  obtain ⟨h1, h2⟩ := h i j
  unfold Spec.kerrCoef
  rw [show (3 : ℂ) * (n.chi : ℂ) * (n.nl_region i j : ℂ) = ((3 * (n.chi * n.nl_region i j) : ℝ) : ℂ) by push_cast; ring, Complex.re_ofReal_mul]
  refine mul_nonneg (by linarith) ?_
  cases hs : n.scale with
  | none => simp
  | some m =>
    rw [hs] at h2
    simp only
    rw [← Complex.ofReal_one, ← Complex.ofReal_sub, Complex.div_ofReal_re, Complex.sub_re, Complex.ofReal_re]
    exact div_nonneg (by linarith [h2.2]) (by linarith [h2.1])

theorem kerrCoef_im (n : Nonlinearity Nx Ny) (eps : Grid Nx Ny ℂ) (h : Spec.Focusing n eps) (τ : ℝ) (i : Fin Nx) (j : Fin Ny) (ht : 0 ≤ τ * (eps i j).im) : 0 ≤ τ * (Spec.kerrCoef n eps i j).im := by
  obtain ⟨h1, h2⟩ := h i j
  unfold Spec.kerrCoef
  rw [show (3 : ℂ) * (n.chi : ℂ) * (n.nl_region i j : ℂ) = ((3 * (n.chi * n.nl_region i j) : ℝ) : ℂ) by push_cast; ring, Complex.im_ofReal_mul]
  cases hs : n.scale with
  | none => simp
  | some m =>
    rw [hs] at h2
    simp only
    rw [← Complex.ofReal_one, ← Complex.ofReal_sub, Complex.div_ofReal_im, Complex.sub_im, Complex.ofReal_im, sub_zero,
      show τ * (3 * (n.chi * n.nl_region i j) * ((eps i j).im / ((m : ℝ) - 1))) = 3 * (n.chi * n.nl_region i j) * (τ * (eps i j).im / ((m : ℝ) - 1)) by ring]
    exact mul_nonneg (by linarith) (div_nonneg ht (by linarith [h2.1]))

theorem kerrSum_re (l : List (Nonlinearity Nx Ny)) (eps : Grid Nx Ny ℂ) (h : ∀ n ∈ l, Spec.Focusing n eps) (i : Fin Nx) (j : Fin Ny) : 0 ≤ (Spec.kerrSum l eps i j).re := by
  unfold Spec.kerrSum
  induction l with
  | nil => simp
  | cons n l ih =>
    rw [List.map_cons, List.sum_cons, Complex.add_re]
    exact add_nonneg (kerrCoef_re n eps (h n (by simp)) i j) (ih fun k hk => h k (by simp [hk]))

theorem kerrSum_im (l : List (Nonlinearity Nx Ny)) (eps : Grid Nx Ny ℂ) (h : ∀ n ∈ l, Spec.Focusing n eps) (τ : ℝ) (i : Fin Nx) (j : Fin Ny) (ht : 0 ≤ τ * (eps i j).im) :
    0 ≤ τ * (Spec.kerrSum l eps i j).im := by
  unfold Spec.kerrSum
  induction l with
  | nil => simp
  | cons n l ih =>
    rw [List.map_cons, List.sum_cons, Complex.add_im, mul_add]
    exact add_nonneg (kerrCoef_im n eps (h n (by simp)) τ i j ht) (ih fun k hk => h k (by simp [hk]))

theorem bornMat_spdiag (s : Sim Nx Ny) (F : Grid Nx Ny ℂ) :
    bornMat s F = s.A + spdiag fun k => ((s.omega ^ 2 * EPSILON_0 * s.L0 : ℝ) : ℂ) * flatten (fun i j => Spec.kerrSum s.nonlinearity s.eps_r i j * ((‖F i j‖ ^ 2 : ℝ) : ℂ)) k := rfl

/-! ## Loss everywhere -/

/-- **C75, lossy devices.** Without absorbing layers, a device whose material absorbs everywhere has, for either polarisation, every frequency and every resolution, exactly one field for each
source, and `solve_fields` returns it. -/
theorem C75_lossy (s : Sim Nx Ny) (hv : s.Valid) (hP : s.NPML = (0, 0)) (hx : 1 < Nx) (hy : 1 < Ny) (hl : Spec.LossEverywhere s.eps_r) :
    s.A.det ≠ 0 ∧ ∀ (env : Env) (_ : env.Exact) (avg : Bool), ∃ X Y Z, (s.solve_fields env false avg).1 = .ok (X, Y, Z) ∧ s.A *ᵥ flatten Z = s.rhs ∧ ∀ W, s.A *ᵥ flatten W = s.rhs → W = Z := by
  have hd : s.A.det ≠ 0 := by
    obtain ⟨τ, hτ⟩ : ∃ τ : ℝ, ∀ i j, 0 < τ * (s.eps_r i j).im := by
      rcases hl with h | h
      · exact ⟨-1, fun i j => by linarith [h i j]⟩
      · exact ⟨1, fun i j => by linarith [h i j]⟩
    have hz : (spdiag fun k => ((s.omega ^ 2 * EPSILON_0 * s.L0 : ℝ) : ℂ) * flatten (0 : Grid Nx Ny ℂ) k) = 0 := by
      have : (fun k => ((s.omega ^ 2 * EPSILON_0 * s.L0 : ℝ) : ℂ) * flatten (0 : Grid Nx Ny ℂ) k) = 0 := by
        funext k
        show _ * (0 : ℂ) = 0
        rw [mul_zero]
      rw [this]
      exact Matrix.diagonal_zero
    cases hp : s.pol with
    | Ez =>
      have := lossy_Ez s hv hp hP hx hy 0 τ (fun i j => by simpa using hτ i j)
      rwa [hz, add_zero] at this
    | Hz =>
      have := lossy_Hz s hv hp hP hx hy 0 τ hτ (fun i j => by simp) (fun i j => by simp)
      rwa [hz, add_zero] at this
  refine ⟨hd, fun env he avg => ?_⟩
  have h3 : (s.in_plane avg s.eps_r (solver_direct env s.A s.rhs)).2.2 = unflatten (solver_direct env s.A s.rhs) := by
    unfold Sim.in_plane
    cases s.pol <;> rfl
  refine ⟨_, _, unflatten (solver_direct env s.A s.rhs), by rw [← h3]; rfl, ?_, fun W hW => ?_⟩
  · rw [flatten_unflatten, solver_direct_spec he (Or.inl hd)]
  · rw [solver_direct_unique he hd hW, unflatten_flatten]

/-- **C75, lossy Kerr devices.** With focusing nonlinearities the systems met by the nonlinear solvers, with the Kerr index frozen at any field, are nonsingular too. -/
theorem C75_lossy_frozen (s : Sim Nx Ny) (hv : s.Valid) (hP : s.NPML = (0, 0)) (hx : 1 < Nx) (hy : 1 < Ny) (hl : Spec.LossEverywhere s.eps_r) (hn : ∀ n ∈ s.nonlinearity, Spec.Focusing n s.eps_r)
    (F : Grid Nx Ny ℂ) : (s.A + (s.compute_nl F).Anl.getD 0).det ≠ 0 := by
  rw [compute_nl_Anl, Option.getD_some]
  show (bornMat s F).det ≠ 0
  rw [bornMat_spdiag]
  obtain ⟨τ, hτ⟩ : ∃ τ : ℝ, ∀ i j, 0 < τ * (s.eps_r i j).im := by
    rcases hl with h | h
    · exact ⟨-1, fun i j => by linarith [h i j]⟩
    · exact ⟨1, fun i j => by linarith [h i j]⟩
  have him : ∀ i j, 0 ≤ τ * (Spec.kerrSum s.nonlinearity s.eps_r i j * ((‖F i j‖ ^ 2 : ℝ) : ℂ)).im := fun i j => by
    rw [Complex.im_mul_ofReal, ← mul_assoc]
    exact mul_nonneg (kerrSum_im _ _ hn τ i j (hτ i j).le) (sq_nonneg _)
  cases hp : s.pol with
  | Ez =>
    refine lossy_Ez s hv hp hP hx hy _ τ fun i j => ?_
    rw [Complex.add_im, mul_add]
    exact add_pos_of_pos_of_nonneg (hτ i j) (him i j)
  | Hz =>
    refine lossy_Hz s hv hp hP hx hy _ τ hτ him fun i j => ?_
    rw [Complex.re_mul_ofReal]
    exact mul_nonneg (kerrSum_re _ _ hn i j) (sq_nonneg _)

/-! ## Coarse grids -/

theorem norm_permittivity_ge (s : Sim Nx Ny) (hv : s.Valid) (m : ℝ) (e f : ℂ) (h : m ≤ ‖e‖) :
    s.omega ^ 2 * EPSILON_0 * s.L0 * m * ‖f‖ ≤ ‖((s.omega ^ 2 * EPSILON_0 * s.L0 : ℝ) : ℂ) * e * f‖ := by
  have hc : 0 ≤ s.omega ^ 2 * EPSILON_0 * s.L0 := by have := EPSILON_0_pos; have := hv.L0_pos; positivity
  rw [norm_mul, norm_mul, Complex.norm_real, Real.norm_of_nonneg hc]
  gcongr

/-- **C75, coarse grids.** With absorbing layers or without, an Ez device on a coarse grid is solvable: the field is at most a fixed multiple of the source. -/
theorem C75_coarse (s : Sim Nx Ny) (hv : s.Valid) (hp : s.pol = .Ez) (hx : 1 < Nx) (hy : 1 < Ny) (m : ℝ) (hm : ∀ i j, m ≤ ‖s.eps_r i j‖) (hC : Spec.Coarse s m) :
    s.A.det ≠ 0 ∧ ∀ f : Grid Nx Ny ℂ, (s.omega ^ 2 * EPSILON_0 * s.L0 * m - 8 / (MU_0 * s.L0 * s.dl ^ 2)) * ‖f‖ ≤ ‖(unflatten (s.A *ᵥ flatten f) : Grid Nx Ny ℂ)‖ := by
  have key : ∀ f : Grid Nx Ny ℂ, (s.omega ^ 2 * EPSILON_0 * s.L0 * m - 8 / (MU_0 * s.L0 * s.dl ^ 2)) * ‖f‖ ≤ ‖(unflatten (s.A *ᵥ flatten f) : Grid Nx Ny ℂ)‖ := by
    intro f
    refine stable_Ez s hv hp hC.1 hx hy f 0 _ _ (fun i j => ?_) ?_
    · show _ ≤ ‖_ + (0 : ℂ)‖
      rw [add_zero]
      exact norm_permittivity_ge s hv m _ _ (hm i j)
    · rw [flatten_unflatten, show flatten (0 : Grid Nx Ny ℂ) = 0 from rfl, add_zero]
  refine ⟨det_ne_zero_of_inj fun v hv0 => ?_, key⟩
  have h := key (unflatten v)
  rw [flatten_unflatten, hv0, show (unflatten (0 : Vec (Nx * Ny) ℂ) : Grid Nx Ny ℂ) = 0 from rfl, norm_zero] at h
  have h2 : ‖(unflatten v : Grid Nx Ny ℂ)‖ = 0 := le_antisymm (by nlinarith [hC.2, norm_nonneg (unflatten v : Grid Nx Ny ℂ)]) (norm_nonneg _)
  rw [← flatten_unflatten (Nx := Nx) (Ny := Ny) v, flatten_eq_zero]
  exact norm_eq_zero.1 h2

/-- **C75, coarse grids, Kerr.** With focusing nonlinearities the frozen systems are nonsingular at every field. -/
theorem C75_coarse_frozen (s : Sim Nx Ny) (hv : s.Valid) (hp : s.pol = .Ez) (hx : 1 < Nx) (hy : 1 < Ny) (m : ℝ) (hm : ∀ i j, m ≤ (s.eps_r i j).re) (hC : Spec.Coarse s m)
    (hn : ∀ n ∈ s.nonlinearity, Spec.Focusing n s.eps_r) (F : Grid Nx Ny ℂ) : (s.A + (s.compute_nl F).Anl.getD 0).det ≠ 0 := by
  rw [compute_nl_Anl, Option.getD_some]
  show (bornMat s F).det ≠ 0
  rw [bornMat_spdiag]
  refine wellposed_Ez s hv hp hC.1 hx hy _ fun i j => lt_of_lt_of_le hC.2 ?_
  have hc : 0 ≤ s.omega ^ 2 * EPSILON_0 * s.L0 := by have := EPSILON_0_pos; have := hv.L0_pos; positivity
  have h1 : m ≤ (s.eps_r i j + Spec.kerrSum s.nonlinearity s.eps_r i j * ((‖F i j‖ ^ 2 : ℝ) : ℂ)).re := by
    rw [Complex.add_re, Complex.re_mul_ofReal]
    have := mul_nonneg (kerrSum_re _ _ hn i j) (sq_nonneg ‖F i j‖)
    linarith [hm i j]
  have h2 := h1.trans (Complex.re_le_norm _)
  gcongr

/-- **C75, coarse grids, Newton.** If moreover the Kerr coefficient is real, Newton's linearised systems are nonsingular at every field. -/
theorem C75_coarse_newton (s : Sim Nx Ny) (hv : s.Valid) (hp : s.pol = .Ez) (hx : 1 < Nx) (hy : 1 < Ny) (m : ℝ) (hm : ∀ i j, m ≤ (s.eps_r i j).re) (hC : Spec.Coarse s m)
    (hn : ∀ n ∈ s.nonlinearity, Spec.Focusing n s.eps_r ∧ (n.scale = none ∨ ∀ i j, (s.eps_r i j).im = 0)) (F : Grid Nx Ny ℂ) :
    (Areal (nl_eq_and_jac s F).1.2.1 (nl_eq_and_jac s F).1.2.2).det ≠ 0 := by
  have hc : 0 ≤ s.omega ^ 2 * EPSILON_0 * s.L0 := by have := EPSILON_0_pos; have := hv.L0_pos; positivity
  have hK : ∀ i j, ∃ k : ℝ, 0 ≤ k ∧ Spec.kerrSum s.nonlinearity s.eps_r i j = (k : ℂ) := by
    intro i j
    have him : ∀ l : List (Nonlinearity Nx Ny), (∀ n ∈ l, n.scale = none ∨ ∀ i j, (s.eps_r i j).im = 0) → (Spec.kerrSum l s.eps_r i j).im = 0 := by
      intro l hl
      unfold Spec.kerrSum
      induction l with
      | nil => simp
      | cons n l ih =>
        rw [List.map_cons, List.sum_cons, Complex.add_im, ih fun k hk => hl k (by simp [hk]), add_zero]
        unfold Spec.kerrCoef
        rw [show (3 : ℂ) * (n.chi : ℂ) * (n.nl_region i j : ℂ) = ((3 * (n.chi * n.nl_region i j) : ℝ) : ℂ) by push_cast; ring, Complex.im_ofReal_mul]
        rcases hl n (by simp) with h | h
        · rw [h]; simp
        · cases n.scale with
          | none => simp
          | some q =>
            simp only
            rw [← Complex.ofReal_one, ← Complex.ofReal_sub, Complex.div_ofReal_im, Complex.sub_im, Complex.ofReal_im, h i j]
            simp
    exact ⟨_, kerrSum_re _ _ (fun n h => (hn n h).1) i j, Complex.ext rfl (him _ fun n h => (hn n h).2)⟩
  rw [Areal_det_ne_zero_iff]
  intro x hx0
  rw [← flatten_unflatten (Nx := Nx) (Ny := Ny) x] at hx0 ⊢
  generalize (unflatten x : Grid Nx Ny ℂ) = f at hx0 ⊢
  rw [flatten_eq_zero]
  set c : ℝ := s.omega ^ 2 * EPSILON_0 * s.L0 with hcdef
  have hst := stable_Ez s hv hp hC.1 hx hy f (fun i j => 2 * ((c : ℂ) * Spec.kerrSum s.nonlinearity s.eps_r i j * (F i j * (starRingEnd ℂ) (F i j)) * f i j) +
      (c : ℂ) * (starRingEnd ℂ) (Spec.kerrSum s.nonlinearity s.eps_r i j) * F i j * F i j * (starRingEnd ℂ) (f i j)) 0 (c * m) (fun i j => ?_) ?_
  · rw [norm_zero] at hst
    refine norm_eq_zero.1 (le_antisymm ?_ (norm_nonneg _))
    nlinarith [hC.2, norm_nonneg f]
  · obtain ⟨k, hk0, hk⟩ := hK i j
    rw [← hcdef, hk, Complex.conj_ofReal]
    have e1 : (c : ℂ) * s.eps_r i j * f i j + (2 * ((c : ℂ) * (k : ℂ) * (F i j * (starRingEnd ℂ) (F i j)) * f i j) + (c : ℂ) * (k : ℂ) * F i j * F i j * (starRingEnd ℂ) (f i j)) =
        (c : ℂ) * ((s.eps_r i j + ((2 * k * ‖F i j‖ ^ 2 : ℝ) : ℂ)) * f i j + (k : ℂ) * F i j ^ 2 * (starRingEnd ℂ) (f i j)) := by
      rw [Complex.mul_conj, Complex.normSq_eq_norm_sq]
      push_cast
      ring
    rw [e1, norm_mul, Complex.norm_real, Real.norm_of_nonneg hc, mul_assoc]
    refine mul_le_mul_of_nonneg_left ?_ hc
    have h1 : ‖(k : ℂ) * F i j ^ 2 * (starRingEnd ℂ) (f i j)‖ = k * ‖F i j‖ ^ 2 * ‖f i j‖ := by
      rw [norm_mul, norm_mul, norm_pow, RCLike.norm_conj, Complex.norm_real, Real.norm_of_nonneg hk0]
    have h2 : m + 2 * k * ‖F i j‖ ^ 2 ≤ ‖s.eps_r i j + ((2 * k * ‖F i j‖ ^ 2 : ℝ) : ℂ)‖ := by
      refine le_trans ?_ (Complex.re_le_norm _)
      rw [Complex.add_re, Complex.ofReal_re]
      linarith [hm i j]
    have h3 := norm_sub_le_norm_add ((s.eps_r i j + ((2 * k * ‖F i j‖ ^ 2 : ℝ) : ℂ)) * f i j) ((k : ℂ) * F i j ^ 2 * (starRingEnd ℂ) (f i j))
    rw [h1, norm_mul] at h3
    have h4 := mul_le_mul_of_nonneg_right h2 (norm_nonneg (f i j))
    have h5 : 0 ≤ k * ‖F i j‖ ^ 2 * ‖f i j‖ := by positivity
    nlinarith
  · refine flat_ext fun i j => ?_
    have h : ((nl_eq_and_jac s F).1.2.1 *ᵥ flatten f) (finProdFinEquiv (i, j)) +
        ((nl_eq_and_jac s F).1.2.2 *ᵥ flatten fun i j => (starRingEnd ℂ) (f i j)) (finProdFinEquiv (i, j)) = 0 := congrFun hx0 (finProdFinEquiv (i, j))
    rw [nl_jac11, nl_jac12, ← hcdef] at h
    rw [Pi.add_apply, flatten_pair, flatten_pair]
    simp only [Pi.zero_apply]
    rw [← h]
    ring

/-! ## Resonance -/

/-- **C75, negation for other devices.** A lossless device without absorbing layers can be in resonance: its system is singular, and for some source there is no field at all. -/
theorem C75_resonance : ∃ s : Sim 2 2, s.Valid ∧ s.NPML = (0, 0) ∧ (∀ i j, s.eps_r i j = 4) ∧ s.A.det = 0 ∧ ∀ W, s.A *ᵥ W ≠ s.rhs := by
  let f : Grid 2 2 ℂ := fun i _ => if i = 0 then 1 else -1
  have h0 : ∀ g : Grid 2 2 ℂ, (wsim .Ez (fun _ _ => 4) f).A *ᵥ flatten g = flatten fun i j => 2 * (g (1 - i) j - g i j) + 2 * (g i (1 - j) - g i j) + 4 * g i j := fun g => wsim_Ez_apply _ _ _
  refine ⟨wsim .Ez (fun _ _ => 4) f, wsim_valid _ _ _, rfl, fun _ _ => rfl, ?_, fun W hW => ?_⟩
  · refine Matrix.exists_mulVec_eq_zero_iff.1 ⟨flatten f, fun h => ?_, ?_⟩
    · have := congrFun h (finProdFinEquiv (0, 0))
      rw [flatten_pair] at this
      norm_num [f] at this
    · rw [h0]
      refine flat_ext fun i j => ?_
      fin_cases i <;> fin_cases j <;> norm_num [f, flatten_pair]
  · obtain ⟨g, rfl⟩ : ∃ g : Grid 2 2 ℂ, W = flatten g := ⟨unflatten W, (flatten_unflatten W).symm⟩
    rw [h0] at hW
    have hp := fun i j => congrFun hW (finProdFinEquiv (i, j))
    simp only [flatten_pair, Sim.rhs] at hp
    have h00 := hp 0 0
    have h01 := hp 0 1
    have h10 := hp 1 0
    have h11 := hp 1 1
    norm_num [wsim, f, flatten_pair] at h00 h01 h10 h11
    have : (4 : ℂ) * Complex.I = 0 := by linear_combination -h00 - h01 + h10 + h11
    simpa using this

/-! ## Examples -/

/-- An absorbing Hz device, of any size. -/
example (src : Grid 2 2 ℂ) : (wsim .Hz (fun i _ => if i = 0 then 4 - Complex.I else 1 - 2 * Complex.I) src).A.det ≠ 0 :=
  (C75_lossy _ (wsim_valid .Hz (fun i _ => if i = 0 then 4 - Complex.I else 1 - 2 * Complex.I) src) rfl one_lt_two one_lt_two (Or.inl fun i j => by
    fin_cases i <;> simp [wsim])).1

/-- A Kerr device with `P` absorbing cells, of any size, in normalised units. -/
noncomputable def cksim (P : ℕ) (chi : ℝ) (eps src : Grid Nx Ny ℂ) : Sim Nx Ny := { fsim P eps src with nonlinearity := [⟨chi, fun _ _ => 1, none⟩] }

theorem cksim_valid (P : ℕ) (chi : ℝ) (eps src : Grid Nx Ny ℂ) : (cksim P chi eps src).Valid := { fsim_valid P eps src with }

theorem fsim_coarse (P : ℕ) (eps src : Grid Nx Ny ℂ) : Spec.Coarse (fsim P eps src) 1 := by
  refine ⟨fsim_dl_pos P eps src, ?_⟩
  show 8 / (MU_0 * (1 / EPSILON_0) * (3 / ETA_0) ^ 2) < (1 : ℝ) ^ 2 * EPSILON_0 * (1 / EPSILON_0) * 1
  rw [mu0_norm, one_pow, one_mul, mul_one_div_cancel EPSILON_0_pos.ne', one_mul]
  have h1 : ETA_0 ^ 2 * (3 / ETA_0) ^ 2 = 9 := by
    have := ETA_0_pos.ne'
    field_simp; norm_num
  rw [h1]
  norm_num

theorem cksim_coarse (P : ℕ) (chi : ℝ) (eps src : Grid Nx Ny ℂ) : Spec.Coarse (cksim P chi eps src) 1 := fsim_coarse P eps src

theorem cksim_focusing (P : ℕ) (chi : ℝ) (hchi : 0 ≤ chi) (eps src : Grid Nx Ny ℂ) : ∀ n ∈ (cksim P chi eps src).nonlinearity, Spec.Focusing n (cksim P chi eps src).eps_r ∧
    (n.scale = none ∨ ∀ i j, ((cksim P chi eps src).eps_r i j).im = 0) := by
  intro n hn
  obtain rfl : n = ⟨chi, fun _ _ => 1, none⟩ := by simpa [cksim] using hn
  exact ⟨fun i j => ⟨by simpa using hchi, trivial⟩, Or.inl rfl⟩

/-- Any layers, any size, any source, any permittivity with real part at least one. -/
theorem cksim_regular (hx : 1 < Nx) (hy : 1 < Ny) (P : ℕ) (chi : ℝ) (hchi : 0 ≤ chi) (eps src : Grid Nx Ny ℂ) (he : ∀ i j, 1 ≤ (eps i j).re) :
    (cksim P chi eps src).A.det ≠ 0 ∧ (∀ F, (bornMat (cksim P chi eps src) F).det ≠ 0) ∧ ∀ F, Spec.JacRegular (cksim P chi eps src) F := by
  refine ⟨(C75_coarse _ (cksim_valid P chi eps src) rfl hx hy 1 (fun i j => (he i j).trans (Complex.re_le_norm _)) (cksim_coarse P chi eps src)).1, fun F => ?_, fun F => ?_⟩
  · have := C75_coarse_frozen _ (cksim_valid P chi eps src) rfl hx hy 1 he (cksim_coarse P chi eps src) (fun n hn => (cksim_focusing P chi hchi eps src n hn).1) F
    rwa [compute_nl_Anl] at this
  · exact C75_coarse_newton _ (cksim_valid P chi eps src) rfl hx hy 1 he (cksim_coarse P chi eps src) (cksim_focusing P chi hchi eps src) F

end Angler
