import Verif.Lemmas.NonlinearWitness
import Verif.Props.Kerr
import Verif.Lemmas.NewtonWitness

/-! # C24–C28: Born, Newton and hybrid solvers -/

namespace Angler

open Matrix

variable {Nx Ny : ℕ}

/-! ## C24 -/

/-- `E` with suitable `Hx`, `Hy` satisfies Maxwell's equations (Ez polarisation, in terms of the difference operators of the simulation, cf. C13) for the permittivity
`ε + Σ 3χ|E|²`. -/
def Spec.KerrMaxwellEz (s : Sim Nx Ny) (E : Grid Nx Ny ℂ) : Prop :=
  ∃ Hx Hy : Grid Nx Ny ℂ,
    (Complex.I * s.omega * (MU_0 * s.L0 : ℝ)) • flatten Hx = -(s.derivs.Dyb *ᵥ flatten E) ∧
    (Complex.I * s.omega * (MU_0 * s.L0 : ℝ)) • flatten Hy = s.derivs.Dxb *ᵥ flatten E ∧
    s.derivs.Dxf *ᵥ flatten Hy - s.derivs.Dyf *ᵥ flatten Hx
      - flatten (fun i j => Complex.I * s.omega * ((EPSILON_0 * s.L0 : ℝ) * (s.eps_r i j + Spec.kerrSum s.nonlinearity s.eps_r i j * (‖E i j‖ : ℂ) ^ 2)) * E i j) = flatten s.src

/-- The matrix equation the solvers work with is that system with the in-plane fields eliminated. -/
theorem kerrMaxwellEz_iff (s : Sim Nx Ny) (hv : s.Valid) (hp : s.pol = .Ez) (E : Grid Nx Ny ℂ) :
    Spec.KerrMaxwellEz s E ↔ bornMat s E *ᵥ flatten E = s.rhs := by
  have ho : (s.omega : ℂ) ≠ 0 := by exact_mod_cast hv.omega_pos.ne'
  have hM : ((MU_0 * s.L0 : ℝ) : ℂ) ≠ 0 := by exact_mod_cast (mul_pos MU_0_pos hv.L0_pos).ne'
  have hI := Complex.I_ne_zero
  have hZ : Complex.I * s.omega * ((MU_0 * s.L0 : ℝ) : ℂ) ≠ 0 := mul_ne_zero (mul_ne_zero hI ho) hM
  have hAe : s.A = (1 / ((MU_0 * s.L0 : ℝ) : ℂ)) • (s.derivs.Dxf * s.derivs.Dxb) + (1 / ((MU_0 * s.L0 : ℝ) : ℂ)) • (s.derivs.Dyf * s.derivs.Dyb)
      + ((s.omega : ℂ) ^ 2) • spdiag (fun k => ((EPSILON_0 * s.L0 : ℝ) : ℂ) * flatten s.eps_r k) := by
    rw [hv.derivs_eq]
    exact hv.A_eq.trans (by rw [hp]; rfl)
  have hB : bornMat s E *ᵥ flatten E = (1 / ((MU_0 * s.L0 : ℝ) : ℂ)) • (s.derivs.Dxf *ᵥ (s.derivs.Dxb *ᵥ flatten E)) +
      (1 / ((MU_0 * s.L0 : ℝ) : ℂ)) • (s.derivs.Dyf *ᵥ (s.derivs.Dyb *ᵥ flatten E)) +
      flatten (fun i j => (s.omega : ℂ) ^ 2 * ((EPSILON_0 * s.L0 : ℝ) * (s.eps_r i j + Spec.kerrSum s.nonlinearity s.eps_r i j * (‖E i j‖ : ℂ) ^ 2)) * E i j) := by
    rw [bornMat, Matrix.add_mulVec, kerrMat_mulVec, hAe]
    simp only [Matrix.add_mulVec, smul_mulVec, ← Matrix.mulVec_mulVec, spdiag_mulVec, add_assoc]
    congr 2
    refine flat_ext fun i j => ?_
    simp only [Pi.add_apply, Pi.smul_apply, smul_eq_mul, flatten_pair]
    push_cast
    ring
  have hrhs : s.rhs = (Complex.I * (s.omega : ℂ)) • flatten s.src := by
    funext k; simp only [Sim.rhs, Pi.smul_apply, smul_eq_mul]; ring
  rw [hB, hrhs]
  constructor
  · rintro ⟨Hx, Hy, h1, h2, h3⟩
    rw [← h2, ← neg_eq_iff_eq_neg.2 h1, ← h3, Matrix.mulVec_neg, Matrix.mulVec_smul, Matrix.mulVec_smul, smul_neg, smul_smul, smul_smul]
    refine flat_ext fun i j => ?_
    simp only [Pi.add_apply, Pi.sub_apply, Pi.neg_apply, Pi.smul_apply, smul_eq_mul, flatten_pair]
    generalize ((EPSILON_0 * s.L0 : ℝ) : ℂ) = e0
    generalize ((MU_0 * s.L0 : ℝ) : ℂ) = m0 at hM
    field_simp
    linear_combination ((s.omega : ℂ) * e0 * (s.eps_r i j + Spec.kerrSum s.nonlinearity s.eps_r i j * (‖E i j‖ : ℂ) ^ 2) * E i j) * Complex.I_sq
  · intro h
    refine ⟨unflatten ((-(1 / (Complex.I * s.omega * ((MU_0 * s.L0 : ℝ) : ℂ)))) • (s.derivs.Dyb *ᵥ flatten E)),
      unflatten ((1 / (Complex.I * s.omega * ((MU_0 * s.L0 : ℝ) : ℂ))) • (s.derivs.Dxb *ᵥ flatten E)), ?_, ?_, ?_⟩
    · rw [flatten_unflatten, smul_smul, mul_neg, mul_one_div_cancel hZ, neg_smul, one_smul]
    · rw [flatten_unflatten, smul_smul, mul_one_div_cancel hZ, one_smul]
    · rw [flatten_unflatten, flatten_unflatten, Matrix.mulVec_smul, Matrix.mulVec_smul]
      refine flat_ext fun i j => ?_
      have hk := congrFun h (finProdFinEquiv (i, j))
      simp only [Pi.add_apply, Pi.sub_apply, Pi.smul_apply, smul_eq_mul, flatten_pair] at hk ⊢
      have hk' : s.src i j = (1 / (Complex.I * s.omega)) * (Complex.I * s.omega * s.src i j) := by field_simp
      rw [hk', ← hk]
      generalize ((EPSILON_0 * s.L0 : ℝ) : ℂ) = e0
      generalize ((MU_0 * s.L0 : ℝ) : ℂ) = m0 at hM
      field_simp
      linear_combination (-((s.omega : ℂ) ^ 2 * e0 * m0 * (s.eps_r i j + Spec.kerrSum s.nonlinearity s.eps_r i j * (‖E i j‖ : ℂ) ^ 2) * E i j)) * Complex.I_sq

/-- **C24 (partial), Born.** For Ez: one pass of the Born loop reproduces the field exactly when it solves the Kerr–Maxwell equation.
Full claim: every simulation.  Missing: Hz polarisation, where it is false (`C24_Hz_fixed_point_not_maxwell`). -/
theorem C24_born_fixed_partial (env : Env) (he : env.Exact) (s : Sim Nx Ny) (hv : s.Valid) (hp : s.pol = .Ez) (E : Grid Nx Ny ℂ)
    (hdet : (bornMat s E).det ≠ 0) (thr : ℝ) (istep : ℕ) (conv : List PyFloat) (last) :
    (∃ Fx Fy c cv s', bornLoop env thr 1 istep s E conv last = (.ok (some (Fx, Fy, E, c), cv), s')) ↔ Spec.KerrMaxwellEz s E := by
  rw [kerrMaxwellEz_iff s hv hp]
  obtain ⟨n, conv', hn, heq, -⟩ := bornLoop_spec env thr 0 istep s E conv last
  obtain rfl : n = 0 := by omega
  rw [heq]
  have hE : bornIter env s E (0 + 1) = unflatten (solver_direct env (bornMat s E) s.rhs) := by
    rw [bornIter_succ, bornIter_zero, bornStep_third]
  constructor
  · rintro ⟨Fx, Fy, c, cv, s', h⟩
    simp only [Prod.mk.injEq, Except.ok.injEq, Option.some.injEq] at h
    have h1 := h.1.1.2.2.1
    rw [hE] at h1
    have h2 := congrArg flatten h1
    rw [flatten_unflatten] at h2
    have := solver_direct_spec he (A := bornMat s E) (b := s.rhs) (Or.inl hdet)
    rwa [h2] at this
  · intro h
    have := solver_direct_unique he hdet h
    rw [this, unflatten_flatten] at hE
    exact ⟨_, _, _, _, _, by rw [hE]⟩

theorem nl_eq_bornMat (s : Sim Nx Ny) (E : Grid Nx Ny ℂ) : (nl_eq_and_jac s E).1.1 = bornMat s E *ᵥ flatten E - s.rhs := by
  rw [nl_eq_residual]
  funext k
  rw [bornMat, Matrix.add_mulVec, kerrMat_mulVec]
  rfl

/-- **C24 (partial), Newton.** For Ez: one pass of the Newton loop returns the same field exactly when it solves the Kerr–Maxwell equation (both backends). -/
theorem C24_newton_fixed_partial (env : Env) (he : env.Exact) (s : Sim Nx Ny) (hv : s.Valid) (hp : s.pol = .Ez) (E : Grid Nx Ny ℂ)
    (hdet : (Areal (nl_eq_and_jac s E).1.2.1 (nl_eq_and_jac s E).1.2.2).det ≠ 0) (thr : ℝ) (istep : ℕ) (conv : List PyFloat) (last) :
    (∃ c cv s', newtonLoop env thr 1 istep s E conv last = (.ok (E, c, cv), s')) ↔ Spec.KerrMaxwellEz s E := by
  rw [kerrMaxwellEz_iff s hv hp]
  have hstep : (∃ c cv s', newtonLoop env thr 1 istep s E conv last = (.ok (E, c, cv), s')) ↔ newtonStep env s E = .ok E := by
    constructor
    · rintro ⟨c, cv, s', h⟩
      obtain ⟨n, it, hn, h0, h1, hs, -⟩ := newtonLoop_spec env thr 0 istep s E conv last _ _ _ _ h
      obtain rfl : n = 0 := by omega
      have := hs 0 (le_refl _)
      rwa [h0, h1] at this
    · intro h
      unfold newtonStep at h
      rw [newtonLoop]
      simp only
      rcases hd : solver_complex2real env (nl_eq_and_jac s E).1.2.1 (nl_eq_and_jac s E).1.2.2 (nl_eq_and_jac s E).1.1 with e | d
      · rw [hd] at h; cases h
      · rw [hd] at h
        have h' : (fun i j => E i j - unflatten d i j) = E := by simpa [Except.map] using h
        simp only [h']
        split
        · exact ⟨_, _, _, rfl⟩
        · exact ⟨_, _, _, rfl⟩
  rw [hstep]
  have hzero : bornMat s E *ᵥ flatten E = s.rhs ↔ (nl_eq_and_jac s E).1.1 = 0 := by rw [nl_eq_bornMat, sub_eq_zero]
  rw [hzero]
  constructor
  · intro h
    by_contra hne
    cases hb : env.backend with
    | scipy =>
      unfold newtonStep at h
      rw [C16_scipy_raises env hb _ _ _ hne] at h
      cases h
    | pardiso =>
      obtain ⟨x, hx, hsol⟩ := C16_complex2real_partial env he (nl_eq_and_jac s E).1.2.1 (nl_eq_and_jac s E).1.2.2 (nl_eq_and_jac s E).1.1 (Or.inl hb) (Or.inl hdet)
      unfold newtonStep at h
      rw [hx] at h
      have h' : (fun i j => E i j - unflatten x i j) = E := by simpa [Except.map] using h
      have hx0 : x = 0 := by
        apply unflatten_injective (Nx := Nx) (Ny := Ny)
        funext i j
        have := congrFun (congrFun h' i) j
        simpa [unflatten] using this
      apply hne
      rw [← hsol, hx0]
      have : (fun k : Fin (Nx * Ny) => (starRingEnd ℂ) ((0 : Vec (Nx * Ny) ℂ) k)) = 0 := by funext k; simp
      rw [this]; simp
  · intro h
    unfold newtonStep
    have : solver_complex2real env (nl_eq_and_jac s E).1.2.1 (nl_eq_and_jac s E).1.2.2 (nl_eq_and_jac s E).1.1 = .ok 0 := by
      unfold solver_complex2real
      rw [if_pos h]
    rw [this]
    simp only [Except.map]
    congr 1
    funext i j
    simp [unflatten]

/-- Non-vacuity of C24 (Born): source `-20i` and the uniform field 1 solve the Kerr witness `10 (1+|f|²) f = 20`. -/
example (env : Env) (he : env.Exact) : Spec.KerrMaxwellEz (psim fun _ _ => -20 * Complex.I) (fun _ _ => 1) := by
  rw [← C24_born_fixed_partial env he _ (psim_valid _) rfl _ (psim_bornMat_det _ 1) 0 0 [] none]
  obtain ⟨n, conv', hn, heq, -⟩ := bornLoop_spec env 0 0 0 (psim fun _ _ => -20 * Complex.I) (fun _ _ => 1) [] none
  obtain rfl : n = 0 := by omega
  rw [heq]
  have : bornIter env (psim fun _ _ => -20 * Complex.I) (fun _ _ => 1) (0 + 1) = fun _ _ => 1 := by
    rw [bornIter_succ, bornIter_zero]
    refine psim_bornStep env he _ 1 1 ?_
    have := Complex.I_mul_I
    norm_num
    linear_combination 20 * this
  rw [this]
  exact ⟨_, _, _, _, _, rfl⟩

/-- Non-vacuity of C24 (Newton): the Jacobian at that field is nonsingular. -/
example (src : Grid 2 2 ℂ) : (Areal (nl_eq_and_jac (psim src) fun _ _ => ((1 : ℝ) : ℂ)).1.2.1 (nl_eq_and_jac (psim src) fun _ _ => ((1 : ℝ) : ℂ)).1.2.2).det ≠ 0 :=
  psim_jac_det src 1

/-- The Hz witness with a Kerr nonlinearity and a uniform source. -/
noncomputable def hzKerr : Sim 2 2 :=
  { wsim .Hz (fun _ _ => 1) (fun _ _ => -((ETA_0 : ℂ) ^ 2 + 1) * Complex.I) with nonlinearity := [⟨1 / 3, fun _ _ => 1, none⟩] }

theorem ETA_0_sq_gt : (1 : ℝ) < ETA_0 ^ 2 := by
  rw [ETA_0, Real.sq_sqrt (div_pos MU_0_pos EPSILON_0_pos).le]
  unfold MU_0 EPSILON_0
  norm_num

/-- **C24, negation for Hz.** The uniform field 1 is a fixed point of the Born loop, but it satisfies the Hz Maxwell equations for no permittivity at all (the code adds the
permittivity shift to the magnetic equation). -/
theorem C24_Hz_fixed_point_not_maxwell (env : Env) (he : env.Exact) (thr : ℝ) :
    (∃ Fx Fy c cv s', bornLoop env thr 1 0 hzKerr (fun _ _ => 1) [.fin 0] none = (.ok (some (Fx, Fy, fun _ _ => 1, c), cv), s')) ∧
    ∀ epsx epsy Ex Ey : Grid 2 2 ℂ, (∀ i j, epsx i j ≠ 0 ∧ epsy i j ≠ 0) →
      ¬ Spec.MaxwellHz hzKerr.omega (MU_0 * hzKerr.L0) hzKerr.dl (fun _ => 1) (fun _ => 1) (fun _ => 1) (fun _ => 1) epsx epsy hzKerr.src Ex Ey fun _ _ => 1 := by
  have hmat : ∀ f : Grid 2 2 ℂ, bornMat hzKerr (fun _ _ => 1) *ᵥ flatten f = flatten fun i j =>
      (ETA_0 : ℂ) ^ 2 * (2 * (f (1 - i) j - f i j) + 2 * (f i (1 - j) - f i j) + f i j) + f i j := by
    intro f
    have hA : hzKerr.A = (wsim .Hz (fun _ _ => 1) (fun _ _ => -((ETA_0 : ℂ) ^ 2 + 1) * Complex.I)).A := rfl
    rw [bornMat, Matrix.add_mulVec, kerrMat_mulVec, hA, wsim_Hz_apply]
    have hs : ∀ i j, Spec.kerrSum hzKerr.nonlinearity hzKerr.eps_r i j = 1 := by
      intro i j; simp [Spec.kerrSum, Spec.kerrCoef, hzKerr]
    refine flat_ext fun i j => ?_
    simp only [Pi.add_apply, flatten_pair, hs, unit_coef hzKerr rfl rfl, norm_one]
    norm_num
  have hgt := ETA_0_sq_gt
  constructor
  · obtain ⟨n, conv', hn, heq, -⟩ := bornLoop_spec env thr 0 0 hzKerr (fun _ _ => 1) [.fin 0] none
    obtain rfl : n = 0 := by omega
    rw [heq]
    have : bornIter env hzKerr (fun _ _ => 1) (0 + 1) = fun _ _ => 1 := by
      rw [bornIter_succ, bornIter_zero, bornStep_third]
      apply flatten_injective
      rw [flatten_unflatten]
      refine solver_direct_unique he (det_ne_zero_of_inj fun v hv => ?_) ?_
      · rw [← flatten_unflatten (Nx := 2) (Ny := 2) v] at hv ⊢
        generalize (unflatten v : Grid 2 2 ℂ) = f at hv ⊢
        rw [hmat, flatten_eq_zero] at hv
        rw [flatten_eq_zero]
        have nz : ∀ r : ℝ, r ≠ 0 → (r : ℂ) ≠ 0 := fun r hr => by exact_mod_cast hr
        refine torus_inj (a := ((1 - 3 * ETA_0 ^ 2 : ℝ) : ℂ)) (b := ((2 * ETA_0 ^ 2 : ℝ) : ℂ)) ?_ (nz _ (by linarith)) ?_ f fun i j => ?_
        · have := nz (1 + ETA_0 ^ 2) (by linarith)
          intro h; apply this; rw [← h]; push_cast; ring
        · have := nz (1 - 7 * ETA_0 ^ 2) (by linarith)
          intro h; apply this; rw [← h]; push_cast; ring
        · have := congrFun (congrFun hv i) j
          simp only [Pi.zero_apply] at this
          rw [← this]
          push_cast
          ring
      · rw [hmat]
        refine flat_ext fun i j => ?_
        have e : hzKerr.rhs (finProdFinEquiv (i, j)) = -((ETA_0 : ℂ) ^ 2 + 1) * Complex.I * Complex.I * ((1 : ℝ) : ℂ) := rfl
        rw [e]
        simp only [flatten_pair]
        have := Complex.I_mul_I
        push_cast
        linear_combination ((ETA_0 : ℂ) ^ 2 + 1) * this
    rw [this]
    exact ⟨_, _, _, _, _, rfl⟩
  · intro epsx epsy Ex Ey hne h
    have hx : Ex = 0 := by
      funext i j
      have h1 := (h i j).1
      simp only [Spec.bwdY, sub_self, zero_div] at h1
      have : (hzKerr.omega : ℂ) = 1 := by simp [hzKerr, wsim]
      rw [this] at h1
      simpa [(hne i j).2] using h1
    have hy : Ey = 0 := by
      funext i j
      have h1 := (h i j).2.1
      simp only [Spec.bwdX, sub_self, zero_div, neg_zero] at h1
      have : (hzKerr.omega : ℂ) = 1 := by simp [hzKerr, wsim]
      rw [this] at h1
      simpa [(hne i j).1] using h1
    have h3 := (h 0 0).2.2
    rw [hx, hy] at h3
    have e1 : (hzKerr.omega : ℂ) = 1 := by simp [hzKerr, wsim]
    have e2 : MU_0 * hzKerr.L0 = ETA_0 ^ 2 := mu0_norm
    have e3 : hzKerr.src 0 0 = -((ETA_0 : ℂ) ^ 2 + 1) * Complex.I := rfl
    rw [e1, e2, e3] at h3
    simp only [Spec.fwdX, Spec.fwdY, Pi.zero_apply, sub_self, zero_div] at h3
    have h4 : Complex.I = 0 := by push_cast at h3; linear_combination h3
    exact Complex.I_ne_zero h4

end Angler
