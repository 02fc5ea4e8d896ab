import Verif.Props.Resume
import Verif.Props.NewtonConverges
import Verif.Props.GradientApprox
import Verif.Props.AscentConverge
import Verif.Props.AscentHz

/-! # A uniform device with a very weak Kerr nonlinearity

Every system the code solves for it can be solved by hand: the linear field, one Born pass, the doubled adjoint system, and the derivative of the returned fields along any path of densities. -/

namespace Angler

open Matrix Filter Topology

variable {Nx Ny : ℕ}

/-- The field of a device with real permittivity `e` driven by the uniform source `-i` (three units per cell, no layers): `A E = 1`. -/
noncomputable def unitField (env : Env) (e : Grid Nx Ny ℝ) : Grid Nx Ny ℂ :=
  unflatten (solver_direct env (fsim 0 (fun i j => (e i j : ℂ)) fun _ _ => -Complex.I : Sim Nx Ny).A (flatten fun _ _ => 1))

theorem unit_apply (hx : 1 < Nx) (hy : 1 < Ny) (a : ℝ) (src : Grid Nx Ny ℂ) (c : ℂ) :
    (fsim 0 (fun _ _ => (a : ℂ)) src : Sim Nx Ny).A *ᵥ flatten (fun _ _ => c : Grid Nx Ny ℂ) = flatten fun _ _ => a * c := by
  rw [fsim_apply hx hy]
  refine flat_ext fun i j => ?_
  rw [flatten_pair, flatten_pair]
  ring

theorem unit_det (hx : 1 < Nx) (hy : 1 < Ny) {e : Grid Nx Ny ℝ} (he : ∀ i j, 1 ≤ e i j) (src : Grid Nx Ny ℂ) : (fsim 0 (fun i j => (e i j : ℂ)) src : Sim Nx Ny).A.det ≠ 0 :=
  fsim_det hx hy 0 _ _ fun i j => by
    rw [Complex.norm_real, Real.norm_eq_abs]
    exact (he i j).trans (le_abs_self _)

theorem unitField_uniform (env : Env) (he : env.Exact) (hx : 1 < Nx) (hy : 1 < Ny) {a : ℝ} (ha : 1 ≤ a) : unitField env (fun _ _ => a : Grid Nx Ny ℝ) = fun _ _ => ((1 / a : ℝ) : ℂ) := by
  have h0 : (a : ℂ) ≠ 0 := by exact_mod_cast (by linarith : a ≠ 0)
  unfold unitField
  have h : solver_direct env (fsim 0 (fun _ _ => (a : ℂ)) fun _ _ => -Complex.I : Sim Nx Ny).A (flatten fun _ _ => 1) = flatten (fun _ _ => ((1 / a : ℝ) : ℂ) : Grid Nx Ny ℂ) := by
    refine solver_direct_unique he (unit_det hx hy (fun _ _ => ha) _) ?_
    rw [unit_apply hx hy]
    push_cast
    rw [mul_one_div_cancel h0]
  rw [h, unflatten_flatten]

theorem unitField_deriv (env : Env) (hex : env.Exact) (hx : 1 < Nx) (hy : 1 < Ny) {a : ℝ} (ha : 1 ≤ a) {e : ℝ → Grid Nx Ny ℝ} {e' : Grid Nx Ny ℝ} (h0 : e 0 = fun _ _ => a)
    (hd : ∀ i j, HasDerivAt (fun t => e t i j) (e' i j) 0) :
    ∃ X' : Grid Nx Ny ℂ, HasDerivAt (fun t => unitField env (e t)) X' 0 ∧ ∑ i, ∑ j, (X' i j).re = -(∑ i, ∑ j, e' i j) / a ^ 2 := by
  have ha0 : (a : ℂ) ≠ 0 := by exact_mod_cast (by linarith : a ≠ 0)
  let xr : ℝ × ℝ := (0, Nx * (3 / ETA_0))
  let yr : ℝ × ℝ := (0, Ny * (3 / ETA_0))
  have hder := fun k l => hasDerivAt_construct_A_Ez (Nx := Nx) (Ny := Ny) 1 xr yr (0, 0) (1 / EPSILON_0) (eps := fun t i j => (e t i j : ℂ)) (deps := fun i j => (e' i j : ℂ))
    (fun i j => (hd i j).ofReal_comp) k l
  let M : ℝ → Mat (Nx * Ny) ℂ := fun t => (fsim 0 (fun i j => (e t i j : ℂ)) fun _ _ => -Complex.I : Sim Nx Ny).A
  have hder' : ∀ k l, HasDerivAt (fun t => M t k l) _ 0 := hder
  have hM0 : M 0 = (fsim 0 (fun _ _ => (a : ℂ)) fun _ _ => -Complex.I : Sim Nx Ny).A := by simp only [M, h0]
  have hdet : (M 0).det ≠ 0 := by rw [hM0]; exact unit_det hx hy (fun _ _ => ha) _
  have hcont : ContinuousAt M 0 := continuousAt_pi.2 fun i => continuousAt_pi.2 fun j => (hder' i j).continuousAt
  have hev : ∀ᶠ t in 𝓝 (0 : ℝ), M t *ᵥ solver_direct env (M t) (flatten fun _ _ => 1) = flatten (fun _ _ => 1 : Grid Nx Ny ℂ) := by
    filter_upwards [(continuousAt_matrix_det hcont).eventually_ne hdet] with t ht
    exact solver_direct_spec hex (Or.inl ht)
  have h := hasDerivAt_linear_solve hder' hdet hev
  set D : Mat (Nx * Ny) ℂ := spdiag fun k => ((1 : ℝ) : ℂ) ^ 2 * ((EPSILON_0 * (1 / EPSILON_0) : ℝ) : ℂ) * flatten (fun i j => (e' i j : ℂ)) k with hD
  set X' : Vec (Nx * Ny) ℂ := -((M 0)⁻¹ *ᵥ (D *ᵥ solver_direct env (M 0) (flatten fun _ _ => 1))) with hX'
  refine ⟨unflatten X', hasDerivAt_pi.2 fun i => hasDerivAt_pi.2 fun j => (hasDerivAt_pi.1 h) _, ?_⟩
  have hX0 : solver_direct env (M 0) (flatten fun _ _ => 1) = flatten (fun _ _ => ((1 / a : ℝ) : ℂ) : Grid Nx Ny ℂ) := by
    have := unitField_uniform env hex hx hy ha
    unfold unitField at this
    rw [hM0, ← flatten_unflatten (Nx := Nx) (Ny := Ny) (solver_direct env _ _), this]
  have hadj : (M 0)ᵀ *ᵥ flatten (fun _ _ => -(1 / a : ℂ) : Grid Nx Ny ℂ) = -(flatten (fun _ _ => 1 : Grid Nx Ny ℂ)) := by
    rw [hM0, fsim_symm, unit_apply hx hy]
    refine flat_ext fun i j => ?_
    rw [Pi.neg_apply, flatten_pair, flatten_pair, mul_neg, mul_one_div_cancel ha0]
  have hid := adjoint_identity hdet hadj (w := D *ᵥ solver_direct env (M 0) (flatten fun _ _ => 1))
  rw [← hX'] at hid
  have hl : flatten (fun _ _ => 1 : Grid Nx Ny ℂ) ⬝ᵥ X' = ∑ i, ∑ j, (unflatten X' : Grid Nx Ny ℂ) i j := by
    rw [dotProduct, sum_flat]
    refine Finset.sum_congr rfl fun i _ => Finset.sum_congr rfl fun j _ => ?_
    rw [flatten_pair, one_mul]
    rfl
  have hr : flatten (fun _ _ => -(1 / a : ℂ) : Grid Nx Ny ℂ) ⬝ᵥ (D *ᵥ solver_direct env (M 0) (flatten fun _ _ => 1)) = ((-(∑ i, ∑ j, e' i j) / a ^ 2 : ℝ) : ℂ) := by
    rw [hX0, hD, spdiag_mulVec, dotProduct, sum_flat]
    push_cast
    rw [← Finset.sum_neg_distrib, Finset.sum_div]
    refine Finset.sum_congr rfl fun i _ => ?_
    rw [← Finset.sum_neg_distrib, Finset.sum_div]
    refine Finset.sum_congr rfl fun j _ => ?_
    have hE : (EPSILON_0 : ℂ) ≠ 0 := by exact_mod_cast EPSILON_0_pos.ne'
    simp only [flatten_pair]
    field_simp
  rw [hl, hr] at hid
  have h2 := congrArg Complex.re hid
  rw [Complex.ofReal_re, Complex.re_sum] at h2
  rw [← h2]
  exact Finset.sum_congr rfl fun i _ => (Complex.re_sum _ _).symm


/-- The Kerr coefficient `3 χ` of the witness. -/
noncomputable def kap : ℝ := 3 * 1e-11

/-- A simulation of the Kerr device of the witness with permittivity `e`, whatever fields it has stored. -/
structure KerrUnit (e : Grid Nx Ny ℝ) (s : Sim Nx Ny) : Prop where
  valid : s.Valid
  L0 : s.L0 = 1 / EPSILON_0
  dl : s.dl = 3 / ETA_0
  omega : s.omega = 1
  NPML : s.NPML = (0, 0)
  pol : s.pol = .Ez
  src : s.src = fun _ _ => -Complex.I
  nonlin : s.nonlinearity = [⟨1e-11, fun _ _ => 1, none⟩]
  eps : s.eps_r = fun i j => (e i j : ℂ)

theorem KerrUnit.keep {e : Grid Nx Ny ℝ} {s s' : Sim Nx Ny} (h : KerrUnit e s) (hk : SimKeep s s') : KerrUnit e s' := by
  have hv := hk.valid h.valid
  unfold SimKeep at hk
  rw [hk] at hv ⊢
  exact ⟨hv, h.L0, h.dl, h.omega, h.NPML, h.pol, h.src, h.nonlin, h.eps⟩

theorem KerrUnit.A_eq {e : Grid Nx Ny ℝ} {s : Sim Nx Ny} (h : KerrUnit e s) : s.A = (fsim 0 (fun i j => (e i j : ℂ)) fun _ _ => -Complex.I : Sim Nx Ny).A := by
  rw [h.valid.A_eq, h.valid.xr, h.valid.yr, h.eps, h.omega, h.dl, h.NPML, h.pol, h.L0]
  rfl

theorem KerrUnit.rhs_eq {e : Grid Nx Ny ℝ} {s : Sim Nx Ny} (h : KerrUnit e s) : s.rhs = flatten (fun _ _ => 1 : Grid Nx Ny ℂ) := by
  unfold Sim.rhs
  rw [h.src, h.omega]
  refine flat_ext fun i j => ?_
  show flatten (fun _ _ => -Complex.I : Grid Nx Ny ℂ) _ * Complex.I * ((1 : ℝ) : ℂ) = _
  rw [flatten_pair, flatten_pair, neg_mul, Complex.I_mul_I]
  simp

theorem KerrUnit.kerrSum {e : Grid Nx Ny ℝ} {s : Sim Nx Ny} (h : KerrUnit e s) (i : Fin Nx) (j : Fin Ny) : Spec.kerrSum s.nonlinearity s.eps_r i j = (kap : ℂ) := by
  rw [h.nonlin]
  unfold Spec.kerrSum Spec.kerrCoef kap
  simp

theorem KerrUnit.unit {e : Grid Nx Ny ℝ} {s : Sim Nx Ny} (h : KerrUnit e s) : s.omega ^ 2 * EPSILON_0 * s.L0 = 1 := by
  rw [h.omega, h.L0]
  have := EPSILON_0_pos.ne'
  field_simp

/-- The system of a Born pass belongs to another device of the same kind. -/
theorem KerrUnit.bornMat_eq {e : Grid Nx Ny ℝ} {s : Sim Nx Ny} (h : KerrUnit e s) (F : Grid Nx Ny ℂ) :
    bornMat s F = (fsim 0 (fun i j => ((e i j + kap * ‖F i j‖ ^ 2 : ℝ) : ℂ)) fun _ _ => -Complex.I : Sim Nx Ny).A := by
  unfold bornMat
  rw [A_add_kerrMat s h.valid h.pol, h.valid.xr, h.valid.yr, h.omega, h.dl, h.NPML, h.L0]
  have : (fun i j => s.eps_r i j + Spec.kerrSum s.nonlinearity s.eps_r i j * ((‖F i j‖ ^ 2 : ℝ) : ℂ)) = fun i j => ((e i j + kap * ‖F i j‖ ^ 2 : ℝ) : ℂ) := by
    funext i j
    rw [h.kerrSum, h.eps]
    push_cast
    rfl
  rw [this]
  rfl

theorem KerrUnit.linear {e : Grid Nx Ny ℝ} {s : Sim Nx Ny} (h : KerrUnit e s) (env : Env) : unflatten (solver_direct env s.A s.rhs) = unitField env e := by
  rw [h.A_eq, h.rhs_eq]
  rfl

/-- The field after one Born pass. -/
noncomputable def passField (env : Env) (e : Grid Nx Ny ℝ) : Grid Nx Ny ℂ := unitField env fun i j => e i j + kap * ‖unitField env e i j‖ ^ 2

theorem KerrUnit.pass {e : Grid Nx Ny ℝ} {s : Sim Nx Ny} (h : KerrUnit e s) (env : Env) : (bornStep env s (unitField env e)).2.2 = passField env e := by
  unfold bornStep
  rw [in_plane_third, h.bornMat_eq, h.rhs_eq]
  rfl

/-- The first Born pass changes the field by less than the threshold. -/
def OnePass (env : Env) (e : Grid Nx Ny ℝ) : Prop :=
  Real.sqrt (∑ i, ∑ j, ‖passField env e i j - unitField env e i j‖ ^ 2) < 1e-10 * Real.sqrt (∑ i, ∑ j, ‖passField env e i j‖ ^ 2)

/-- Both solves, and the Kerr permittivity they leave. -/
theorem KerrUnit.solveAll_eps {e : Grid Nx Ny ℝ} {s : Sim Nx Ny} (h : KerrUnit e s) (env : Env) (hone : OnePass env e) :
    ∃ s2, s2.eps_nl = (s2.compute_nl (unitField env e)).eps_nl ∧ Opt.solveAll env false s = (.ok (), s2) ∧ KerrUnit e s2 ∧ SimKeep s s2 ∧ s2.fields .Ez = some (unitField env e) ∧
      s2.fields_nl .Ez = some (passField env e) ∧ s2.Anl = (s2.compute_nl (unitField env e)).Anl ∧ s2.dnl_de = (s2.compute_nl (unitField env e)).dnl_de ∧
      s2.fields = (s2.solve_fields env).2.fields := by
  set s1 := (s.solve_fields env).2 with hs1
  have hk1 : SimKeep s s1 := SimKeep.solve env s false false
  have h1 := h.keep hk1
  have hf1 : s1.fields .Ez = some (unitField env e) := by
    rw [hs1]
    show Sim.store s.pol s.fields (s.in_plane false s.eps_r (solver_direct env s.A s.rhs)) .Ez = _
    rw [h.pol]
    show some (s.in_plane false s.eps_r (solver_direct env s.A s.rhs)).2.2 = _
    rw [in_plane_third, h.linear]
  have hstart : startField env s1 none = (.ok (unitField env e), s1) := by
    unfold startField
    rw [h1.pol]
    simp only [Pol.comp, hf1]
  obtain ⟨k, conv, hkn, heq, hnot, hstop, hlen, hget⟩ := bornLoop_spec env 1e-10 19 0 s1 (unitField env e) (List.replicate 20 (.fin 0)) none
  rw [List.length_replicate] at hlen
  simp only [List.length_replicate] at hget
  have hc0 : (bornConv env s1 (unitField env e) 0).Lt 1e-10 := by
    unfold bornConv
    rw [bornIter_succ, bornIter_zero, h1.pass]
    have hne : passField env e ≠ 0 := by
      intro h0
      unfold OnePass at hone
      rw [h0] at hone
      simp only [Pi.zero_apply, norm_zero, ne_eq, OfNat.ofNat_ne_zero, not_false_eq_true, zero_pow, Finset.sum_const_zero, Real.sqrt_zero, mul_zero] at hone
      exact absurd hone (not_lt.2 (Real.sqrt_nonneg _))
    rw [(convergence_spec _ _).1 hne]
    show _ / _ < (1e-10 : ℝ)
    have hpos : 0 < Real.sqrt (∑ i, ∑ j, ‖passField env e i j‖ ^ 2) := lt_of_lt_of_le (norm_pos_iff.2 hne) (norm_le_laNorm' _)
    rw [div_lt_iff₀ hpos]
    exact hone
  obtain rfl : k = 0 := by
    by_contra hk
    exact hnot 0 (by omega) hc0
  have hlast : conv.getLast? = some (.fin 0) := by
    rw [List.getLast?_eq_getElem?, hlen, hget, if_neg (by omega)]
    rfl
  rw [bornIter_zero, bornIter_succ, bornIter_zero, h1.pass] at heq
  have hborn : born_solve env s1 none 1e-10 20 = (.ok ⟨(bornStep env s1 (unitField env e)).1, (bornStep env s1 (unitField env e)).2.1, passField env e, conv⟩, s1.compute_nl (unitField env e)) := by
    unfold born_solve
    rw [hstart]
    simp only
    rw [heq]
  let s2 : Sim Nx Ny := { s1.compute_nl (unitField env e) with
    fields_nl := Sim.store s1.pol s1.fields_nl ((bornStep env s1 (unitField env e)).1, (bornStep env s1 (unitField env e)).2.1, passField env e) }
  have hnl : solve_fields_nl env s1 = (.ok ⟨(bornStep env s1 (unitField env e)).1, (bornStep env s1 (unitField env e)).2.1, passField env e, conv⟩, s2) := by
    unfold solve_fields_nl
    simp only [hborn]
    rw [if_neg (by
      rw [hlast, Option.getD_some]
      show ¬ (1e-10 : ℝ) < 0
      norm_num)]
    rfl
  have hk2 : SimKeep s s2 := hk1.trans (show SimKeep s1 s2 from rfl)
  refine ⟨s2, rfl, ?_, h.keep hk2, hk2, hf1, ?_, rfl, rfl, ?_⟩
  · unfold Opt.solveAll
    have e1 : s.solve_fields env = (.ok _, s1) := rfl
    rw [e1]
    simp only [Bool.false_eq_true, if_false]
    rw [hnl]
  · show Sim.store s1.pol _ _ .Ez = _
    rw [h1.pol]
    rfl
  · show s1.fields = (s2.solve_fields env).2.fields
    have e2 : (s2.solve_fields env).2.fields = (s1.solve_fields env).2.fields := rfl
    rw [e2, hs1, solve_fields_idem]

/-- Both solves. -/
theorem KerrUnit.solveAll {e : Grid Nx Ny ℝ} {s : Sim Nx Ny} (h : KerrUnit e s) (env : Env) (hone : OnePass env e) :
    ∃ s2, Opt.solveAll env false s = (.ok (), s2) ∧ KerrUnit e s2 ∧ SimKeep s s2 ∧ s2.fields .Ez = some (unitField env e) ∧ s2.fields_nl .Ez = some (passField env e) ∧
      s2.Anl = (s2.compute_nl (unitField env e)).Anl ∧ s2.dnl_de = (s2.compute_nl (unitField env e)).dnl_de ∧ s2.fields = (s2.solve_fields env).2.fields := by
  obtain ⟨s2, -, h2⟩ := h.solveAll_eps env hone
  exact ⟨s2, h2⟩

/-- `Σ α Re x₀ + Re x₁`. -/
noncomputable def mixJ (α : ℝ) : ObjFn Nx Ny where
  arity := 2
  eval := fun x => ∑ i, ∑ j, (α * (x 0 i j).re + (x 1 i j).re)
  partials := fun k _ => if k = (0 : Fin 2) then fun _ _ => (α : ℂ) else fun _ _ => 1

/-- Its arguments: the linear and the nonlinear `Ez`. -/
def mixArgs : List ObjArg := [⟨.Ez, false, .linear_Ez⟩, ⟨.Ez, true, .kerr_Ez⟩]

/-- The permittivity of a density in the witness. -/
noncomputable def unitEps (rho : Grid Nx Ny ℝ) : Grid Nx Ny ℝ := rho2eps rho 5 1 (1 / 2) 1

/-- The value of the objective. -/
noncomputable def mixVal (env : Env) (α : ℝ) (e : Grid Nx Ny ℝ) : ℝ := ∑ i, ∑ j, (α * (unitField env e i j).re + (passField env e i j).re)

/-- An optimisation of the witness with density `rho`, whatever it has stored. -/
structure KerrOpt (α : ℝ) (rho : Grid Nx Ny ℝ) (o : Opt Nx Ny) : Prop where
  obj : o.objective = Objective.mk' (mixJ α) mixArgs
  design : o.design_region = fun _ _ => 1
  filt : o.W = 1
  eps_m : o.eps_m = 5
  eta : o.eta = 1 / 2
  beta : o.beta = 1
  shift : o.max_ind_shift = none
  stale : o.fields_current = false
  density : o.simulation.rho = some (some rho)
  sim : KerrUnit (unitEps rho) o.simulation

/-- Solving for the objective's fields. -/
theorem KerrOpt.solveArg {α : ℝ} {rho : Grid Nx Ny ℝ} {o : Opt Nx Ny} (h : KerrOpt α rho o) (env : Env) (hone : OnePass env (unitEps rho)) :
    ∃ s2, Opt.solveArgFields env o none = (.ok (), { o with simulation := s2, field_arg_list := some [unitField env (unitEps rho), passField env (unitEps rho)], fields_current := true }, none) ∧
      SimKeep o.simulation s2 ∧ KerrUnit (unitEps rho) s2 ∧
      Spec.KerrApprox env { o with simulation := s2, field_arg_list := some [unitField env (unitEps rho), passField env (unitEps rho)], fields_current := true } (mixJ α) mixArgs rho
        (passField env (unitEps rho)) (unitField env (unitEps rho)) := by
  obtain ⟨s2, h1, h2, h3, h4, h5, h6, h7, h8⟩ := h.sim.solveAll env hone
  have hc : Opt.collect s2 mixArgs = .ok [unitField env (unitEps rho), passField env (unitEps rho)] := by
    simp [mixArgs, Opt.collect, h4, h5, Except.map]
  refine ⟨s2, ?_, h3, h2, ?_⟩
  · unfold Opt.solveArgFields
    rw [if_pos (Or.inl h.stale), h.obj]
    have hl : (Objective.mk' (mixJ α) mixArgs : Objective Nx Ny).isLinear = false := rfl
    rw [hl, show o.target none = o.simulation from rfl, h1]
    simp only
    rw [show (Objective.mk' (mixJ α) mixArgs : Objective Nx Ny).arg_list = mixArgs from rfl, hc]
    simp only [Opt.putTarget, h.obj]
  · refine ⟨?_, ?_, by simp [mixArgs], h2.pol, h3.rho.trans h.density, rfl, fun c _ _ => by rw [h8], h5, h6, h7, ⟨_, hc, rfl⟩⟩
    · show _ = Except.ok o.objective
      rw [h.obj]
      rfl
    · intro a ha
      simp only [mixArgs, List.mem_cons, List.not_mem_nil, or_false] at ha
      rcases ha with rfl | rfl
      · exact Or.inl ⟨"Ez", by simp, rfl⟩
      · exact Or.inr rfl

theorem KerrOpt.J_self {α : ℝ} {rho : Grid Nx Ny ℝ} {o : Opt Nx Ny} (h : KerrOpt α rho o) (env : Env) (hone : OnePass env (unitEps rho)) :
    ∃ o1, Opt.J_self env o = (.ok (mixVal env α (unitEps rho)), o1) ∧ KerrOpt α rho { o1 with fields_current := false } := by
  obtain ⟨s2, h1, h2, h3, -⟩ := h.solveArg env hone
  refine ⟨{ o with simulation := s2, field_arg_list := some [unitField env (unitEps rho), passField env (unitEps rho)], fields_current := true }, ?_, ?_⟩
  · unfold Opt.J_self Opt.compute_J
    rw [h1]
    simp only [Option.getD_some]
    rw [h.obj]
    rfl
  · exact ⟨h.obj, h.design, h.filt, h.eps_m, h.eta, h.beta, h.shift, rfl, h2.rho.trans h.density, h3⟩

theorem KerrOpt.putRho {α : ℝ} {rho : Grid Nx Ny ℝ} {o : Opt Nx Ny} (h : KerrOpt α rho o) (rho' : Grid Nx Ny ℝ) : KerrOpt α rho' { Opt.putRho o rho' with fields_current := false } := by
  refine ⟨h.obj, h.design, h.filt, h.eps_m, h.eta, h.beta, h.shift, rfl, rfl, ?_⟩
  have hv := valid_putRho h.sim.valid rho'
  refine ⟨hv, h.sim.L0, h.sim.dl, h.sim.omega, h.sim.NPML, h.sim.pol, h.sim.src, h.sim.nonlin, ?_⟩
  show (fun i j => ((rho2eps rho' o.eps_m o.W o.eta o.beta i j : ℝ) : ℂ)) = _
  rw [h.eps_m, h.filt, h.eta, h.beta]
  rfl


theorem kap_pos : 0 < kap := by unfold kap; norm_num
theorem kap_lt : kap < 1e-10 := by unfold kap; norm_num

/-- The doubled adjoint system for uniform fields. -/
theorem KerrUnit.D11_apply {e : Grid Nx Ny ℝ} {s : Sim Nx Ny} (h : KerrUnit e s) (f y : ℝ) (v : Vec (Nx * Ny) ℂ) :
    kerrD11 s (fun _ _ => (f : ℂ)) (fun _ _ => (y : ℂ)) *ᵥ v =
      (fsim 0 (fun i j => ((e i j + kap * f ^ 2 : ℝ) : ℂ)) fun _ _ => -Complex.I : Sim Nx Ny).A *ᵥ v + fun k => ((kap * f * y : ℝ) : ℂ) * v k := by
  have hb := h.bornMat_eq (fun _ _ => (f : ℂ))
  unfold bornMat at hb
  unfold kerrD11
  rw [Matrix.add_mulVec, hb, spdiag_mulVec]
  simp only [Complex.norm_real, Real.norm_eq_abs, sq_abs]
  congr 1
  refine flat_ext fun i j => ?_
  have hE : (EPSILON_0 : ℂ) ≠ 0 := by exact_mod_cast EPSILON_0_pos.ne'
  rw [flatten_pair, flatten_pair, compute_nl_dnl_de, h.kerrSum, h.omega, h.L0, Complex.conj_ofReal]
  push_cast
  field_simp

theorem KerrUnit.D12_eq {e : Grid Nx Ny ℝ} {s : Sim Nx Ny} (h : KerrUnit e s) (f y : ℝ) :
    kerrD12 s (fun _ _ => (f : ℂ)) (fun _ _ => (y : ℂ)) = spdiag fun _ => ((kap * f * y : ℝ) : ℂ) := by
  unfold kerrD12
  congr 1
  refine flat_ext fun i j => ?_
  have hE : (EPSILON_0 : ℂ) ≠ 0 := by exact_mod_cast EPSILON_0_pos.ne'
  rw [flatten_pair, flatten_pair, compute_nl_dnl_de, h.kerrSum, h.omega, h.L0, Complex.conj_ofReal]
  simp only [map_mul, map_pow, Complex.conj_ofReal]
  push_cast
  field_simp

theorem KerrUnit.D_det {a : ℝ} (ha : 1 ≤ a) {s : Sim Nx Ny} (h : KerrUnit (fun _ _ => a) s) (hx : 1 < Nx) (hy : 1 < Ny) {f y : ℝ} (hf : |f| ≤ 1) (hy1 : |y| ≤ 1) :
    (stackConj (kerrD11 s (fun _ _ => (f : ℂ)) (fun _ _ => (y : ℂ))) (kerrD12 s (fun _ _ => (f : ℂ)) (fun _ _ => (y : ℂ)))).det ≠ 0 := by
  refine stackConj_det _ _ fun v hv => ?_
  rw [h.D11_apply, h.D12_eq, spdiag_mulVec] at hv
  set S : Sim Nx Ny := fsim 0 (fun i j => ((a + kap * f ^ 2 : ℝ) : ℂ)) fun _ _ => -Complex.I with hS
  have hk := kap_pos
  have hk2 := kap_lt
  have hbound := (C75_coarse S (fsim_valid _ _ _) rfl hx hy 1 (fun i j => by
    show 1 ≤ ‖((a + kap * f ^ 2 : ℝ) : ℂ)‖
    rw [Complex.norm_real, Real.norm_eq_abs]
    refine le_trans ?_ (le_abs_self _)
    nlinarith [sq_nonneg f]) (fsim_coarse _ _ _)).2 (unflatten v)
  have hnum : S.omega ^ 2 * EPSILON_0 * S.L0 * 1 - 8 / (MU_0 * S.L0 * S.dl ^ 2) = 1 / 9 := by
    show (1 : ℝ) ^ 2 * EPSILON_0 * (1 / EPSILON_0) * 1 - 8 / (MU_0 * (1 / EPSILON_0) * (3 / ETA_0) ^ 2) = 1 / 9
    rw [mu0_norm, one_pow, one_mul, mul_one_div_cancel EPSILON_0_pos.ne', one_mul]
    have h1 : ETA_0 ^ 2 * (3 / ETA_0) ^ 2 = 9 := by
      have := ETA_0_pos.ne'
      field_simp; norm_num
    rw [h1]
    norm_num
  rw [hnum, flatten_unflatten] at hbound
  have hAv : (unflatten (S.A *ᵥ v) : Grid Nx Ny ℂ) = fun i j => -(((kap * f * y : ℝ) : ℂ) * ((unflatten v : Grid Nx Ny ℂ) i j + (starRingEnd ℂ) ((unflatten v : Grid Nx Ny ℂ) i j))) := by
    funext i j
    have := congrFun hv (finProdFinEquiv (i, j))
    simp only [Pi.add_apply, Pi.zero_apply] at this
    show (S.A *ᵥ v) (finProdFinEquiv (i, j)) = -(((kap * f * y : ℝ) : ℂ) * (v (finProdFinEquiv (i, j)) + (starRingEnd ℂ) (v (finProdFinEquiv (i, j)))))
    linear_combination this
  have hle : ‖(unflatten (S.A *ᵥ v) : Grid Nx Ny ℂ)‖ ≤ 2 * kap * ‖(unflatten v : Grid Nx Ny ℂ)‖ := by
    rw [hAv]
    refine (pi_norm_le_iff_of_nonneg (by positivity)).2 fun i => (pi_norm_le_iff_of_nonneg (by positivity)).2 fun j => ?_
    rw [norm_neg, norm_mul, Complex.norm_real, Real.norm_eq_abs, abs_mul, abs_mul, abs_of_pos hk]
    have h1 : ‖(unflatten v : Grid Nx Ny ℂ) i j‖ ≤ ‖(unflatten v : Grid Nx Ny ℂ)‖ := (norm_le_pi_norm _ j).trans (norm_le_pi_norm _ i)
    have h2 : ‖(unflatten v : Grid Nx Ny ℂ) i j + (starRingEnd ℂ) ((unflatten v : Grid Nx Ny ℂ) i j)‖ ≤ 2 * ‖(unflatten v : Grid Nx Ny ℂ)‖ := by
      refine (norm_add_le _ _).trans ?_
      rw [RCLike.norm_conj]
      linarith
    have h3 : |f| * |y| ≤ 1 := mul_le_one₀ hf (abs_nonneg _) hy1
    calc kap * |f| * |y| * _ ≤ kap * |f| * |y| * (2 * ‖(unflatten v : Grid Nx Ny ℂ)‖) := by gcongr
      _ = (|f| * |y|) * (2 * kap * ‖(unflatten v : Grid Nx Ny ℂ)‖) := by ring
      _ ≤ 1 * (2 * kap * ‖(unflatten v : Grid Nx Ny ℂ)‖) := by gcongr
      _ = _ := one_mul _
  have h0 : ‖(unflatten v : Grid Nx Ny ℂ)‖ = 0 := by
    refine le_antisymm ?_ (norm_nonneg _)
    by_contra hc
    have : 0 < ‖(unflatten v : Grid Nx Ny ℂ)‖ := not_le.1 hc
    nlinarith
  rw [← flatten_unflatten (Nx := Nx) (Ny := Ny) v, flatten_eq_zero]
  exact norm_eq_zero.1 h0

theorem mulVec_map_conj {n : ℕ} (M : Mat n ℂ) (v : Vec n ℂ) : M.map (starRingEnd ℂ) *ᵥ (fun k => (starRingEnd ℂ) (v k)) = fun k => (starRingEnd ℂ) ((M *ᵥ v) k) := by
  funext k
  simp only [mulVec_eq_sum', Matrix.map_apply, map_sum, map_mul]

/-- The adjoint field. -/
theorem KerrUnit.adj_eq {a : ℝ} (ha : 1 ≤ a) {s : Sim Nx Ny} (h : KerrUnit (fun _ _ => a) s) (env : Env) (he : env.Exact) (hx : 1 < Nx) (hy : 1 < Ny) {f y : ℝ} (hf : |f| ≤ 1) (hy1 : |y| ≤ 1)
    (hfy : 0 ≤ f * y) :
    (unflatten fun k => kerrAdj2 env s (fun _ _ => (f : ℂ)) (fun _ _ => (y : ℂ)) (fun _ _ => 1) (Fin.castAdd _ k) : Grid Nx Ny ℂ) =
      fun _ _ => ((-1 / (a + kap * f ^ 2 + 2 * kap * f * y) : ℝ) : ℂ) := by
  have hk := kap_pos
  set w : ℝ := -1 / (a + kap * f ^ 2 + 2 * kap * f * y) with hw
  have hden : 0 < a + kap * f ^ 2 + 2 * kap * f * y := by
    have : 0 ≤ kap * (f * y) := mul_nonneg hk.le hfy
    nlinarith [sq_nonneg f, mul_nonneg hk.le (sq_nonneg f)]
  set D11 := kerrD11 s (fun _ _ => (f : ℂ)) (fun _ _ => (y : ℂ)) with hD11
  set D12 := kerrD12 s (fun _ _ => (f : ℂ)) (fun _ _ => (y : ℂ)) with hD12
  have hsym : D11ᵀ = D11 := by
    rw [hD11]
    unfold kerrD11
    have hb := h.bornMat_eq (fun _ _ => (f : ℂ))
    unfold bornMat at hb
    rw [hb, Matrix.transpose_add, fsim_symm]
    unfold spdiag
    rw [Matrix.diagonal_transpose]
  have h11 : D11 *ᵥ (fun _ => (w : ℂ)) = fun _ => ((a + kap * f ^ 2 + kap * f * y : ℝ) : ℂ) * w := by
    have e1 : (fun _ => (w : ℂ) : Vec (Nx * Ny) ℂ) = flatten (fun _ _ => (w : ℂ) : Grid Nx Ny ℂ) := rfl
    rw [e1, hD11, h.D11_apply, unit_apply hx hy]
    refine flat_ext fun i j => ?_
    rw [Pi.add_apply, flatten_pair, flatten_pair]
    push_cast
    ring
  have h12 : D12 *ᵥ (fun _ => (w : ℂ)) = fun _ => ((kap * f * y : ℝ) : ℂ) * w := by
    rw [hD12, h.D12_eq, spdiag_mulVec]
  have hcw : (fun _ => (w : ℂ) : Vec (Nx * Ny) ℂ) = fun k => (starRingEnd ℂ) ((fun _ => (w : ℂ) : Vec (Nx * Ny) ℂ) k) := by
    funext k
    exact (Complex.conj_ofReal w).symm
  have hsym12 : D12ᵀ = D12 := by
    rw [hD12, h.D12_eq]
    unfold spdiag
    rw [Matrix.diagonal_transpose]
  have hmain : (stackConj D11 D12)ᵀ *ᵥ Fin.append (fun _ => (w : ℂ)) (fun _ => (w : ℂ)) = stackVec (-(flatten (fun _ _ => 1 : Grid Nx Ny ℂ))) := by
    rw [stackConj_transpose_mulVec]
    simp only [Fin.append_left, Fin.append_right]
    rw [← Matrix.transpose_map, ← Matrix.transpose_map, hsym, hsym12, h11, h12]
    have m12 : D12.map (starRingEnd ℂ) *ᵥ (fun _ => (w : ℂ)) = fun _ => ((kap * f * y : ℝ) : ℂ) * w := by
      rw [hcw, mulVec_map_conj, h12]
      funext k
      simp
    have m11 : D11.map (starRingEnd ℂ) *ᵥ (fun _ => (w : ℂ)) = fun _ => ((a + kap * f ^ 2 + kap * f * y : ℝ) : ℂ) * w := by
      rw [hcw, mulVec_map_conj, h11]
      funext k
      simp
    rw [m12, m11]
    have hw1 : (a + kap * f ^ 2 + 2 * kap * f * y) * w = -1 := by rw [hw, mul_div_cancel₀ _ hden.ne']
    unfold stackVec
    congr 1
    · refine flat_ext fun i j => ?_
      simp only [Pi.add_apply, Pi.neg_apply, flatten_pair]
      have : ((a + kap * f ^ 2 + kap * f * y : ℝ) : ℂ) * w + ((kap * f * y : ℝ) : ℂ) * w = (((a + kap * f ^ 2 + 2 * kap * f * y) * w : ℝ) : ℂ) := by push_cast; ring
      rw [this, hw1]
      push_cast
      rfl
    · refine flat_ext fun i j => ?_
      simp only [Pi.add_apply, Pi.neg_apply, flatten_pair]
      have : ((kap * f * y : ℝ) : ℂ) * w + ((a + kap * f ^ 2 + kap * f * y : ℝ) : ℂ) * w = (((a + kap * f ^ 2 + 2 * kap * f * y) * w : ℝ) : ℂ) := by push_cast; ring
      rw [this, hw1]
      simp
  have hdet : ((stackConj D11 D12)ᵀ).det ≠ 0 := by rw [Matrix.det_transpose]; exact h.D_det ha hx hy hf hy1
  have hsol : kerrAdj2 env s (fun _ _ => (f : ℂ)) (fun _ _ => (y : ℂ)) (fun _ _ => 1) = Fin.append (fun _ => (w : ℂ)) (fun _ => (w : ℂ)) := solver_direct_unique he hdet hmain
  rw [hsol]
  funext i j
  simp only [unflatten, Fin.append_left]


theorem unitEps_half : unitEps (fun _ _ => 1 / 2 : Grid Nx Ny ℝ) = fun _ _ => 3 := by
  funext i j
  unfold unitEps rho2eps
  rw [rho2rhot_one]
  show 1 + rhot2rhob (1 / 2) (1 / 2) 1 * (5 - 1) = 3
  rw [rhot2rhob_half one_pos]
  norm_num

/-- The field the code returns for the uniform device. -/
noncomputable def outE : ℝ := 1 / (3 + kap / 9)

theorem outE_pos : 0 < outE := by
  have := kap_pos
  unfold outE; positivity

theorem passField_uniform (env : Env) (he : env.Exact) (hx : 1 < Nx) (hy : 1 < Ny) : passField env (fun _ _ => 3 : Grid Nx Ny ℝ) = fun _ _ => (outE : ℂ) := by
  have hk := kap_pos
  unfold passField
  rw [unitField_uniform env he hx hy (by norm_num : (1 : ℝ) ≤ 3)]
  have e : (fun _ _ => 3 + kap * ‖((1 / 3 : ℝ) : ℂ)‖ ^ 2 : Grid Nx Ny ℝ) = fun _ _ => 3 + kap / 9 := by
    funext i j
    rw [Complex.norm_real, Real.norm_eq_abs, sq_abs]
    ring
  rw [e, unitField_uniform env he hx hy (by linarith : (1 : ℝ) ≤ 3 + kap / 9)]
  rfl

theorem onePass_uniform (env : Env) (he : env.Exact) (hx : 1 < Nx) (hy : 1 < Ny) : OnePass env (fun _ _ => 3 : Grid Nx Ny ℝ) := by
  have hk := kap_pos
  have hk2 := kap_lt
  unfold OnePass
  rw [passField_uniform env he hx hy, unitField_uniform env he hx hy (by norm_num : (1 : ℝ) ≤ 3)]
  have h1 : ‖((outE : ℝ) : ℂ) - ((1 / 3 : ℝ) : ℂ)‖ = kap / 27 * outE := by
    rw [← Complex.ofReal_sub, Complex.norm_real, Real.norm_eq_abs, show outE - 1 / 3 = -(kap / 27 * outE) by unfold outE; field_simp; ring, abs_neg, abs_of_pos (mul_pos (by positivity) outE_pos)]
  have h2 : ‖((outE : ℝ) : ℂ)‖ = outE := by rw [Complex.norm_real, Real.norm_eq_abs, abs_of_pos outE_pos]
  have hN : (0 : ℝ) < Real.sqrt (∑ _i : Fin Nx, ∑ _j : Fin Ny, outE ^ 2) := by
    refine Real.sqrt_pos.2 ?_
    simp only [Finset.sum_const, Finset.card_univ, Fintype.card_fin, nsmul_eq_mul]
    have := outE_pos
    have : (0 : ℝ) < Nx := by exact_mod_cast (by omega : 0 < Nx)
    have : (0 : ℝ) < Ny := by exact_mod_cast (by omega : 0 < Ny)
    positivity
  simp only [h1, h2, mul_pow, ← Finset.mul_sum]
  rw [Real.sqrt_mul (by positivity), Real.sqrt_sq (by positivity)]
  exact mul_lt_mul_of_pos_right (by unfold kap at *; norm_num) hN

/-- What the loop of `compute_dJ` adds for the Kerr argument. -/
noncomputable def kerrTerm (F : ℝ) : ℝ := -outE / (3 + kap * F ^ 2 + 2 * kap * F * outE)

theorem outE_le : outE ≤ 1 := by
  have := kap_pos
  unfold outE
  rw [div_le_one (by positivity)]
  linarith

theorem sum_one_row (i0 : Fin Nx) (j0 : Fin Ny) (c : ℂ) :
    (∑ i, ∑ j, c * (((1 : Mat (Nx * Ny) ℝ) (finProdFinEquiv (i0, j0)) (finProdFinEquiv (i, j)) : ℝ) : ℂ)) = c := by
  have : ∀ i j, c * (((1 : Mat (Nx * Ny) ℝ) (finProdFinEquiv (i0, j0)) (finProdFinEquiv (i, j)) : ℝ) : ℂ) = if i0 = i then (if j0 = j then c else 0) else 0 := by
    intro i j
    rw [Matrix.one_apply]
    by_cases h : i0 = i <;> by_cases h' : j0 = j <;> simp [h, h']
  simp only [this]
  simp

theorem KerrOpt.term0 {α : ℝ} {o : Opt Nx Ny} (h : KerrOpt α (fun _ _ => 1 / 2) o) {s2 : Sim Nx Ny} (h3 : KerrUnit (fun _ _ => 3) s2) (env : Env) (he : env.Exact) (hx : 1 < Nx) (hy : 1 < Ny)
    {l : Option (List (Grid Nx Ny ℂ))} {b : Bool} {F E : Grid Nx Ny ℂ} (i : Fin Nx) (j : Fin Ny) :
    argGrad2 env { o with simulation := s2, field_arg_list := l, fields_current := b } (fun _ _ => 1 / 2) F E (fun _ _ => (α : ℂ)) ⟨.Ez, false, .linear_Ez⟩ i j =
      4 * drhob_drhot (1 / 2) (1 / 2) 1 * (-α / 9) := by
  unfold argGrad2
  rw [if_neg (by simp)]
  have hlin : (unflatten (solver_direct env s2.A s2.rhs) : Grid Nx Ny ℂ) = fun _ _ => ((1 / 3 : ℝ) : ℂ) := by
    rw [h3.linear env, unitField_uniform env he hx hy (by norm_num : (1 : ℝ) ≤ 3)]
  have hadj : (unflatten (solver_direct env s2.Aᵀ (-(linPart s2 (fun _ _ => (α : ℂ)) .Ez))) : Grid Nx Ny ℂ) = fun _ _ => ((-α / 3 : ℝ) : ℂ) := by
    have hA := h3.A_eq
    have hsol : solver_direct env s2.Aᵀ (-(linPart s2 (fun _ _ => (α : ℂ)) .Ez)) = flatten (fun _ _ => ((-α / 3 : ℝ) : ℂ) : Grid Nx Ny ℂ) := by
      rw [hA, fsim_symm]
      refine solver_direct_unique he (unit_det hx hy (fun _ _ => by norm_num) _) ?_
      rw [unit_apply hx hy]
      refine flat_ext fun i j => ?_
      show _ = -(flatten (fun _ _ => (α : ℂ) : Grid Nx Ny ℂ) (finProdFinEquiv (i, j)))
      rw [flatten_pair, flatten_pair]
      push_cast
      ring
    rw [hsol, unflatten_flatten]
  show Opt.tail_Ez _ _ (unflatten (solver_direct env s2.A s2.rhs)) (unflatten (solver_direct env s2.Aᵀ (-(linPart s2 (fun _ _ => (α : ℂ)) .Ez)))) i j = _
  rw [hlin, hadj, tail_Ez_apply]
  show (∑ i', ∑ j', ((-α / 3 : ℝ) : ℂ) * ((s2.omega : ℂ) ^ 2 * ((EPSILON_0 * s2.L0 : ℝ) : ℂ) *
    ((((o.eps_m - 1) * drhob_drhot (rho2rhot (fun _ _ => 1 / 2) o.W i' j') o.eta o.beta * (o.W (finProdFinEquiv (i, j)) (finProdFinEquiv (i', j')) * o.design_region i' j') : ℝ) : ℂ) * ((1 / 3 : ℝ) : ℂ)))).re = _
  rw [h.design, h.eta, h.beta, h.eps_m, h.filt, rho2rhot_one, h3.omega, h3.L0, mul_one_div_cancel EPSILON_0_pos.ne']
  have hs := sum_one_row i j ((4 * drhob_drhot (1 / 2) (1 / 2) 1 * (-α / 9) : ℝ) : ℂ)
  rw [← Complex.ofReal_re (4 * drhob_drhot (1 / 2) (1 / 2) 1 * (-α / 9)), ← hs]
  congr 1
  refine Finset.sum_congr rfl fun i' _ => Finset.sum_congr rfl fun j' _ => ?_
  push_cast
  ring

theorem KerrOpt.term1 {α : ℝ} {o : Opt Nx Ny} (h : KerrOpt α (fun _ _ => 1 / 2) o) {s2 : Sim Nx Ny} (h3 : KerrUnit (fun _ _ => 3) s2) (env : Env) (he : env.Exact) (hx : 1 < Nx) (hy : 1 < Ny)
    {l : Option (List (Grid Nx Ny ℂ))} {b : Bool} {F : ℝ} (hF : F = 1 / 3 ∨ F = outE) (i : Fin Nx) (j : Fin Ny) :
    argGrad2 env { o with simulation := s2, field_arg_list := l, fields_current := b } (fun _ _ => 1 / 2) (fun _ _ => (F : ℂ)) (fun _ _ => (outE : ℂ)) (fun _ _ => 1) ⟨.Ez, true, .kerr_Ez⟩ i j =
      4 * drhob_drhot (1 / 2) (1 / 2) 1 * kerrTerm F := by
  have hF0 : 0 < F := by rcases hF with rfl | rfl; norm_num; exact outE_pos
  have hF1 : F ≤ 1 := by rcases hF with rfl | rfl; norm_num; exact outE_le
  unfold argGrad2
  rw [if_pos rfl]
  show tail_kerr _ _ _ (unflatten fun k => kerrAdj2 env s2 (fun _ _ => (F : ℂ)) (fun _ _ => (outE : ℂ)) (fun _ _ => 1) (Fin.castAdd _ k)) i j = _
  rw [h3.adj_eq (by norm_num) env he hx hy (by rw [abs_of_pos hF0]; exact hF1) (by rw [abs_of_pos outE_pos]; exact outE_le) (mul_pos hF0 outE_pos).le, tail_kerr_apply]
  have hdd : ∀ i j, (s2.compute_nl (fun _ _ => (outE : ℂ))).dnl_deps i j = 0 := by
    intro i j
    rw [compute_nl_dnl_deps, h3.nonlin]
    simp [Nonlinearity.dnl_deps]
  show (∑ i', ∑ j', ((-1 / (3 + kap * F ^ 2 + 2 * kap * F * outE) : ℝ) : ℂ) * (((s2.omega ^ 2 * EPSILON_0 * s2.L0 : ℝ) : ℂ) * ((1 + (s2.compute_nl (fun _ _ => (outE : ℂ))).dnl_deps i' j') *
      (((o.eps_m - 1) * drhob_drhot (rho2rhot (fun _ _ => 1 / 2) o.W i' j') o.eta o.beta * (o.W (finProdFinEquiv (i, j)) (finProdFinEquiv (i', j')) * o.design_region i' j') : ℝ) : ℂ)) * (outE : ℂ))).re = _
  rw [h.design, h.eta, h.beta, h.eps_m, h.filt, rho2rhot_one, h3.unit]
  simp only [hdd]
  have hs := sum_one_row i j ((4 * drhob_drhot (1 / 2) (1 / 2) 1 * kerrTerm F : ℝ) : ℂ)
  rw [← Complex.ofReal_re (4 * drhob_drhot (1 / 2) (1 / 2) 1 * kerrTerm F), ← hs]
  congr 1
  refine Finset.sum_congr rfl fun i' _ => Finset.sum_congr rfl fun j' _ => ?_
  unfold kerrTerm
  push_cast
  ring

theorem KerrOpt.dJ {α : ℝ} {o : Opt Nx Ny} (h : KerrOpt α (fun _ _ => 1 / 2) o) (env : Env) (he : env.Exact) (hx : 1 < Nx) (hy : 1 < Ny) :
    ∃ (F : ℝ) (o1 : Opt Nx Ny), (F = 1 / 3 ∨ F = outE) ∧
      Opt.dJ_self env o = (.ok fun _ _ => 4 * drhob_drhot (1 / 2) (1 / 2) 1 * (-α / 9 + kerrTerm F), o1) ∧ KerrOpt α (fun _ _ => 1 / 2) { o1 with fields_current := false } ∧
      o1.field_arg_list = some [unitField env (unitEps fun _ _ => 1 / 2), passField env (unitEps fun _ _ => 1 / 2)] ∧ o1.fields_current = true := by
  have hone := onePass_uniform (Nx := Nx) (Ny := Ny) env he hx hy
  rw [← unitEps_half] at hone
  obtain ⟨s2, h1, h2, h3, h4⟩ := h.solveArg env hone
  rw [unitEps_half, passField_uniform env he hx hy, unitField_uniform env he hx hy (by norm_num : (1 : ℝ) ≤ 3)] at h1 h4
  rw [unitEps_half] at h3
  set o1 : Opt Nx Ny := { o with simulation := s2, field_arg_list := some [fun _ _ => ((1 / 3 : ℝ) : ℂ), fun _ _ => (outE : ℂ)], fields_current := true } with ho1
  have hdj : Opt.compute_dJ env o = Opt.compute_dJ env o1 := C31_after_solve env o o1 h1 rfl rfl rfl
  obtain ⟨hlen, ch, hch, hval⟩ := approx_compute_dJ env o1 (mixJ α) mixArgs _ _ _ h4
  have hkeep : OptKeep o (Opt.dJ_self env o).2 := OptKeep.dJ_self env o
  obtain ⟨F, hF, hFv⟩ : ∃ F : ℝ, (F = 1 / 3 ∨ F = outE) ∧ ch (1 : Fin 2) = fun _ _ => (F : ℂ) := by
    rcases hch (1 : Fin 2) with e | e
    · exact ⟨outE, Or.inr rfl, e⟩
    · exact ⟨1 / 3, Or.inl rfl, e⟩
  have hcache : (Opt.dJ_self env o).2.field_arg_list = o1.field_arg_list ∧ (Opt.dJ_self env o).2.fields_current = o1.fields_current := by
    show (Opt.compute_dJ env o).2.1.field_arg_list = _ ∧ (Opt.compute_dJ env o).2.1.fields_current = _
    unfold Opt.compute_dJ
    rw [h1]
    exact dJLoop_cache env _ _ o1 none _
  refine ⟨F, (Opt.dJ_self env o).2, hF, Prod.ext ?_ rfl, ?_, ?_, hcache.2⟩
  · show (Opt.compute_dJ env o).1 = _
    rw [hdj, hval]
    congr 1
    funext i j
    refine (Fin.sum_univ_two (fun k : Fin 2 => argGrad2 env o1 (fun _ _ => 1 / 2) (ch k) (fun _ _ => (outE : ℂ)) ((mixJ α).partials k fun m =>
      argField env o1.simulation (fun _ _ => (outE : ℂ)) (mixArgs.get (m.cast hlen.symm))) (mixArgs.get (k.cast hlen.symm)) i j)).trans ?_
    have t0 : argGrad2 env o1 (fun _ _ => 1 / 2) (ch (0 : Fin 2)) (fun _ _ => (outE : ℂ)) (fun _ _ => (α : ℂ)) ⟨.Ez, false, .linear_Ez⟩ i j = 4 * drhob_drhot (1 / 2) (1 / 2) 1 * (-α / 9) :=
      h.term0 h3 env he hx hy i j
    have t1 : argGrad2 env o1 (fun _ _ => 1 / 2) (ch (1 : Fin 2)) (fun _ _ => (outE : ℂ)) (fun _ _ => 1) ⟨.Ez, true, .kerr_Ez⟩ i j = 4 * drhob_drhot (1 / 2) (1 / 2) 1 * kerrTerm F := by
      rw [hFv]
      exact h.term1 h3 env he hx hy hF i j
    rw [mul_add, ← t0, ← t1]
    rfl
  · exact ⟨hkeep.objective.trans h.obj, hkeep.design.trans h.design, hkeep.W.trans h.filt, hkeep.eps_m.trans h.eps_m, hkeep.eta.trans h.eta, hkeep.beta.trans h.beta,
      hkeep.max_ind_shift.trans h.shift, rfl, hkeep.sim.rho.trans h.density, h.sim.keep hkeep.sim⟩
  · rw [hcache.1, unitEps_half, passField_uniform env he hx hy, unitField_uniform env he hx hy (by norm_num : (1 : ℝ) ≤ 3)]


/-- The derivative of what the code returns, divided by the derivative of the permittivity. -/
noncomputable def trueTerm : ℝ := -outE ^ 2 * (1 - 2 * (kap / 27))

theorem hasDerivAt_unitEps {r : ℝ → Grid Nx Ny ℝ} {r' : Grid Nx Ny ℝ} (h0 : r 0 = fun _ _ => 1 / 2) (hr : ∀ i j, HasDerivAt (fun t => r t i j) (r' i j) 0) (i : Fin Nx) (j : Fin Ny) :
    HasDerivAt (fun t => unitEps (r t) i j) (4 * drhob_drhot (1 / 2) (1 / 2) 1 * r' i j) 0 := by
  have e : (fun t => unitEps (r t) i j) = fun t => 1 + rhot2rhob (r t i j) (1 / 2) 1 * (5 - 1) := by
    funext t
    unfold unitEps rho2eps
    rw [rho2rhot_one]
    rfl
  rw [e]
  have h2 : HasDerivAt (fun x => rhot2rhob x (1 / 2) 1) (drhob_drhot (1 / 2) (1 / 2) 1) (r 0 i j) := by
    rw [h0]
    exact C02_projection_derivative _ _ _ one_ne_zero
  have h3 := (((h2.comp (0 : ℝ) (hr i j)).mul_const (5 - 1)).const_add 1)
  exact h3.congr_deriv (by ring)

/-- Both fields along a path of densities through the uniform device. -/
theorem unit_fields_deriv (env : Env) (he : env.Exact) (hx : 1 < Nx) (hy : 1 < Ny) {r : ℝ → Grid Nx Ny ℝ} {r' : Grid Nx Ny ℝ} (h0 : r 0 = fun _ _ => 1 / 2)
    (hr : ∀ i j, HasDerivAt (fun t => r t i j) (r' i j) 0) :
    ∃ X' Y' : Grid Nx Ny ℂ, HasDerivAt (fun t => unitField env (unitEps (r t))) X' 0 ∧ HasDerivAt (fun t => passField env (unitEps (r t))) Y' 0 ∧
      ∑ i, ∑ j, (X' i j).re = 4 * drhob_drhot (1 / 2) (1 / 2) 1 * (∑ i, ∑ j, r' i j) * (-1 / 9) ∧
      ∑ i, ∑ j, (Y' i j).re = 4 * drhob_drhot (1 / 2) (1 / 2) 1 * (∑ i, ∑ j, r' i j) * trueTerm := by
  have hk := kap_pos
  have he0 : unitEps (r 0) = fun _ _ => 3 := by rw [h0, unitEps_half]
  have hd := hasDerivAt_unitEps h0 hr
  obtain ⟨X', hX, hXs⟩ := unitField_deriv env he hx hy (by norm_num : (1 : ℝ) ≤ 3) (e := fun t => unitEps (r t)) he0 hd
  have hX0 : unitField env (unitEps (r 0)) = fun _ _ => ((1 / 3 : ℝ) : ℂ) := by rw [he0, unitField_uniform env he hx hy (by norm_num : (1 : ℝ) ≤ 3)]
  have hd2 : ∀ i j, HasDerivAt (fun t => unitEps (r t) i j + kap * ‖unitField env (unitEps (r t)) i j‖ ^ 2) (4 * drhob_drhot (1 / 2) (1 / 2) 1 * r' i j + kap * (2 / 3 * (X' i j).re)) 0 := by
    intro i j
    have h1 := hasDerivAt_pi.1 (hasDerivAt_pi.1 hX i) j
    have hre : HasDerivAt (fun t => (unitField env (unitEps (r t)) i j).re) (X' i j).re 0 := Complex.reCLM.hasFDerivAt.comp_hasDerivAt (0 : ℝ) h1
    have him : HasDerivAt (fun t => (unitField env (unitEps (r t)) i j).im) (X' i j).im 0 := Complex.imCLM.hasFDerivAt.comp_hasDerivAt (0 : ℝ) h1
    have e : (fun t => ‖unitField env (unitEps (r t)) i j‖ ^ 2) = fun t => (unitField env (unitEps (r t)) i j).re ^ 2 + (unitField env (unitEps (r t)) i j).im ^ 2 := by
      funext t
      rw [← Complex.normSq_eq_norm_sq, Complex.normSq_apply]
      ring
    have h2 : HasDerivAt (fun t => ‖unitField env (unitEps (r t)) i j‖ ^ 2) (2 / 3 * (X' i j).re) 0 := by
      rw [e]
      refine ((hre.pow 2).add (him.pow 2)).congr_deriv ?_
      rw [hX0, Complex.ofReal_re, Complex.ofReal_im]
      norm_num
    exact (hd i j).add (h2.const_mul kap)
  have hb : (1 : ℝ) ≤ 3 + kap / 9 := by linarith
  obtain ⟨Y', hY, hYs⟩ := unitField_deriv env he hx hy hb (e := fun t i j => unitEps (r t) i j + kap * ‖unitField env (unitEps (r t)) i j‖ ^ 2) (by
    funext i j
    rw [hX0, he0, Complex.norm_real, Real.norm_eq_abs, sq_abs]
    ring) hd2
  refine ⟨X', Y', hX, hY, ?_, ?_⟩
  · rw [hXs]
    simp only [← Finset.mul_sum]
    ring
  · rw [hYs]
    simp only [Finset.sum_add_distrib, ← Finset.mul_sum]
    rw [hXs]
    simp only [← Finset.mul_sum]
    unfold trueTerm outE
    field_simp
    ring

theorem mixVal_deriv (env : Env) (he : env.Exact) (hx : 1 < Nx) (hy : 1 < Ny) (α : ℝ) {r : ℝ → Grid Nx Ny ℝ} {r' : Grid Nx Ny ℝ} (h0 : r 0 = fun _ _ => 1 / 2)
    (hr : ∀ i j, HasDerivAt (fun t => r t i j) (r' i j) 0) :
    HasDerivAt (fun t => mixVal env α (unitEps (r t))) (4 * drhob_drhot (1 / 2) (1 / 2) 1 * (∑ i, ∑ j, r' i j) * (-α / 9 + trueTerm)) 0 := by
  obtain ⟨X', Y', hX, hY, hXs, hYs⟩ := unit_fields_deriv env he hx hy h0 hr
  have h : HasDerivAt (fun t => mixVal env α (unitEps (r t))) (∑ i, ∑ j, (α * (X' i j).re + (Y' i j).re)) 0 := by
    unfold mixVal
    refine HasDerivAt.fun_sum fun i _ => HasDerivAt.fun_sum fun j _ => ?_
    have hx1 := hasDerivAt_pi.1 (hasDerivAt_pi.1 hX i) j
    have hy1 := hasDerivAt_pi.1 (hasDerivAt_pi.1 hY i) j
    exact ((Complex.reCLM.hasFDerivAt.comp_hasDerivAt (0 : ℝ) hx1).const_mul α).add (Complex.reCLM.hasFDerivAt.comp_hasDerivAt (0 : ℝ) hy1)
  refine h.congr_deriv ?_
  simp only [Finset.sum_add_distrib, ← Finset.mul_sum]
  rw [hXs, hYs]
  ring

/-- One pass is enough near the uniform device. -/
theorem onePass_eventually (env : Env) (he : env.Exact) (hx : 1 < Nx) (hy : 1 < Ny) {r : ℝ → Grid Nx Ny ℝ} {r' : Grid Nx Ny ℝ} (h0 : r 0 = fun _ _ => 1 / 2)
    (hr : ∀ i j, HasDerivAt (fun t => r t i j) (r' i j) 0) : ∀ᶠ t in 𝓝 (0 : ℝ), OnePass env (unitEps (r t)) := by
  obtain ⟨X', Y', hX, hY, -, -⟩ := unit_fields_deriv env he hx hy h0 hr
  have cX : ∀ i j, ContinuousAt (fun t => unitField env (unitEps (r t)) i j) 0 := fun i j => (hasDerivAt_pi.1 (hasDerivAt_pi.1 hX i) j).continuousAt
  have cY : ∀ i j, ContinuousAt (fun t => passField env (unitEps (r t)) i j) 0 := fun i j => (hasDerivAt_pi.1 (hasDerivAt_pi.1 hY i) j).continuousAt
  have c1 : ContinuousAt (fun t => Real.sqrt (∑ i, ∑ j, ‖passField env (unitEps (r t)) i j - unitField env (unitEps (r t)) i j‖ ^ 2)) 0 :=
    (tendsto_finsetSum _ fun i _ => tendsto_finsetSum _ fun j _ => (((cY i j).sub (cX i j)).norm.pow 2)).sqrt
  have c2 : ContinuousAt (fun t => 1e-10 * Real.sqrt (∑ i, ∑ j, ‖passField env (unitEps (r t)) i j‖ ^ 2)) 0 :=
    ((tendsto_finsetSum _ fun i _ => tendsto_finsetSum _ fun j _ => ((cY i j).norm.pow 2)).sqrt).const_mul _
  have hs := onePass_uniform (Nx := Nx) (Ny := Ny) env he hx hy
  have e0 : unitEps (r 0) = fun _ _ => 3 := by rw [h0, unitEps_half]
  rw [← e0] at hs
  exact c1.eventually_lt c2 hs


/-- The two terms differ. -/
theorem kerrTerm_lt {F : ℝ} (hF : F = 1 / 3 ∨ F = outE) : kerrTerm F ≤ kerrTerm (1 / 3) ∧ kerrTerm (1 / 3) < trueTerm := by
  have hk := kap_pos
  have hk2 := kap_lt
  have ho := outE_pos
  have hb : outE * (3 + kap / 9) = 1 := by unfold outE; field_simp
  have ho3 : outE ≤ 1 / 3 := by nlinarith [mul_pos ho hk]
  have hden : ∀ x : ℝ, 0 ≤ x → 0 < 3 + kap * x ^ 2 + 2 * kap * x * outE := fun x hx => by positivity
  refine ⟨?_, ?_⟩
  · rcases hF with rfl | rfl
    · exact le_refl _
    · unfold kerrTerm
      rw [neg_div, neg_div, neg_le_neg_iff]
      refine div_le_div_of_nonneg_left ho.le (hden _ ho.le) ?_
      gcongr
  · unfold kerrTerm trueTerm
    rw [div_lt_iff₀ (hden _ (by norm_num))]
    -- with `u = κ/27`
    set u := kap / 27 with hu
    have hku : kap = 27 * u := by rw [hu]; ring
    have hu0 : 0 < u := by rw [hu]; positivity
    have hu1 : u < 1 := by rw [hu]; linarith
    rw [hku] at hb ⊢
    have hE : outE = 1 / (3 * (1 + u)) := by
      rw [eq_div_iff (by positivity)]
      linarith
    rw [hE]
    have h1 : (0 : ℝ) < 1 + u := by positivity
    rw [show -(1 / (3 * (1 + u))) ^ 2 * (1 - 2 * u) * (3 + 27 * u * (1 / 3) ^ 2 + 2 * (27 * u) * (1 / 3) * (1 / (3 * (1 + u)))) =
      -(1 / (3 * (1 + u))) * ((1 - 2 * u) * ((1 + u) ^ 2 + 2 * u) / (1 + u) ^ 2) by field_simp; ring]
    have h2 : (1 - 2 * u) * ((1 + u) ^ 2 + 2 * u) / (1 + u) ^ 2 < 1 := by
      rw [div_lt_one (by positivity)]
      nlinarith [pow_pos hu0 2, pow_pos hu0 3]
    have h3 : (0 : ℝ) < 1 / (3 * (1 + u)) := by positivity
    nlinarith

/-- The weight of the linear field in the objective. -/
noncomputable def mixA : ℝ := 9 * ((kerrTerm (1 / 3) + trueTerm) / 2)

/-- The weak Kerr device: permittivity 3 (density 1/2), no layers, every pixel a design pixel, no filter, uniform source, `χ = 10⁻¹¹` everywhere. -/
noncomputable def kuopt (Nx Ny : ℕ) : Opt Nx Ny :=
  { objective := Objective.mk' (mixJ mixA) mixArgs,
    simulation := { cksim 0 1e-11 (fun _ _ => 3) (fun _ _ => -Complex.I) with rho := some (some fun _ _ => 1 / 2) },
    design_region := fun _ _ => 1, W := 1, eps_m := 5, eta := 1 / 2, beta := 1, max_ind_shift := none,
    src_amplitudes := [], objfn_list := [], fields_current := false, field_arg_list := none }

theorem kuopt_spec : KerrOpt mixA (fun _ _ => 1 / 2) (kuopt Nx Ny) := by
  refine ⟨rfl, rfl, rfl, rfl, rfl, rfl, rfl, rfl, rfl, ?_⟩
  have hv := cksim_valid (Nx := Nx) (Ny := Ny) 0 1e-11 (fun _ _ => 3) fun _ _ => -Complex.I
  refine ⟨⟨hv.L0_pos, hv.omega_pos, hv.xr, hv.yr, hv.A_eq, hv.derivs_eq⟩, rfl, rfl, rfl, rfl, rfl, rfl, rfl, ?_⟩
  rw [unitEps_half]
  show (fun _ _ => (3 : ℂ)) = _
  simp

/-- The code's gradient is negative, the derivative of what the code returns positive. -/
theorem kuopt_signs {F : ℝ} (hF : F = 1 / 3 ∨ F = outE) : 4 * drhob_drhot (1 / 2) (1 / 2) 1 * (-mixA / 9 + kerrTerm F) < 0 ∧ 0 < -mixA / 9 + trueTerm := by
  obtain ⟨h1, h2⟩ := kerrTerm_lt hF
  have hD := drhob_drhot_pos (1 / 2)
  unfold mixA
  refine ⟨mul_neg_of_pos_of_neg (by positivity) (by linarith), by linarith⟩

end Angler
