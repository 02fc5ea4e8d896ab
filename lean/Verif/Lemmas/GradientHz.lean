import Verif.Lemmas.GradientEz
import Mathlib.Analysis.Calculus.Deriv.Inv

/-! # The adjoint gradient for objectives of the linear Hz field -/

namespace Angler

open Matrix Filter Topology

variable {Nx Ny : ℕ}

/-- Derivative of the averaged inverse permittivities. -/
theorem hasDerivAt_inv_avg (L0 : ℝ) (w : Axis) {eps : ℝ → Grid Nx Ny ℂ} {deps : Grid Nx Ny ℂ}
    (h : ∀ i j, HasDerivAt (fun t => eps t i j) (deps i j) 0) (k : Fin (Nx * Ny))
    (hne : flatten (grid_average (fun i j => ((EPSILON_0 * L0 : ℝ) : ℂ) * eps 0 i j) w) k ≠ 0) :
    HasDerivAt (fun t => 1 / flatten (grid_average (fun i j => ((EPSILON_0 * L0 : ℝ) : ℂ) * eps t i j) w) k)
      (-flatten (grid_average (fun i j => ((EPSILON_0 * L0 : ℝ) : ℂ) * deps i j) w) k /
        flatten (grid_average (fun i j => ((EPSILON_0 * L0 : ℝ) : ℂ) * eps 0 i j) w) k ^ 2) 0 := by
  have hd : HasDerivAt (fun t => flatten (grid_average (fun i j => ((EPSILON_0 * L0 : ℝ) : ℂ) * eps t i j) w) k)
      (flatten (grid_average (fun i j => ((EPSILON_0 * L0 : ℝ) : ℂ) * deps i j) w) k) 0 := by
    cases w
    · exact (((h _ _).const_mul _).add ((h _ _).const_mul _)).div_const 2
    · exact (((h _ _).const_mul _).add ((h _ _).const_mul _)).div_const 2
  simp only [one_div]
  exact hd.inv hne

/-- Derivative of the Hz system matrix along a path of permittivities. -/
noncomputable def dAHz (omega : ℝ) (xr yr : ℝ × ℝ) (NPML : ℕ × ℕ) (L0 : ℝ) (eps deps : Grid Nx Ny ℂ) : Mat (Nx * Ny) ℂ :=
  let D := mkDerivs omega xr yr Nx Ny NPML L0
  let q : Axis → Vec (Nx * Ny) ℂ := fun w k => -flatten (grid_average (fun i j => ((EPSILON_0 * L0 : ℝ) : ℂ) * deps i j) w) k /
        flatten (grid_average (fun i j => ((EPSILON_0 * L0 : ℝ) : ℂ) * eps i j) w) k ^ 2
  D.Dxf * spdiag (q .x) * D.Dxb + D.Dyf * spdiag (q .y) * D.Dyb

theorem mul_spdiag_mul_apply {n : ℕ} (A B : Mat n ℂ) (d : Vec n ℂ) (k l : Fin n) : (A * spdiag d * B) k l = ∑ m, A k m * d m * B m l := by
  rw [Matrix.mul_apply]
  simp only [spdiag, Matrix.mul_diagonal]

theorem hasDerivAt_construct_A_Hz (omega : ℝ) (xr yr : ℝ × ℝ) (NPML : ℕ × ℕ) (L0 : ℝ) {eps : ℝ → Grid Nx Ny ℂ} {deps : Grid Nx Ny ℂ}
    (h : ∀ i j, HasDerivAt (fun t => eps t i j) (deps i j) 0)
    (hne : ∀ w k, flatten (grid_average (fun i j => ((EPSILON_0 * L0 : ℝ) : ℂ) * eps 0 i j) w) k ≠ 0) (k l : Fin (Nx * Ny)) :
    HasDerivAt (fun t => (construct_A omega xr yr (eps t) NPML .Hz L0).1 k l) (dAHz omega xr yr NPML L0 (eps 0) deps k l) 0 := by
  have main : ∀ (w : Axis) (A B : Mat (Nx * Ny) ℂ), HasDerivAt (fun t => (A * spdiag (fun k => 1 / flatten (grid_average (fun i j => ((EPSILON_0 * L0 : ℝ) : ℂ) * eps t i j) w) k) * B) k l)
      ((A * spdiag (fun k => -flatten (grid_average (fun i j => ((EPSILON_0 * L0 : ℝ) : ℂ) * deps i j) w) k /
        flatten (grid_average (fun i j => ((EPSILON_0 * L0 : ℝ) : ℂ) * eps 0 i j) w) k ^ 2) * B) k l) 0 := by
    intro w A B
    simp only [mul_spdiag_mul_apply]
    exact HasDerivAt.fun_sum fun m _ => ((hasDerivAt_inv_avg L0 w h m (hne w m)).const_mul _).mul_const _
  simp only [construct_A, if_true, dAHz, Matrix.add_apply]
  exact ((main .x _ _).add (main .y _ _)).add_const _

/-- The simulation after a linear Hz solve. -/
theorem solve_fields_Hz (env : Env) (s : Sim Nx Ny) (hp : s.pol = .Hz) :
    ∃ t, s.solve_fields env = (.ok t, { s with fields := Sim.store .Hz s.fields t }) ∧
      Sim.store .Hz s.fields t .Hz = some (unflatten (solver_direct env s.A s.rhs)) := by
  refine ⟨s.in_plane false s.eps_r (solver_direct env s.A s.rhs), ?_, ?_⟩
  · simp only [Sim.solve_fields, if_true, hp]
  · simp only [Sim.store, Sim.in_plane, hp]

/-- State and stored arguments after `_solve_objfn_arg_fields`, for a linear objective of Hz. -/
theorem solveArgFields_Hz (env : Env) (o : Opt Nx Ny) (other : Option (Sim Nx Ny)) (J : ObjFn Nx Ny) (args : List ObjArg)
    (hobj : o.objective = Objective.mk' J args) (hcur : o.fields_current = false) (hlin : ∀ a ∈ args, a.nl = false ∧ a.component = .Hz)
    (hp : (o.target other).pol = .Hz) :
    ∃ fl, Opt.solveArgFields env o other = (.ok (), { (o.putTarget other { o.target other with fields := fl }).1 with field_arg_list := some (args.map fun _ => unflatten (solver_direct env (o.target other).A (o.target other).rhs)), fields_current := true },
        (o.putTarget other { o.target other with fields := fl }).2) ∧
      ((o.target other).solve_fields env).2.fields = fl ∧ fl .Hz = some (unflatten (solver_direct env (o.target other).A (o.target other).rhs)) := by
  obtain ⟨t, ht, hst⟩ := solve_fields_Hz env (o.target other) hp
  have hl : o.objective.isLinear = true := (isLinear_iff _).2 fun a ha => (hlin a (by rw [hobj] at ha; exact ha)).1
  have harg : o.objective.arg_list = args := by rw [hobj]; rfl
  refine ⟨Sim.store .Hz (o.target other).fields t, ?_, by rw [ht], hst⟩
  have hall : Opt.solveAll env o.objective.isLinear (o.target other) = (.ok (), { o.target other with fields := Sim.store .Hz (o.target other).fields t }) := by
    rw [hl]
    simp only [Opt.solveAll, ht, if_true]
  have hcol : Opt.collect { o.target other with fields := Sim.store .Hz (o.target other).fields t } o.objective.arg_list =
      .ok (args.map fun _ => unflatten (solver_direct env (o.target other).A (o.target other).rhs)) := by
    rw [harg]
    refine collect_ok _ _ _ fun a ha => ?_
    rw [(hlin a ha).1, (hlin a ha).2]
    exact hst
  unfold Opt.solveArgFields
  rw [if_pos (Or.inl hcur), hall]
  simp only [hcol]

theorem compute_J_Hz (env : Env) (o : Opt Nx Ny) (J : ObjFn Nx Ny) (args : List ObjArg) (hlen : args.length = J.arity)
    (hobj : o.objective = Objective.mk' J args) (hcur : o.fields_current = false) (hlin : ∀ a ∈ args, a.nl = false ∧ a.component = .Hz)
    (s : Sim Nx Ny) (hp : s.pol = .Hz) :
    (Opt.compute_J env o (some s)).1 = .ok (J.eval fun _ => unflatten (solver_direct env s.A s.rhs)) := by
  obtain ⟨fl, hsolve, -⟩ := solveArgFields_Hz env o (some s) J args hobj hcur hlin hp
  have hJ : J.call (args.map fun _ => unflatten (solver_direct env s.A s.rhs)) = .ok (J.eval fun _ => unflatten (solver_direct env s.A s.rhs)) := by
    unfold ObjFn.call
    rw [dif_pos (by rw [List.length_map, hlen])]
    congr 2
    funext k
    simp
  unfold Opt.compute_J
  rw [hsolve, hobj]
  exact hJ

/-- The situation for an objective of the linear Hz field: as `Spec.LinearEz`, with a positive permittivity. -/
structure Spec.LinearHz (env : Env) (o : Opt Nx Ny) (J : ObjFn Nx Ny) (args : List ObjArg) (rho : Grid Nx Ny ℝ) : Prop where
  obj : Objective.init J args = .ok o.objective
  args_Hz : ∀ a ∈ args, ObjArg.init "Hz" false = .ok a
  valid : o.simulation.Valid
  pol : o.simulation.pol = .Hz
  det : o.simulation.A.det ≠ 0
  stale : o.fields_current = false
  density : o.simulation.rho = some (some rho)
  eps : o.simulation.eps_r = fun i j => ((rho2eps rho o.eps_m o.W o.eta o.beta i j : ℝ) : ℂ)
  eps_pos : ∀ i j, 0 < rho2eps rho o.eps_m o.W o.eta o.beta i j
  beta : o.beta ≠ 0
  autograd : ∀ x, (∀ k : Fin J.arity, (o.simulation.solve_fields env).2.fields .Hz = some (x k)) → Spec.Autograd J x

/-- Derivative of the permittivity with respect to the density at `(i0, j0)`. -/
noncomputable def Spec.epsDot (o : Opt Nx Ny) (rho : Grid Nx Ny ℝ) (i0 : Fin Nx) (j0 : Fin Ny) : Grid Nx Ny ℂ := fun i j =>
  (((o.eps_m - 1) * drhob_drhot (rho2rhot rho o.W i j) o.eta o.beta * o.W (finProdFinEquiv (i, j)) (finProdFinEquiv (i0, j0)) : ℝ) : ℂ)

theorem avg_ne (L0 : ℝ) (hL : 0 < L0) (e : Grid Nx Ny ℝ) (he : ∀ i j, 0 < e i j) (w : Axis) (k : Fin (Nx * Ny)) :
    flatten (grid_average (fun i j => ((EPSILON_0 * L0 : ℝ) : ℂ) * (e i j : ℂ)) w) k ≠ 0 := by
  have h : ∀ a b : ℝ, 0 < a → 0 < b → (((EPSILON_0 * L0 : ℝ) : ℂ) * (a : ℂ) + ((EPSILON_0 * L0 : ℝ) : ℂ) * (b : ℂ)) / 2 ≠ 0 := by
    intro a b ha hb
    have h0 : (0 : ℝ) < EPSILON_0 * L0 := mul_pos EPSILON_0_pos hL
    have : (EPSILON_0 * L0 * a + EPSILON_0 * L0 * b) / 2 ≠ 0 := by positivity
    exact_mod_cast this
  cases w
  · exact h _ _ (he _ _) (he _ _)
  · exact h _ _ (he _ _) (he _ _)

/-- Derivative of the solution vector along one density pixel (Hz). -/
theorem hasDerivAt_solution_Hz (env : Env) (he : env.Exact) (o : Opt Nx Ny) (hp : o.simulation.pol = .Hz) (hv : o.simulation.Valid) (rho : Grid Nx Ny ℝ)
    (heps : o.simulation.eps_r = fun i j => ((rho2eps rho o.eps_m o.W o.eta o.beta i j : ℝ) : ℂ)) (hpos : ∀ i j, 0 < rho2eps rho o.eps_m o.W o.eta o.beta i j)
    (hdet : o.simulation.A.det ≠ 0) (hb : o.beta ≠ 0) (i0 : Fin Nx) (j0 : Fin Ny) :
    HasDerivAt (fun t => solver_direct env (Spec.simAt o (Spec.bump rho i0 j0 t)).A (Spec.simAt o (Spec.bump rho i0 j0 t)).rhs)
      (-(o.simulation.A⁻¹ *ᵥ (dAHz o.simulation.omega o.simulation.xrange o.simulation.yrange o.simulation.NPML o.simulation.L0 o.simulation.eps_r (Spec.epsDot o rho i0 j0) *ᵥ
          solver_direct env o.simulation.A o.simulation.rhs))) 0 := by
  have hA : ∀ t, (Spec.simAt o (Spec.bump rho i0 j0 t)).A = (construct_A o.simulation.omega o.simulation.xrange o.simulation.yrange
      (fun i j => ((rho2eps (Spec.bump rho i0 j0 t) o.eps_m o.W o.eta o.beta i j : ℝ) : ℂ)) o.simulation.NPML .Hz o.simulation.L0).1 := by
    intro t
    rw [← hp]; rfl
  have hr : ∀ t, (Spec.simAt o (Spec.bump rho i0 j0 t)).rhs = o.simulation.rhs := fun t => rfl
  have h0 : (Spec.simAt o (Spec.bump rho i0 j0 0)).A = o.simulation.A := by
    rw [hA, bump_zero, hv.A_eq, hp, heps]
  have hder := fun k l => hasDerivAt_construct_A_Hz o.simulation.omega o.simulation.xrange o.simulation.yrange o.simulation.NPML o.simulation.L0
    (eps := fun t i j => ((rho2eps (Spec.bump rho i0 j0 t) o.eps_m o.W o.eta o.beta i j : ℝ) : ℂ)) (deps := Spec.epsDot o rho i0 j0)
    (fun i j => hasDerivAt_rho2eps rho o.eps_m o.W o.eta o.beta hb i0 j0 i j) (fun w k => by
      simp only [bump_zero]
      exact avg_ne _ hv.L0_pos _ hpos w k) k l
  simp only [← hA, bump_zero] at hder
  rw [← heps] at hder
  have hdet0 : (Spec.simAt o (Spec.bump rho i0 j0 0)).A.det ≠ 0 := by rw [h0]; exact hdet
  have hcont : ContinuousAt (fun t => (Spec.simAt o (Spec.bump rho i0 j0 t)).A) 0 :=
    continuousAt_pi.2 fun i => continuousAt_pi.2 fun j => (hder i j).continuousAt
  have hx : ∀ᶠ t in 𝓝 (0 : ℝ), (Spec.simAt o (Spec.bump rho i0 j0 t)).A *ᵥ
      (solver_direct env (Spec.simAt o (Spec.bump rho i0 j0 t)).A (Spec.simAt o (Spec.bump rho i0 j0 t)).rhs) = o.simulation.rhs := by
    filter_upwards [(continuousAt_matrix_det hcont).eventually_ne hdet0] with t ht
    exact solver_direct_spec he (Or.inl ht)
  have h := hasDerivAt_linear_solve hder hdet0 hx
  simp only [hr, h0] at h ⊢
  exact h

/-- The pairing of the adjoint field with the derivative of the system matrix. -/
theorem pair_dAHz (omega : ℝ) (xr yr : ℝ × ℝ) (NPML : ℕ × ℕ) (L0 : ℝ) (eps deps : Grid Nx Ny ℂ) (D : Derivs Nx Ny) (hD : D = mkDerivs omega xr yr Nx Ny NPML L0) (a X : Vec (Nx * Ny) ℂ) :
    a ⬝ᵥ (dAHz omega xr yr NPML L0 eps deps *ᵥ X) =
      ∑ k, ((D.Dxfᵀ *ᵥ a) k * (-flatten (grid_average (fun i j => ((EPSILON_0 * L0 : ℝ) : ℂ) * deps i j) .x) k /
          flatten (grid_average (fun i j => ((EPSILON_0 * L0 : ℝ) : ℂ) * eps i j) .x) k ^ 2) * (D.Dxb *ᵥ X) k +
        (D.Dyfᵀ *ᵥ a) k * (-flatten (grid_average (fun i j => ((EPSILON_0 * L0 : ℝ) : ℂ) * deps i j) .y) k /
          flatten (grid_average (fun i j => ((EPSILON_0 * L0 : ℝ) : ℂ) * eps i j) .y) k ^ 2) * (D.Dyb *ᵥ X) k) := by
  subst hD
  have h : ∀ (A B : Mat (Nx * Ny) ℂ) (q : Vec (Nx * Ny) ℂ), a ⬝ᵥ ((A * spdiag q * B) *ᵥ X) = ∑ k, (Aᵀ *ᵥ a) k * q k * (B *ᵥ X) k := by
    intro A B q
    rw [← Matrix.mulVec_mulVec, ← Matrix.mulVec_mulVec, Matrix.dotProduct_mulVec, ← Matrix.mulVec_transpose, spdiag_mulVec, dotProduct]
    exact Finset.sum_congr rfl fun k _ => by ring
  simp only [dAHz]
  rw [Matrix.add_mulVec, dotProduct_add, h, h, Finset.sum_add_distrib]

/-- The code's Hz sensitivity, pixel by pixel. -/
theorem tail_Hz_apply (env : Env) (o : Opt Nx Ny) (rho : Grid Nx Ny ℝ) (Hz b : Grid Nx Ny ℂ) (ho : o.simulation.omega ≠ 0) (i0 : Fin Nx) (j0 : Fin Ny) :
    let a := solver_direct env o.simulation.Aᵀ (flatten b)
    let E0 : ℂ := ((EPSILON_0 * o.simulation.L0 : ℝ) : ℂ)
    let deps : Grid Nx Ny ℂ := fun i j => (((o.eps_m - 1) * drhob_drhot (rho2rhot rho o.W i j) o.eta o.beta * (o.W (finProdFinEquiv (i0, j0)) (finProdFinEquiv (i, j)) * o.design_region i j) : ℝ) : ℂ)
    Opt.tail_Hz env o rho Hz b i0 j0 = (∑ k, ((o.simulation.derivs.Dxfᵀ *ᵥ a) k * (-(E0 * flatten deps k) / (E0 * flatten o.simulation.eps_r k) ^ 2) * (o.simulation.derivs.Dxf *ᵥ flatten Hz) k +
        (o.simulation.derivs.Dyfᵀ *ᵥ a) k * (-(E0 * flatten deps k) / (E0 * flatten o.simulation.eps_r k) ^ 2) * (o.simulation.derivs.Dyf *ᵥ flatten Hz) k)).re := by
  intro a E0 deps
  have hw : (o.simulation.omega : ℂ) ≠ 0 := by exact_mod_cast ho
  simp only [Opt.tail_Hz, unflatten, Opt.filtDot]
  rw [← Finset.sum_add_distrib]
  congr 1
  refine Finset.sum_congr rfl fun k _ => ?_
  simp only [adjoint_linear_Hz, Sim.eps_xy, Bool.false_eq_true, if_false, flatten_unflatten, Pi.smul_apply, ← Matrix.mulVec_mulVec, spdiag_mulVec, smul_eq_mul, Opt.projMat, Opt.dAdeps, drhot_drho]
  have hdk : flatten deps k = (((o.eps_m - 1) * drhob_drhot (flatten (rho2rhot rho o.W) k) o.eta o.beta * (o.W (finProdFinEquiv (i0, j0)) k * flatten o.design_region k) : ℝ) : ℂ) := by
    obtain ⟨⟨i, j⟩, rfl⟩ := finProdFinEquiv.surjective k
    simp only [flatten_pair, deps]
  rw [hdk]
  push_cast
  generalize (o.simulation.derivs.Dxfᵀ *ᵥ a) k = u1
  generalize (o.simulation.derivs.Dyfᵀ *ᵥ a) k = u2
  generalize (o.simulation.derivs.Dxf *ᵥ flatten Hz) k = v1
  generalize (o.simulation.derivs.Dyf *ᵥ flatten Hz) k = v2
  generalize flatten o.simulation.eps_r k = e
  simp only [div_eq_mul_inv, one_mul, mul_inv, mul_pow, Complex.inv_I, E0]
  push_cast
  have h1 : (o.simulation.omega : ℂ) ^ 2 * ((o.simulation.omega : ℂ)⁻¹ * (o.simulation.omega : ℂ)⁻¹) = 1 := by field_simp
  have h2 : Complex.I * Complex.I = -1 := Complex.I_mul_I
  linear_combination (((o.eps_m : ℂ) - 1) * (o.W (finProdFinEquiv (i0, j0)) k : ℂ) * (drhob_drhot (flatten (rho2rhot rho o.W) k) o.eta o.beta : ℂ) * ((flatten o.design_region k : ℝ) : ℂ) *
    ((EPSILON_0 : ℂ) * (o.simulation.L0 : ℂ)) * ((EPSILON_0 : ℂ)⁻¹ * (o.simulation.L0 : ℂ)⁻¹ * e⁻¹) ^ 2 * (u1 * v1 + u2 * v2)) * (Complex.I * Complex.I * h1 + h2)

/-- The code's gradient and the true derivative for a linear objective of Hz. -/
theorem gradient_Hz_formula (env : Env) (he : env.Exact) (o : Opt Nx Ny) (J : ObjFn Nx Ny) (args : List ObjArg) (rho : Grid Nx Ny ℝ)
    (hS : Spec.LinearHz env o J args rho) (i0 : Fin Nx) (j0 : Fin Ny) :
    ∃ (g : Grid Nx Ny ℝ) (f : ℝ → ℝ), (Opt.compute_dJ env o).1 = .ok g ∧
      (∀ t, (Opt.compute_J env o (some (Spec.simAt o (Spec.bump rho i0 j0 t)))).1 = .ok (f t)) ∧
      let X : Grid Nx Ny ℂ := unflatten (solver_direct env o.simulation.A o.simulation.rhs)
      let b : Fin J.arity → Grid Nx Ny ℂ := fun k i j => -J.partials k (fun _ => X) i j
      (∀ i j, g i j = ∑ k, Opt.tail_Hz env o rho X (b k) i j) ∧
      HasDerivAt f (∑ k, (solver_direct env o.simulation.Aᵀ (flatten (b k)) ⬝ᵥ
        (dAHz o.simulation.omega o.simulation.xrange o.simulation.yrange o.simulation.NPML o.simulation.L0 o.simulation.eps_r (Spec.epsDot o rho i0 j0) *ᵥ flatten X)).re) 0 := by
  obtain ⟨hobj, hargs, hv, hp, hdet, hcur, hrho, heps, hpos, hb, hauto⟩ := hS
  obtain ⟨hlen, hmk⟩ := objective_init_ok hobj
  have hall : ∀ a ∈ args, a = ⟨.Hz, false, .linear_Hz⟩ := fun a ha => (Except.ok.inj (hargs a ha)).symm
  have hlin : ∀ a ∈ args, a.nl = false ∧ a.component = .Hz := fun a ha => by rw [hall a ha]; exact ⟨rfl, rfl⟩
  obtain ⟨fl, hsol, hfl, hflc⟩ := solveArgFields_Hz env o none J args hmk hcur hlin hp
  have htar : o.target none = o.simulation := rfl
  rw [htar] at hsol hfl hflc
  set s := o.simulation with hs
  set X := solver_direct env s.A s.rhs with hX
  let arg : Fin J.arity → ObjArg := fun k => args.get (k.cast hlen.symm)
  have harg : ∀ k, arg k = ⟨.Hz, false, .linear_Hz⟩ := fun k => hall _ (List.get_mem _ _)
  let x0 : Fin J.arity → Grid Nx Ny ℂ := fun _ => unflatten X
  have hA : Spec.Autograd J x0 := hauto x0 fun k => by rw [hfl]; exact hflc
  obtain ⟨L, hL, hJ⟩ := hA
  let b : Fin J.arity → Grid Nx Ny ℂ := fun k i j => -J.partials k x0 i j
  let G : GradFn × Fin J.arity × ObjArg → Grid Nx Ny ℝ := fun q => Opt.tail_Hz env o rho (unflatten X) (b q.2.1)
  let o1 : Opt Nx Ny := { o with objective := Objective.mk' J args, simulation := { s with fields := fl }, field_arg_list := some (args.map fun _ => unflatten X), fields_current := true }
  have hcall : ∀ d : Fin J.arity, J.callGrad d (args.map fun _ => unflatten X) = .ok (J.partials d x0) := by
    intro d
    unfold ObjFn.callGrad
    rw [dif_pos (by rw [List.length_map, hlen])]
    congr 2
    funext m
    simp [x0]
  have hzip := zip_args J args hlen
  have hloop := dJLoop_ok env (fun o' => o' = o1) (fun d => J.callGrad d (args.map fun _ => unflatten X)) G
    (List.ofFn fun k : Fin J.arity => ((arg k).gradient, k, arg k)) (by
      intro q hq o' ho'
      rw [List.mem_ofFn] at hq
      obtain ⟨k, rfl⟩ := hq
      subst ho'
      refine ⟨unflatten X, J.partials k x0, { s with fields := fl }, ?_, hcall k, ?_, rfl⟩
      · show (if (arg k).nl then _ else fl o.simulation.pol.comp) = _
        rw [harg, ← hs, hp]
        exact hflc
      · show Opt.gradFn env o1 (arg k).gradient (J.partials k x0) (unflatten X) = _
        rw [harg]
        simp only [Opt.gradFn, Opt.grad_linear_Hz, Opt.getRho, o1, hrho]
        rfl)
    o1 (fun _ _ => 0) rfl
  obtain ⟨o', _, hdJ⟩ := hloop
  have hsumG : ∀ i j, (0 : ℝ) + ((List.ofFn fun k : Fin J.arity => ((arg k).gradient, k, arg k)).map fun q => G q i j).sum =
      ∑ k, Opt.tail_Hz env o rho (unflatten X) (b k) i j := by
    intro i j
    rw [zero_add, List.map_ofFn, List.sum_ofFn]
    rfl
  refine ⟨fun i j => ∑ k, Opt.tail_Hz env o rho (unflatten X) (b k) i j,
    fun t => J.eval fun _ => unflatten (solver_direct env (Spec.simAt o (Spec.bump rho i0 j0 t)).A (Spec.simAt o (Spec.bump rho i0 j0 t)).rhs), ?_, ?_, fun i j => rfl, ?_⟩
  · unfold Opt.compute_dJ
    rw [hsol]
    simp only [Opt.putTarget, Option.getD_some]
    rw [hmk, hzip]
    have := congrArg Prod.fst hdJ
    simp only [hsumG] at this
    exact this
  · intro t
    exact compute_J_Hz env o J args hlen hmk hcur hlin _ hp
  · have hX' := hasDerivAt_solution_Hz env he o hp hv rho heps hpos hdet hb i0 j0
    set M := dAHz s.omega s.xrange s.yrange s.NPML s.L0 s.eps_r (Spec.epsDot o rho i0 j0) with hM
    have hfield : HasDerivAt (fun t => fun _ : Fin J.arity => (unflatten (solver_direct env (Spec.simAt o (Spec.bump rho i0 j0 t)).A (Spec.simAt o (Spec.bump rho i0 j0 t)).rhs) : Grid Nx Ny ℂ))
        (fun _ => unflatten (-(s.A⁻¹ *ᵥ (M *ᵥ X)))) 0 :=
      hasDerivAt_pi.2 fun k => hasDerivAt_pi.2 fun i => hasDerivAt_pi.2 fun j => (hasDerivAt_pi.1 hX') _
    have hA0 : (Spec.simAt o (Spec.bump rho i0 j0 0)).A = s.A := by
      rw [bump_zero, hv.A_eq, heps]; rfl
    have hJ' : HasFDerivAt J.eval L ((fun t => fun _ : Fin J.arity => (unflatten (solver_direct env (Spec.simAt o (Spec.bump rho i0 j0 t)).A (Spec.simAt o (Spec.bump rho i0 j0 t)).rhs) : Grid Nx Ny ℂ)) 0) := by
      have : (fun t => fun _ : Fin J.arity => (unflatten (solver_direct env (Spec.simAt o (Spec.bump rho i0 j0 t)).A (Spec.simAt o (Spec.bump rho i0 j0 t)).rhs) : Grid Nx Ny ℂ)) 0 = x0 := by
        funext k
        show unflatten (solver_direct env (Spec.simAt o (Spec.bump rho i0 j0 0)).A (Spec.simAt o (Spec.bump rho i0 j0 0)).rhs) = _
        rw [hA0]; rfl
      rw [this]
      exact hJ
    refine (hJ'.comp_hasDerivAt (0 : ℝ) hfield).congr_deriv ?_
    rw [hL]
    refine Finset.sum_congr rfl fun k _ => ?_
    have h1 : ∑ i, ∑ j, (J.partials k x0 i j * unflatten (-(s.A⁻¹ *ᵥ (M *ᵥ X))) i j).re = (flatten (J.partials k x0) ⬝ᵥ -(s.A⁻¹ *ᵥ (M *ᵥ X))).re := by
      rw [dotProduct, sum_flat, Complex.re_sum]
      refine Finset.sum_congr rfl fun i _ => ?_
      rw [Complex.re_sum]
      refine Finset.sum_congr rfl fun j _ => ?_
      rw [flatten_pair]
      rfl
    rw [h1]
    have hdetT : s.Aᵀ.det ≠ 0 := by rw [Matrix.det_transpose]; exact hdet
    have ha : s.Aᵀ *ᵥ solver_direct env s.Aᵀ (flatten (b k)) = -flatten (J.partials k x0) := solver_direct_spec he (Or.inl hdetT)
    rw [adjoint_identity hdet ha, flatten_unflatten]

end Angler
