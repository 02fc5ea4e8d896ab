import Verif.Lemmas.Gradient
import Mathlib.Analysis.Calculus.Deriv.Prod

/-! # The adjoint gradient for the linear Ez polarisation -/

namespace Angler

open Matrix Filter Topology

variable {Nx Ny : ℕ}

/-- The simulation with the permittivity of density `rho'`. -/
noncomputable def Spec.simAt (o : Opt Nx Ny) (rho' : Grid Nx Ny ℝ) : Sim Nx Ny :=
  o.simulation.set_eps_r fun i j => ((rho2eps rho' o.eps_m o.W o.eta o.beta i j : ℝ) : ℂ)

/-- What is needed of the filter at a design pixel: `W` is symmetric there, and the pixel does not leak into the outside. -/
def Spec.FilterSym (W : Mat (Nx * Ny) ℝ) (design : Grid Nx Ny ℝ) (i0 : Fin Nx) (j0 : Fin Ny) : Prop :=
  ∀ i j, (design i j = 1 ∧ W (finProdFinEquiv (i, j)) (finProdFinEquiv (i0, j0)) = W (finProdFinEquiv (i0, j0)) (finProdFinEquiv (i, j))) ∨
    (design i j = 0 ∧ W (finProdFinEquiv (i, j)) (finProdFinEquiv (i0, j0)) = 0)

theorem objective_init_ok {J : ObjFn Nx Ny} {args : List ObjArg} {ob : Objective Nx Ny} (h : Objective.init J args = .ok ob) :
    args.length = J.arity ∧ ob = Objective.mk' J args := by
  unfold Objective.init at h
  by_cases hl : args.length = J.arity
  · rw [if_neg (not_not.2 hl)] at h
    exact ⟨hl, (Except.ok.inj h).symm⟩
  · rw [if_pos hl] at h
    exact absurd h (by simp)

/-- What `compute_J` returns for a linear objective of Ez-polarisation fields, with stale fields. -/
theorem compute_J_linear (env : Env) (o : Opt Nx Ny) (J : ObjFn Nx Ny) (args : List ObjArg) (hlen : args.length = J.arity)
    (hobj : o.objective = Objective.mk' J args) (hcur : o.fields_current = false) (hlin : ∀ a ∈ args, a.nl = false ∧ a.component.isEz)
    (s : Sim Nx Ny) (hp : s.pol = .Ez) :
    (Opt.compute_J env o (some s)).1 = .ok (J.eval fun k => linField s (solver_direct env s.A s.rhs) (args.get (k.cast hlen.symm)).component) := by
  obtain ⟨t, ht, hst⟩ := solve_fields_Ez env s hp
  have hl : o.objective.isLinear = true := (isLinear_iff _).2 fun a ha => (hlin a (by rw [hobj] at ha; exact ha)).1
  have harg : o.objective.arg_list = args := by rw [hobj]; rfl
  have htar : o.target (some s) = s := rfl
  have hall : Opt.solveAll env o.objective.isLinear (o.target (some s)) = (.ok (), { s with fields := Sim.store .Ez s.fields t }) := by
    rw [htar, hl]
    simp only [Opt.solveAll, ht, if_true]
  have hcol : Opt.collect { s with fields := Sim.store .Ez s.fields t } o.objective.arg_list =
      .ok (args.map fun a => linField s (solver_direct env s.A s.rhs) a.component) := by
    rw [harg]
    refine collect_ok _ _ _ fun a ha => ?_
    rw [(hlin a ha).1]
    exact hst _ (hlin a ha).2
  have hsolve : Opt.solveArgFields env o (some s) = (.ok (), { o with field_arg_list := some (args.map fun a => linField s (solver_direct env s.A s.rhs) a.component), fields_current := true },
      some { s with fields := Sim.store .Ez s.fields t }) := by
    unfold Opt.solveArgFields
    rw [if_pos (Or.inl hcur), hall]
    simp only [Opt.putTarget, hcol]
  have hJ : J.call (args.map fun a => linField s (solver_direct env s.A s.rhs) a.component) =
      .ok (J.eval fun k => linField s (solver_direct env s.A s.rhs) (args.get (k.cast hlen.symm)).component) := by
    unfold ObjFn.call
    rw [dif_pos (by rw [List.length_map, hlen])]
    congr 2
    funext k
    simp
  unfold Opt.compute_J
  rw [hsolve, hobj]
  exact hJ

/-- State after the solves of `compute_dJ` on `self.simulation`. -/
theorem solveArgFields_self (env : Env) (o : Opt Nx Ny) (J : ObjFn Nx Ny) (args : List ObjArg)
    (hobj : o.objective = Objective.mk' J args) (hcur : o.fields_current = false) (hlin : ∀ a ∈ args, a.nl = false ∧ a.component.isEz)
    (hp : o.simulation.pol = .Ez) :
    ∃ fl, Opt.solveArgFields env o none = (.ok (), { o with simulation := { o.simulation with fields := fl }, field_arg_list := some (args.map fun a => linField o.simulation (solver_direct env o.simulation.A o.simulation.rhs) a.component), fields_current := true }, none) ∧
      (o.simulation.solve_fields env).2.fields = fl ∧
      ∀ c, c.isEz → fl c = some (linField o.simulation (solver_direct env o.simulation.A o.simulation.rhs) c) := by
  obtain ⟨t, ht, hst⟩ := solve_fields_Ez env o.simulation hp
  have hl : o.objective.isLinear = true := (isLinear_iff _).2 fun a ha => (hlin a (by rw [hobj] at ha; exact ha)).1
  have harg : o.objective.arg_list = args := by rw [hobj]; rfl
  refine ⟨Sim.store .Ez o.simulation.fields t, ?_, by rw [ht], hst⟩
  have htar : o.target none = o.simulation := rfl
  have hall : Opt.solveAll env o.objective.isLinear (o.target none) = (.ok (), { o.simulation with fields := Sim.store .Ez o.simulation.fields t }) := by
    rw [htar, hl]
    simp only [Opt.solveAll, ht, if_true]
  have hcol : Opt.collect { o.simulation with fields := Sim.store .Ez o.simulation.fields t } o.objective.arg_list =
      .ok (args.map fun a => linField o.simulation (solver_direct env o.simulation.A o.simulation.rhs) a.component) := by
    rw [harg]
    refine collect_ok _ _ _ fun a ha => ?_
    rw [(hlin a ha).1]
    exact hst _ (hlin a ha).2
  unfold Opt.solveArgFields
  rw [if_pos (Or.inl hcur), hall]
  simp only [Opt.putTarget, hcol]

/-- The gradient functions of the Ez polarisation in one formula. -/
theorem gradFn_Ez (env : Env) (o : Opt Nx Ny) (rho : Grid Nx Ny ℝ) (hrho : o.simulation.rho = some (some rho)) (c : Comp) (hc : c.isEz) (p Fz : Grid Nx Ny ℂ) :
    Opt.gradFn env o (gradientMap c false) p Fz =
      (.ok (Opt.tail_Ez o rho Fz (unflatten (solver_direct env o.simulation.Aᵀ (-(linPart o.simulation p c))))), o.simulation) := by
  have hneg : (flatten fun i j => -p i j) = -(flatten p : Vec (Nx * Ny) ℂ) := rfl
  cases c <;> simp only [Comp.isEz] at hc <;>
    simp only [gradientMap, Opt.gradFn, Opt.grad_linear_Ez, Opt.grad_linear_Hx, Opt.grad_linear_Hy, adjoint_linear_Ez, Opt.getRho, hrho, linPart, hneg,
      Matrix.mulVec_neg, smul_neg, flatten_unflatten] <;> rfl

/-- The code's sensitivity formula, pixel by pixel. -/
theorem tail_Ez_apply (o : Opt Nx Ny) (rho : Grid Nx Ny ℝ) (Ez aj : Grid Nx Ny ℂ) (i0 : Fin Nx) (j0 : Fin Ny) :
    Opt.tail_Ez o rho Ez aj i0 j0 = (∑ i, ∑ j, aj i j * ((o.simulation.omega : ℂ) ^ 2 * ((EPSILON_0 * o.simulation.L0 : ℝ) : ℂ) *
      ((((o.eps_m - 1) * drhob_drhot (rho2rhot rho o.W i j) o.eta o.beta * (o.W (finProdFinEquiv (i0, j0)) (finProdFinEquiv (i, j)) * o.design_region i j) : ℝ) : ℂ) * Ez i j))).re := by
  simp only [Opt.tail_Ez, unflatten, Opt.filtDot]
  rw [sum_flat]
  congr 1
  refine Finset.sum_congr rfl fun i _ => Finset.sum_congr rfl fun j _ => ?_
  simp only [flatten_pair, Opt.projMat, Opt.dAdeps, drhot_drho]
  push_cast
  ring

/-- Derivative of the solution vector along a path of densities. -/
theorem hasDerivAt_solution (env : Env) (he : env.Exact) (o : Opt Nx Ny) (hp : o.simulation.pol = .Ez) {r : ℝ → Grid Nx Ny ℝ} {r' : Grid Nx Ny ℝ}
    (hr : ∀ i j, HasDerivAt (fun t => r t i j) (r' i j) 0) (hdet : (Spec.simAt o (r 0)).A.det ≠ 0) (hb : o.beta ≠ 0) :
    HasDerivAt (fun t => solver_direct env (Spec.simAt o (r t)).A (Spec.simAt o (r t)).rhs)
      (-((Spec.simAt o (r 0)).A⁻¹ *ᵥ ((spdiag fun k => (o.simulation.omega : ℂ) ^ 2 * ((EPSILON_0 * o.simulation.L0 : ℝ) : ℂ) *
        flatten (fun i j => (((o.eps_m - 1) * drhob_drhot (rho2rhot (r 0) o.W i j) o.eta o.beta * rho2rhot r' o.W i j : ℝ) : ℂ)) k) *ᵥ
          solver_direct env (Spec.simAt o (r 0)).A (Spec.simAt o (r 0)).rhs))) 0 := by
  have hA : ∀ t, (Spec.simAt o (r t)).A = (construct_A o.simulation.omega o.simulation.xrange o.simulation.yrange
      (fun i j => ((rho2eps (r t) o.eps_m o.W o.eta o.beta i j : ℝ) : ℂ)) o.simulation.NPML .Ez o.simulation.L0).1 := by
    intro t
    rw [← hp]; rfl
  have hrhs : ∀ t, (Spec.simAt o (r t)).rhs = o.simulation.rhs := fun t => rfl
  have hder := fun k l => hasDerivAt_construct_A_Ez o.simulation.omega o.simulation.xrange o.simulation.yrange o.simulation.NPML o.simulation.L0
    (eps := fun t i j => ((rho2eps (r t) o.eps_m o.W o.eta o.beta i j : ℝ) : ℂ))
    (fun i j => hasDerivAt_rho2eps_path hr o.eps_m o.W o.eta o.beta hb i j) k l
  simp only [← hA] at hder
  have hcont : ContinuousAt (fun t => (Spec.simAt o (r t)).A) 0 :=
    continuousAt_pi.2 fun i => continuousAt_pi.2 fun j => (hder i j).continuousAt
  have hx : ∀ᶠ t in 𝓝 (0 : ℝ), (Spec.simAt o (r t)).A *ᵥ (solver_direct env (Spec.simAt o (r t)).A (Spec.simAt o (r t)).rhs) = o.simulation.rhs := by
    filter_upwards [(continuousAt_matrix_det hcont).eventually_ne hdet] with t ht
    exact solver_direct_spec he (Or.inl ht)
  have h := hasDerivAt_linear_solve hder hdet hx
  simp only [hrhs] at h ⊢
  exact h

/-- The same for a change of one density pixel. -/
theorem hasDerivAt_solution_bump (env : Env) (he : env.Exact) (o : Opt Nx Ny) (hp : o.simulation.pol = .Ez) (hv : o.simulation.Valid) (rho : Grid Nx Ny ℝ)
    (heps : o.simulation.eps_r = fun i j => ((rho2eps rho o.eps_m o.W o.eta o.beta i j : ℝ) : ℂ)) (hdet : o.simulation.A.det ≠ 0) (hb : o.beta ≠ 0)
    (i0 : Fin Nx) (j0 : Fin Ny) :
    HasDerivAt (fun t => solver_direct env (Spec.simAt o (Spec.bump rho i0 j0 t)).A (Spec.simAt o (Spec.bump rho i0 j0 t)).rhs)
      (-(o.simulation.A⁻¹ *ᵥ ((spdiag fun k => (o.simulation.omega : ℂ) ^ 2 * ((EPSILON_0 * o.simulation.L0 : ℝ) : ℂ) *
        flatten (fun i j => (((o.eps_m - 1) * drhob_drhot (rho2rhot rho o.W i j) o.eta o.beta * o.W (finProdFinEquiv (i, j)) (finProdFinEquiv (i0, j0)) : ℝ) : ℂ)) k) *ᵥ
          solver_direct env o.simulation.A o.simulation.rhs))) 0 := by
  have hsim0 : (Spec.simAt o (Spec.bump rho i0 j0 0)).A = o.simulation.A := by rw [bump_zero, hv.A_eq, heps]; rfl
  have hrhs0 : (Spec.simAt o (Spec.bump rho i0 j0 0)).rhs = o.simulation.rhs := rfl
  have h := hasDerivAt_solution env he o hp (hasDerivAt_bump rho i0 j0) (by rw [hsim0]; exact hdet) hb
  rw [hsim0, hrhs0, bump_zero] at h
  simp only [rho2rhot_single] at h
  exact h

theorem mulVec_eq_sum' {n : ℕ} (D : Mat n ℂ) (v : Vec n ℂ) (i : Fin n) : (D *ᵥ v) i = ∑ j, D i j * v j := rfl

theorem hasDerivAt_linField (s : Sim Nx Ny) {X : ℝ → Vec (Nx * Ny) ℂ} {X' : Vec (Nx * Ny) ℂ} (h : HasDerivAt X X' 0) (c : Comp) :
    HasDerivAt (fun t => linField s (X t) c) (linField s X' c) 0 := by
  have hm : ∀ D : Mat (Nx * Ny) ℂ, HasDerivAt (fun t => D *ᵥ X t) (D *ᵥ X') 0 := by
    intro D
    refine hasDerivAt_pi.2 fun i => ?_
    simp only [mulVec_eq_sum']
    exact HasDerivAt.fun_sum fun j _ => ((hasDerivAt_pi.1 h) j).const_mul (D i j)
  have hu : ∀ {Y : ℝ → Vec (Nx * Ny) ℂ} {Y' : Vec (Nx * Ny) ℂ}, HasDerivAt Y Y' 0 → HasDerivAt (fun t => (unflatten (Y t) : Grid Nx Ny ℂ)) (unflatten Y') 0 := by
    intro Y Y' hY
    exact hasDerivAt_pi.2 fun i => hasDerivAt_pi.2 fun j => (hasDerivAt_pi.1 hY) _
  have hs : ∀ (a : ℂ) {Y : ℝ → Vec (Nx * Ny) ℂ} {Y' : Vec (Nx * Ny) ℂ}, HasDerivAt Y Y' 0 → HasDerivAt (fun t => a • Y t) (a • Y') 0 := by
    intro a Y Y' hY
    exact hasDerivAt_pi.2 fun i => ((hasDerivAt_pi.1 hY) i).const_mul a
  cases c
  · exact hu h
  · exact hu h
  · exact hu h
  · exact hu (hs _ (hm _))
  · exact hu (hs _ (hm _))
  · exact hu h

/-- `linField` depends on the simulation only through `omega`, `L0` and the derivative matrices, which do not depend on the permittivity. -/
theorem linField_simAt (o : Opt Nx Ny) (hv : o.simulation.Valid) (rho' : Grid Nx Ny ℝ) (X : Vec (Nx * Ny) ℂ) (c : Comp) :
    linField (Spec.simAt o rho') X c = linField o.simulation X c := by
  have hd : (Spec.simAt o rho').derivs = o.simulation.derivs := by
    rw [hv.derivs_eq]
    exact construct_A_derivs _ _ _ _ _ _ _ _
  have ho : (Spec.simAt o rho').omega = o.simulation.omega := rfl
  have hL : (Spec.simAt o rho').L0 = o.simulation.L0 := rfl
  cases c <;> simp only [linField, hd, ho, hL]

/-- The situation in which a gradient is asked for: an objective of linear Ez-polarisation fields accepted by the constructor, a constructed simulation with nonsingular
system, density and permittivity in agreement, and (trusted) correct `autograd` partials at the solved fields. -/
structure Spec.LinearEz (env : Env) (o : Opt Nx Ny) (J : ObjFn Nx Ny) (args : List ObjArg) (rho : Grid Nx Ny ℝ) : Prop where
  obj : Objective.init J args = .ok o.objective
  valid : o.simulation.Valid
  pol : o.simulation.pol = .Ez
  det : o.simulation.A.det ≠ 0
  stale : o.fields_current = false
  density : o.simulation.rho = some (some rho)
  eps : o.simulation.eps_r = fun i j => ((rho2eps rho o.eps_m o.W o.eta o.beta i j : ℝ) : ℂ)
  beta : o.beta ≠ 0
  autograd : ∀ x, (∀ (k : Fin J.arity) a, args[(k : ℕ)]? = some a → (o.simulation.solve_fields env).2.fields a.component = some (x k)) → Spec.Autograd J x

/-- The gradient returned by the code, for linear objectives of Ez, Hx, Hy fields. -/
theorem dJ_Ez_formula (env : Env) (o : Opt Nx Ny) (J : ObjFn Nx Ny) (args : List ObjArg) (rho : Grid Nx Ny ℝ)
    (hS : Spec.LinearEz env o J args rho) (hargs : ∀ a ∈ args, a.nl = false ∧ a.component.isEz ∧ a.gradient = gradientMap a.component a.nl)
    (hlen : args.length = J.arity) :
    let x : Fin J.arity → Grid Nx Ny ℂ := fun k => linField o.simulation (solver_direct env o.simulation.A o.simulation.rhs) (args.get (k.cast hlen.symm)).component
    (∀ (k : Fin J.arity) a, args[(k : ℕ)]? = some a → (o.simulation.solve_fields env).2.fields a.component = some (x k)) ∧
      (Opt.compute_dJ env o).1 = .ok fun i j => ∑ k : Fin J.arity, Opt.tail_Ez o rho (unflatten (solver_direct env o.simulation.A o.simulation.rhs))
        (unflatten (solver_direct env o.simulation.Aᵀ (-(linPart o.simulation (J.partials k x) (args.get (k.cast hlen.symm)).component)))) i j := by
  obtain ⟨hobj, hv, hp, hdet, hcur, hrho, heps, hb, hauto⟩ := hS
  obtain ⟨-, hmk⟩ := objective_init_ok hobj
  have hlin : ∀ a ∈ args, a.nl = false ∧ a.component.isEz := fun a ha => ⟨(hargs a ha).1, (hargs a ha).2.1⟩
  obtain ⟨fl, hsol, hfl, hflc⟩ := solveArgFields_self env o J args hmk hcur hlin hp
  -- abbreviations
  set s := o.simulation with hs
  set X := solver_direct env s.A s.rhs with hX
  let arg : Fin J.arity → ObjArg := fun k => args.get (k.cast hlen.symm)
  have harg : ∀ k, arg k ∈ args := fun k => List.get_mem _ _
  let x0 : Fin J.arity → Grid Nx Ny ℂ := fun k => linField s X (arg k).component
  have hx0 : ∀ (k : Fin J.arity) a, args[(k : ℕ)]? = some a → (s.solve_fields env).2.fields a.component = some (x0 k) := by
    intro k a hk
    have hk' : a = arg k := by
      have hlt : (k : ℕ) < args.length := by rw [hlen]; exact k.2
      rw [List.getElem?_eq_getElem hlt, Option.some.injEq] at hk
      rw [← hk]; rfl
    rw [hfl, hk']
    exact hflc _ (hlin _ (harg k)).2
  refine ⟨hx0, ?_⟩
  let aj : Fin J.arity → Grid Nx Ny ℂ := fun k => unflatten (solver_direct env s.Aᵀ (-(linPart s (J.partials k x0) (arg k).component)))
  let G : GradFn × Fin J.arity × ObjArg → Grid Nx Ny ℝ := fun q => Opt.tail_Ez o rho (unflatten X) (unflatten (solver_direct env s.Aᵀ (-(linPart s (J.partials q.2.1 x0) q.2.2.component))))
  let o1 : Opt Nx Ny := { o with objective := Objective.mk' J args, simulation := { s with fields := fl }, field_arg_list := some (args.map fun a => linField s X a.component), fields_current := true }
  have hcall : ∀ d : Fin J.arity, J.callGrad d (args.map fun a => linField s X a.component) = .ok (J.partials d x0) := by
    intro d
    unfold ObjFn.callGrad
    rw [dif_pos (by rw [List.length_map, hlen])]
    congr 2
    funext m
    simp [x0, arg]
  have hzip := zip_args J args hlen
  have hloop := dJLoop_ok env (fun o' => o' = o1) (fun d => J.callGrad d (args.map fun a => linField s X a.component)) G
    (List.ofFn fun k : Fin J.arity => ((arg k).gradient, k, arg k)) (by
      intro q hq o' ho'
      rw [List.mem_ofFn] at hq
      obtain ⟨k, rfl⟩ := hq
      subst ho'
      have hk := hargs _ (harg k)
      refine ⟨unflatten X, J.partials k x0, { s with fields := fl }, ?_, hcall k, ?_, rfl⟩
      · show (if (arg k).nl then _ else fl o.simulation.pol.comp) = _
        rw [hk.1, ← hs, hp]
        exact hflc .Ez trivial
      · show Opt.gradFn env o1 (arg k).gradient (J.partials k x0) (unflatten X) = _
        rw [hk.2.2, hk.1]
        exact gradFn_Ez env o1 rho hrho _ hk.2.1 _ _)
    o1 (fun _ _ => 0) rfl
  obtain ⟨o', _, hdJ⟩ := hloop
  have hsumG : ∀ i j, (0 : ℝ) + ((List.ofFn fun k : Fin J.arity => ((arg k).gradient, k, arg k)).map fun q => G q i j).sum =
      ∑ k, Opt.tail_Ez o rho (unflatten X) (aj k) i j := by
    intro i j
    rw [zero_add, List.map_ofFn, List.sum_ofFn]
    rfl
  unfold Opt.compute_dJ
  rw [hsol]
  simp only [Option.getD_some]
  rw [hmk, hzip]
  have := congrArg Prod.fst hdJ
  simp only [hsumG] at this
  exact this

/-- The objective at the density `rho'`, for linear arguments: the objective function of the solved fields. -/
noncomputable def linObj (env : Env) (o : Opt Nx Ny) (J : ObjFn Nx Ny) (args : List ObjArg) (hlen : args.length = J.arity) (rho' : Grid Nx Ny ℝ) : ℝ :=
  J.eval fun k => linField (Spec.simAt o rho') (solver_direct env (Spec.simAt o rho').A (Spec.simAt o rho').rhs) (args.get (k.cast hlen.symm)).component

/-- The derivative of the objective along a path of densities. -/
theorem hasDerivAt_linObj (env : Env) (he : env.Exact) (o : Opt Nx Ny) (J : ObjFn Nx Ny) (args : List ObjArg) (rho : Grid Nx Ny ℝ)
    (hS : Spec.LinearEz env o J args rho) (hargs : ∀ a ∈ args, a.nl = false ∧ a.component.isEz ∧ a.gradient = gradientMap a.component a.nl)
    (hlen : args.length = J.arity) {r : ℝ → Grid Nx Ny ℝ} {r' : Grid Nx Ny ℝ} (hr0 : r 0 = rho) (hr : ∀ i j, HasDerivAt (fun t => r t i j) (r' i j) 0) :
    let x : Fin J.arity → Grid Nx Ny ℂ := fun k => linField o.simulation (solver_direct env o.simulation.A o.simulation.rhs) (args.get (k.cast hlen.symm)).component
    HasDerivAt (fun t => linObj env o J args hlen (r t)) (∑ k : Fin J.arity, (∑ i, ∑ j,
      unflatten (solver_direct env o.simulation.Aᵀ (-(linPart o.simulation (J.partials k x) (args.get (k.cast hlen.symm)).component))) i j *
        ((o.simulation.omega : ℂ) ^ 2 * ((EPSILON_0 * o.simulation.L0 : ℝ) : ℂ) *
        ((((o.eps_m - 1) * drhob_drhot (rho2rhot rho o.W i j) o.eta o.beta * rho2rhot r' o.W i j : ℝ) : ℂ) *
          unflatten (solver_direct env o.simulation.A o.simulation.rhs) i j))).re) 0 := by
  intro x
  obtain ⟨hx, -⟩ := dJ_Ez_formula env o J args rho hS hargs hlen
  obtain ⟨hobj, hv, hp, hdet, hcur, hrho, heps, hb, hauto⟩ := hS
  have hsim0 : (Spec.simAt o rho).A = o.simulation.A := by rw [hv.A_eq, heps]; rfl
  have hrhs0 : (Spec.simAt o rho).rhs = o.simulation.rhs := rfl
  obtain ⟨L, hL, hJ⟩ := hauto x hx
  have hX' := hasDerivAt_solution env he o hp hr (by rw [hr0, hsim0]; exact hdet) hb
  rw [hr0, hsim0, hrhs0] at hX'
  set s := o.simulation with hs
  set X := solver_direct env s.A s.rhs with hX
  let arg : Fin J.arity → ObjArg := fun k => args.get (k.cast hlen.symm)
  set X' := -(s.A⁻¹ *ᵥ ((spdiag fun k => (s.omega : ℂ) ^ 2 * ((EPSILON_0 * s.L0 : ℝ) : ℂ) *
        flatten (fun i j => (((o.eps_m - 1) * drhob_drhot (rho2rhot rho o.W i j) o.eta o.beta * rho2rhot r' o.W i j : ℝ) : ℂ)) k) *ᵥ X)) with hX'def
  unfold linObj
  simp only [linField_simAt o hv]
  have hfield : HasDerivAt (fun t => fun k : Fin J.arity => linField s (solver_direct env (Spec.simAt o (r t)).A (Spec.simAt o (r t)).rhs) (arg k).component)
      (fun k => linField s X' (arg k).component) 0 :=
    hasDerivAt_pi.2 fun k => hasDerivAt_linField s hX' _
  have hpt : (fun k : Fin J.arity => linField s (solver_direct env (Spec.simAt o (r 0)).A (Spec.simAt o (r 0)).rhs) (arg k).component) = x := by
    rw [hr0, hsim0, hrhs0]
  have hJ' : HasFDerivAt J.eval L ((fun t => fun k : Fin J.arity => linField s (solver_direct env (Spec.simAt o (r t)).A (Spec.simAt o (r t)).rhs) (arg k).component) 0) := by
    rw [show (fun t => fun k : Fin J.arity => linField s (solver_direct env (Spec.simAt o (r t)).A (Spec.simAt o (r t)).rhs) (arg k).component) 0 = x from hpt]
    exact hJ
  refine (hJ'.comp_hasDerivAt (0 : ℝ) hfield).congr_deriv ?_
  rw [hL]
  refine Finset.sum_congr rfl fun k _ => ?_
  have h1 : ∑ i, ∑ j, (J.partials k x i j * linField s X' (arg k).component i j).re = (linPart s (J.partials k x) (arg k).component ⬝ᵥ X').re := by
    rw [← pair_linField, Complex.re_sum]
    exact Finset.sum_congr rfl fun i _ => (Complex.re_sum _ _).symm
  rw [h1, hX'def]
  have hdetT : s.Aᵀ.det ≠ 0 := by rw [Matrix.det_transpose]; exact hdet
  rw [adjoint_identity hdet (a := solver_direct env s.Aᵀ (-(linPart s (J.partials k x) (arg k).component))) (solver_direct_spec he (Or.inl hdetT))]
  congr 1
  rw [spdiag_mulVec, dotProduct, sum_flat]
  refine Finset.sum_congr rfl fun i _ => Finset.sum_congr rfl fun j _ => ?_
  simp only [flatten_pair]
  simp only [unflatten]
  ring

theorem compute_J_linObj (env : Env) (o : Opt Nx Ny) (J : ObjFn Nx Ny) (args : List ObjArg) (hobj : o.objective = Objective.mk' J args) (hcur : o.fields_current = false)
    (hp : o.simulation.pol = .Ez) (hargs : ∀ a ∈ args, a.nl = false ∧ a.component.isEz) (hlen : args.length = J.arity) (rho' : Grid Nx Ny ℝ) :
    (Opt.compute_J env o (some (Spec.simAt o rho'))).1 = .ok (linObj env o J args hlen rho') :=
  compute_J_linear env o J args hlen hobj hcur hargs _ hp

/-- The code's gradient and the true derivative, for linear objectives of Ez, Hx, Hy fields: they differ in which index of the filter is summed over. -/
theorem gradient_Ez_formula (env : Env) (he : env.Exact) (o : Opt Nx Ny) (J : ObjFn Nx Ny) (args : List ObjArg) (rho : Grid Nx Ny ℝ)
    (hS : Spec.LinearEz env o J args rho) (hargs : ∀ a ∈ args, a.nl = false ∧ a.component.isEz ∧ a.gradient = gradientMap a.component a.nl)
    (i0 : Fin Nx) (j0 : Fin Ny) :
    ∃ (x : Fin J.arity → Grid Nx Ny ℂ) (g : Grid Nx Ny ℝ) (f : ℝ → ℝ), (Opt.compute_dJ env o).1 = .ok g ∧
      (∀ t, (Opt.compute_J env o (some (Spec.simAt o (Spec.bump rho i0 j0 t)))).1 = .ok (f t)) ∧
      (∀ (k : Fin J.arity) a, args[(k : ℕ)]? = some a → (o.simulation.solve_fields env).2.fields a.component = some (x k)) ∧
      let aj : Fin J.arity → Grid Nx Ny ℂ := fun k => unflatten (solver_direct env o.simulation.Aᵀ (-(linPart o.simulation (J.partials k x) ((args[(k : ℕ)]?.map ObjArg.component).getD .Ez))))
      (∀ i j, g i j = ∑ k, Opt.tail_Ez o rho (unflatten (solver_direct env o.simulation.A o.simulation.rhs)) (aj k) i j) ∧
      HasDerivAt f (∑ k, (∑ i, ∑ j, aj k i j * ((o.simulation.omega : ℂ) ^ 2 * ((EPSILON_0 * o.simulation.L0 : ℝ) : ℂ) *
        ((((o.eps_m - 1) * drhob_drhot (rho2rhot rho o.W i j) o.eta o.beta * o.W (finProdFinEquiv (i, j)) (finProdFinEquiv (i0, j0)) : ℝ) : ℂ) *
          unflatten (solver_direct env o.simulation.A o.simulation.rhs) i j))).re) 0 := by
  obtain ⟨hlen, hmk⟩ := objective_init_ok hS.obj
  obtain ⟨hx, hg⟩ := dJ_Ez_formula env o J args rho hS hargs hlen
  have hcomp : ∀ k : Fin J.arity, (args[(k : ℕ)]?.map ObjArg.component).getD .Ez = (args.get (k.cast hlen.symm)).component := by
    intro k
    have hlt : (k : ℕ) < args.length := by rw [hlen]; exact k.2
    rw [List.getElem?_eq_getElem hlt]
    rfl
  refine ⟨_, _, fun t => linObj env o J args hlen (Spec.bump rho i0 j0 t), hg,
    fun t => compute_J_linObj env o J args hmk hS.stale hS.pol (fun a ha => ⟨(hargs a ha).1, (hargs a ha).2.1⟩) hlen _, hx, ?_⟩
  refine ⟨fun i j => by simp only [hcomp], ?_⟩
  simp only [hcomp]
  have h := hasDerivAt_linObj env he o J args rho hS hargs hlen (bump_zero rho i0 j0) (hasDerivAt_bump rho i0 j0)
  simp only [rho2rhot_single] at h
  exact h

/-- The adjoint gradient is exact at pixels where the filter is symmetric. -/
theorem gradient_exact_Ez (env : Env) (he : env.Exact) (o : Opt Nx Ny) (J : ObjFn Nx Ny) (args : List ObjArg) (rho : Grid Nx Ny ℝ)
    (hS : Spec.LinearEz env o J args rho) (hargs : ∀ a ∈ args, a.nl = false ∧ a.component.isEz ∧ a.gradient = gradientMap a.component a.nl)
    (i0 : Fin Nx) (j0 : Fin Ny) (hW : Spec.FilterSym o.W o.design_region i0 j0) :
    ∃ g f, (Opt.compute_dJ env o).1 = .ok g ∧
      (∀ t, (Opt.compute_J env o (some (Spec.simAt o (Spec.bump rho i0 j0 t)))).1 = .ok (f t)) ∧ HasDerivAt f (g i0 j0) 0 := by
  obtain ⟨x, g, f, h1, h2, -, h3, h4⟩ := gradient_Ez_formula env he o J args rho hS hargs i0 j0
  refine ⟨g, f, h1, h2, h4.congr_deriv ?_⟩
  rw [h3]
  refine Finset.sum_congr rfl fun k _ => ?_
  rw [tail_Ez_apply]
  congr 1
  refine Finset.sum_congr rfl fun i _ => Finset.sum_congr rfl fun j _ => ?_
  have hWij : o.W (finProdFinEquiv (i, j)) (finProdFinEquiv (i0, j0)) = o.W (finProdFinEquiv (i0, j0)) (finProdFinEquiv (i, j)) * o.design_region i j := by
    rcases hW i j with ⟨h1, h2⟩ | ⟨h1, h2⟩
    · rw [h2, h1, mul_one]
    · rw [h2, h1, mul_zero]
  rw [hWij]

end Angler
