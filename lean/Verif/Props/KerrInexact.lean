import Verif.Lemmas.KerrProblem
import Verif.Props.RunInexact
import Verif.Props.KerrRun
import Verif.Props.GradientApprox
import Verif.Props.BornInexact
import Verif.Props.NewtonInexact

/-! # C121: gradients of Kerr devices with inexact linear solvers

C82 lets the stored nonlinear fields be approximate but solves the adjoint systems exactly.  Here every linear solve, of the fields, of the passes of the Born solver and of the adjoint systems, may be
inexact. -/

namespace Angler

open Matrix Filter Topology

variable {Nx Ny : ℕ}

/-! ## Limits -/

theorem within_weaken {env : Env} {τ σ : ℝ} (h : env.Within τ) (hle : τ ≤ σ) : env.Within σ := fun A b hA => (h A b hA).trans (mul_le_mul_of_nonneg_right hle (norm_nonneg _))

theorem kerrAdj2_tendsto_var {env : ℕ → Env} (hw : ∀ k : ℕ, (env k).Within (1 / ((k : ℝ) + 1))) {env0 : Env} (he : env0.Exact) (s : Sim Nx Ny) {E1 E p : ℕ → Grid Nx Ny ℂ} {Z q : Grid Nx Ny ℂ}
    (h1 : Tendsto E1 atTop (𝓝 Z)) (h : Tendsto E atTop (𝓝 Z)) (hp : Tendsto p atTop (𝓝 q)) (hdet : (stackConj (kerrC11 s Z) (kerrC12 s Z)).det ≠ 0) :
    Tendsto (fun t => kerrAdj2 (env t) s (E1 t) (E t) (p t)) atTop (𝓝 (kerrAdj2 env0 s Z Z q)) := by
  refine solver_tendsto_var hw ?_ (tendsto_stackConj (tendsto_kerrD11 s h1 h) (tendsto_kerrD12 s h1 h)) (tendsto_stackVec fun k => (tendsto_flatten hp k).neg) he
  rw [Matrix.det_transpose]
  exact hdet

theorem argGrad2_tendsto_var {env : ℕ → Env} (hw : ∀ k : ℕ, (env k).Within (1 / ((k : ℝ) + 1))) {env0 : Env} (he : env0.Exact) (o : Opt Nx Ny) (rho : Grid Nx Ny ℝ) {E1 E p : ℕ → Grid Nx Ny ℂ}
    {Z q : Grid Nx Ny ℂ} (h1 : Tendsto E1 atTop (𝓝 Z)) (h : Tendsto E atTop (𝓝 Z)) (hp : Tendsto p atTop (𝓝 q))
    (hdet : (stackConj (kerrC11 o.simulation Z) (kerrC12 o.simulation Z)).det ≠ 0) (a : ObjArg) (hA : a.nl = false → o.simulation.A.det ≠ 0) (i0 : Fin Nx) (j0 : Fin Ny) :
    Tendsto (fun t => argGrad2 (env t) o rho (E1 t) (E t) (p t) a i0 j0) atTop (𝓝 (argGrad2 env0 o rho Z Z q a i0 j0)) := by
  unfold argGrad2
  cases hn : a.nl with
  | true =>
    simp only [if_true, tail_kerr_apply]
    refine (Complex.continuous_re.tendsto _).comp (tendsto_finsetSum _ fun i _ => tendsto_finsetSum _ fun j _ => ?_)
    have hadj := kerrAdj2_tendsto_var hw he o.simulation h1 h hp hdet
    refine Tendsto.mul (tendsto_pi_nhds.1 hadj _) ?_
    exact (tendsto_const_nhds.mul ((tendsto_const_nhds.add (tendsto_dnl_deps o.simulation h i j)).mul tendsto_const_nhds)).mul (tendsto_entry h i j)
  | false =>
    simp only [Bool.false_eq_true, if_false]
    have hb : Tendsto (fun t => -(linPart o.simulation (p t) a.component)) atTop (𝓝 (-(linPart o.simulation q a.component))) :=
      (((linPart_continuous o.simulation _).tendsto _).comp hp).neg
    have hsol := solver_tendsto hw o.simulation.Aᵀ (by rw [Matrix.det_transpose]; exact hA hn) hb he
    have hlin := solver_tendsto hw o.simulation.A (hA hn) (tendsto_const_nhds (x := o.simulation.rhs)) he
    exact tail_Ez_tendsto_all o i0 j0 (tendsto_const_nhds (x := rho)) hlin hsol

theorem argField_tendsto_var {env : ℕ → Env} (hw : ∀ k : ℕ, (env k).Within (1 / ((k : ℝ) + 1))) {env0 : Env} (he : env0.Exact) (s : Sim Nx Ny) {E : ℕ → Grid Nx Ny ℂ} {Z : Grid Nx Ny ℂ}
    (h : Tendsto E atTop (𝓝 Z)) (a : ObjArg) (hA : a.nl = false → s.A.det ≠ 0) : Tendsto (fun t => argField (env t) s (E t) a) atTop (𝓝 (argField env0 s Z a)) := by
  unfold argField
  cases hn : a.nl with
  | true => simpa using h
  | false =>
    simp only [Bool.false_eq_true, if_false]
    exact ((linField_continuous s _).tendsto _).comp (solver_tendsto hw s.A (hA hn) (tendsto_const_nhds (x := s.rhs)) he)

theorem grid_tendsto_of_close {E : ℕ → Grid Nx Ny ℂ} {Z : Grid Nx Ny ℂ} (h : ∀ (k : ℕ) i j, ‖E k i j - Z i j‖ < 1 / ((k : ℝ) + 1)) : Tendsto E atTop (𝓝 Z) := by
  refine tendsto_pi_nhds.2 fun i => tendsto_pi_nhds.2 fun j => ?_
  rw [tendsto_iff_norm_sub_tendsto_zero]
  exact squeeze_zero (fun _ => norm_nonneg _) (fun k => (h k i j).le) tendsto_one_div_add_atTop_nhds_zero_nat

/-! ## The theorems -/

/-- **C121, continuity.** At an exact, regular Kerr solution `Z` with correct and continuous `autograd` partials: for every accuracy there are a distance and a residual such that any optimisation of the
same device whose nonlinear fields are within that distance of `Z`, and whose linear solves all have at most that residual, computes a gradient within the accuracy of the exact one, at every pixel. -/
theorem C121_gradient (env0 : Env) (he : env0.Exact) (o : Opt Nx Ny) (J : ObjFn Nx Ny) (args : List ObjArg) (rho : Grid Nx Ny ℝ) (Z : Grid Nx Ny ℂ) (hS : Spec.KerrEz env0 o J args rho Z)
    (hJ : ∀ x, (∀ (k : Fin J.arity) a, args[(k : ℕ)]? = some a → (if a.nl then o.simulation.fields_nl a.component else o.simulation.fields a.component) = some (x k)) →
      ∀ k, ContinuousAt (J.partials k) x) :
    ∃ g, (Opt.compute_dJ env0 o).1 = .ok g ∧ ∀ ε > 0, ∃ η > 0, ∃ τ > 0, ∀ env : Env, env.Within τ → ∀ o' E E1, Spec.KerrApprox env o' J args rho E E1 → Spec.OnlyFieldsDiffer o o' →
      (∀ i j, ‖E i j - Z i j‖ < η) → (∀ i j, ‖E1 i j - Z i j‖ < η) → ∃ g', (Opt.compute_dJ env o').1 = .ok g' ∧ ∀ i j, |g' i j - g i j| < ε := by
  obtain ⟨hlen, hg⟩ := kerr_compute_dJ env0 o J args rho Z hS
  refine ⟨_, hg, fun ε hε => ?_⟩
  let arg : Fin J.arity → ObjArg := fun k => args.get (k.cast hlen.symm)
  have harg : ∀ k, arg k ∈ args := fun k => List.get_mem _ _
  have hget : ∀ k : Fin J.arity, args[(k : ℕ)]? = some (arg k) := by
    intro k
    have hlt : (k : ℕ) < args.length := by rw [hlen]; exact k.2
    rw [List.getElem?_eq_getElem hlt]
    rfl
  obtain ⟨t0, ht0, hst0⟩ := solve_fields_Ez env0 o.simulation hS.pol
  have hpart := hJ (fun k => argField env0 o.simulation Z (arg k)) (by
    intro k a hk
    have hak : a = arg k := by
      rw [hget k] at hk
      exact (Option.some.inj hk).symm
    rw [hak]
    rcases kinds_cases (hS.kinds _ (harg k)) with ⟨h2, h3, -⟩ | ⟨h2, h3, -⟩
    · simp only [h2, argField, Bool.false_eq_true, if_false]
      have h1 : o.simulation.fields (arg k).component = (o.simulation.solve_fields env0).2.fields (arg k).component := by
        refine hS.linear _ ?_ ⟨_, harg k, h2⟩
        generalize (arg k).component = c at h3
        cases c <;> simp_all [Comp.isEz]
      rw [h1, ht0]
      exact hst0 _ h3
    · simp only [h2, h3, argField, if_true]
      exact hS.nonlinear)
  have hdet := kerrC_det o.simulation Z (kerr_real hS.eps) hS.regular
  by_contra hc
  have hseq : ∀ k : ℕ, ∃ (env : Env) (o' : Opt Nx Ny) (E E1 : Grid Nx Ny ℂ), env.Within (1 / ((k : ℝ) + 1)) ∧ Spec.KerrApprox env o' J args rho E E1 ∧ Spec.OnlyFieldsDiffer o o' ∧
      (∀ i j, ‖E i j - Z i j‖ < 1 / ((k : ℝ) + 1)) ∧ (∀ i j, ‖E1 i j - Z i j‖ < 1 / ((k : ℝ) + 1)) ∧
      ¬ ∃ g', (Opt.compute_dJ env o').1 = .ok g' ∧ ∀ i j, |g' i j - ∑ k : Fin J.arity, argGrad env0 o rho Z (J.partials k fun m => argField env0 o.simulation Z (arg m)) (arg k) i j| < ε := by
    intro k
    by_contra hk
    refine hc ⟨1 / ((k : ℝ) + 1), by positivity, 1 / ((k : ℝ) + 1), by positivity, fun env hw o' E E1 ha hd h1 h2 => ?_⟩
    by_contra hb
    exact hk ⟨env, o', E, E1, hw, ha, hd, h1, h2, hb⟩
  choose env o' E E1 hw hap hof hE hE1 hbad using hseq
  have hcd : ∀ n, ∃ ch : Fin J.arity → Grid Nx Ny ℂ, (∀ k, ch k = E n ∨ ch k = E1 n) ∧ (Opt.compute_dJ (env n) (o' n)).1 = .ok fun i j => ∑ k : Fin J.arity,
      argGrad2 (env n) o rho (ch k) (E n) (J.partials k fun m => argField (env n) o.simulation (E n) (arg m)) (arg k) i j := by
    intro n
    obtain ⟨hlen', ch, hch, hg'⟩ := approx_compute_dJ (env n) (o' n) J args rho (E n) (E1 n) (hap n)
    refine ⟨ch, hch, ?_⟩
    rw [hg']
    simp only [arg, OnlyFieldsDiffer.argGrad2_eq (hof n), OnlyFieldsDiffer.argField_eq (hof n)]
  choose ch hch hgn using hcd
  have hET := grid_tendsto_of_close hE
  have hchT : ∀ k, Tendsto (fun n => ch n k) atTop (𝓝 Z) := fun k => grid_tendsto_of_close fun n i j => by
    rcases hch n k with h | h
    · rw [h]; exact hE n i j
    · rw [h]; exact hE1 n i j
  have hT : ∀ i j, Tendsto (fun n => ∑ k : Fin J.arity, argGrad2 (env n) o rho (ch n k) (E n) (J.partials k fun m => argField (env n) o.simulation (E n) (arg m)) (arg k) i j) atTop
      (𝓝 (∑ k : Fin J.arity, argGrad2 env0 o rho Z Z (J.partials k fun m => argField env0 o.simulation Z (arg m)) (arg k) i j)) := by
    intro i j
    refine tendsto_finsetSum _ fun k _ => ?_
    refine argGrad2_tendsto_var hw he o rho (hchT k) hET ?_ hdet (arg k) (fun hn => hS.det ⟨_, harg k, hn⟩) i j
    refine Tendsto.comp (hpart k) (tendsto_pi_nhds.2 fun m => ?_)
    exact argField_tendsto_var hw he o.simulation hET (arg m) fun hn => hS.det ⟨_, harg m, hn⟩
  have hev : ∀ᶠ n in atTop, ∀ i j, |(∑ k : Fin J.arity, argGrad2 (env n) o rho (ch n k) (E n) (J.partials k fun m => argField (env n) o.simulation (E n) (arg m)) (arg k) i j) -
      ∑ k : Fin J.arity, argGrad2 env0 o rho Z Z (J.partials k fun m => argField env0 o.simulation Z (arg m)) (arg k) i j| < ε := by
    refine eventually_all.2 fun i => eventually_all.2 fun j => ?_
    have := Metric.tendsto_nhds.1 (hT i j) ε hε
    simpa only [Real.dist_eq] using this
  obtain ⟨n, hn⟩ := hev.exists
  exact hbad n ⟨_, hgn n, hn⟩

/-- **C121, against the derivative.** At a pixel where the filter is symmetric the limit is the derivative of the objective along the branch of exact solutions. -/
theorem C121_derivative (env0 : Env) (he : env0.Exact) (o : Opt Nx Ny) (J : ObjFn Nx Ny) (args : List ObjArg) (rho : Grid Nx Ny ℝ) (Z : Grid Nx Ny ℂ) (hS : Spec.KerrEz env0 o J args rho Z)
    (hJ : ∀ x, (∀ (k : Fin J.arity) a, args[(k : ℕ)]? = some a → (if a.nl then o.simulation.fields_nl a.component else o.simulation.fields a.component) = some (x k)) →
      ∀ k, ContinuousAt (J.partials k) x) (i0 : Fin Nx) (j0 : Fin Ny) (hW : Spec.FilterSym o.W o.design_region i0 j0) :
    ∃ d, (∃ E, Spec.KerrBranch o rho Z i0 j0 E) ∧
      (∀ E, Spec.KerrBranch o rho Z i0 j0 E → ∀ x : ℝ → Fin J.arity → Grid Nx Ny ℂ, (∀ t, Spec.FieldsAt env0 (Spec.simAt o (Spec.bump rho i0 j0 t)) (E t) args (x t)) →
        HasDerivAt (fun t => J.eval (x t)) d 0) ∧
      ∀ ε > 0, ∃ η > 0, ∃ τ > 0, ∀ env : Env, env.Within τ → ∀ o' E E1, Spec.KerrApprox env o' J args rho E E1 → Spec.OnlyFieldsDiffer o o' → (∀ i j, ‖E i j - Z i j‖ < η) →
        (∀ i j, ‖E1 i j - Z i j‖ < η) → ∃ g', (Opt.compute_dJ env o').1 = .ok g' ∧ |g' i0 j0 - d| < ε := by
  obtain ⟨g, hg, h1⟩ := C121_gradient env0 he o J args rho Z hS hJ
  obtain ⟨g2, hg2, h2, h3⟩ := C31_gradient_exact_partial env0 he o J args rho Z hS i0 j0 hW
  obtain rfl : g = g2 := by
    rw [hg] at hg2
    exact Except.ok.inj hg2
  refine ⟨g i0 j0, h2, h3, fun ε hε => ?_⟩
  obtain ⟨η, hη, τ, hτ, h4⟩ := h1 ε hε
  refine ⟨η, hη, τ, hτ, fun env hw o' E E1 ha hd hE hE1 => ?_⟩
  obtain ⟨g', hg', h5⟩ := h4 env hw o' E E1 ha hd hE hE1
  exact ⟨g', hg', h5 i0 j0⟩

/-- What compute_dJ makes of fields near the solution, in terms of the state a nonlinear solve leaves behind. -/
theorem kerr_setup_derivative (o : Opt Nx Ny) (J : ObjFn Nx Ny) (args : List ObjArg) (rho : Grid Nx Ny ℝ) (hS : Spec.KerrSetup o J args rho)
    (Z : Grid Nx Ny ℂ) (hZ : ∀ i j, Spec.nlResidual o.simulation Z i j = 0) (hreg : Spec.KerrRegular o.simulation Z) (hJ : Spec.Autograd J fun _ => Z) (hJc : ∀ k, ContinuousAt (J.partials k) fun _ => Z)
    (i0 : Fin Nx) (j0 : Fin Ny) (hW : Spec.FilterSym o.W o.design_region i0 j0) :
    ∃ d, (∃ E, Spec.KerrBranch o rho Z i0 j0 E) ∧ (∀ E, Spec.KerrBranch o rho Z i0 j0 E → HasDerivAt (fun t => J.eval fun _ => E t) d 0) ∧
      ∀ ε > 0, ∃ η > 0, ∃ τ > 0, ∀ env : Env, env.Within τ → ∀ (s' : Sim Nx Ny) (F G : Grid Nx Ny ℂ) fl fn, s' = { ({ o.simulation with fields := fl } : Sim Nx Ny).compute_nl G with fields_nl := fn } →
        fn .Ez = some F → (∀ i j, ‖F i j - Z i j‖ < η) → (∀ i j, ‖G i j - Z i j‖ < η) → ∃ fs, Opt.collect s' args = .ok fs ∧
        ∃ g, (Opt.compute_dJ env { o with simulation := s', field_arg_list := some fs, fields_current := true }).1 = .ok g ∧ |g i0 j0 - d| < ε := by
  have he := exactEnv_exact .pardiso
  have hnl : ∀ a ∈ args, a.nl = true ∧ a.component = .Ez := by
    intro a ha
    rcases kinds_cases (Or.inr (hS.kinds a ha)) with ⟨h1, -⟩ | ⟨h1, h2, -⟩
    · have := hS.kinds a ha
      cases this
      cases h1
    · exact ⟨h1, h2⟩
  have hcol : ∀ (s1 : Sim Nx Ny) (E : Grid Nx Ny ℂ), s1.fields_nl .Ez = some E → Opt.collect s1 args = .ok (args.map fun _ => E) := by
    intro s1 E hs1
    exact collect_ok s1 (fun _ => E) args fun a ha => by
      rw [(hnl a ha).1, (hnl a ha).2]
      exact hs1
  let o0 : Opt Nx Ny := { o with simulation := { o.simulation.compute_nl Z with fields_nl := fun c => if c = .Ez then some Z else none }, field_arg_list := some (args.map fun _ => Z), fields_current := true }
  have hlen : args.length = J.arity := (objective_init_ok hS.obj).1
  have hxZ : ∀ x : Fin J.arity → Grid Nx Ny ℂ, (∀ (k : Fin J.arity) a, args[(k : ℕ)]? = some a → (if a.nl then o0.simulation.fields_nl a.component else o0.simulation.fields a.component) = some (x k)) →
      x = fun _ => Z := by
    intro x hx0
    funext k
    have hlt : (k : ℕ) < args.length := by rw [hlen]; exact k.2
    have h1 := hx0 k args[(k : ℕ)] (List.getElem?_eq_getElem hlt)
    obtain ⟨h2, h3⟩ := hnl _ (List.getElem_mem hlt)
    rw [h2, h3] at h1
    exact (Option.some.inj h1).symm
  have hv0 : o0.simulation.Valid := ⟨hS.valid.L0_pos, hS.valid.omega_pos, hS.valid.xr, hS.valid.yr, hS.valid.A_eq, hS.valid.derivs_eq⟩
  have hS0 : Spec.KerrEz (exactEnv .pardiso) o0 J args rho Z :=
    { obj := hS.obj
      kinds := fun a ha => Or.inr (hS.kinds a ha)
      nonempty := hS.nonempty
      valid := hv0
      pol := hS.pol
      density := hS.density
      eps := hS.eps
      beta := hS.beta
      current := rfl
      linear := fun c _ ⟨a, ha, h1⟩ => by rw [(hnl a ha).1] at h1; cases h1
      nonlinear := rfl
      anl := rfl
      dnl := rfl
      collected := ⟨_, hcol _ Z rfl, rfl⟩
      det := fun ⟨a, ha, h1⟩ => by rw [(hnl a ha).1] at h1; cases h1
      exact := by
        rw [kerrMaxwellEz_iff _ hv0 hS.pol]
        exact (kerrMaxwellEz_iff _ hS.valid hS.pol Z).1 ((nlResidual_iff_maxwell _ hS.valid hS.pol Z).1 hZ)
      regular := hreg
      autograd := fun x hx0 => by rw [hxZ x hx0]; exact hJ }
  obtain ⟨d, h1, h2, h3⟩ := C121_derivative (exactEnv .pardiso) he o0 J args rho Z hS0 (fun x hx0 k => by rw [hxZ x hx0]; exact hJc k) i0 j0 hW
  refine ⟨d, h1, fun E hEb => h2 E hEb (fun t _ => E t) fun t k a hk => ?_, fun ε hε => ?_⟩
  · have ha : a ∈ args := List.mem_of_getElem? hk
    rw [(hnl a ha).1]
    rfl
  · obtain ⟨η, hη, τ, hτ, h4⟩ := h3 ε hε
    refine ⟨η, hη, τ, hτ, fun env hw s' F G fl fn hs' hfn hF hG => ?_⟩
    have hfs : s'.fields_nl .Ez = some F := by rw [hs']; exact hfn
    refine ⟨_, hcol s' F hfs, h4 env hw _ F G ?_ ?_ hF hG⟩
    · refine ⟨hS.obj, fun a ha => Or.inr (hS.kinds a ha), hS.nonempty, ?_, ?_, rfl, fun c _ ⟨a, ha, h1⟩ => ?_, hfs, ?_, ?_, ⟨_, hcol s' F hfs, rfl⟩⟩
      · show s'.pol = _
        rw [hs']
        exact hS.pol
      · show s'.rho = _
        rw [hs']
        exact hS.density
      · rw [(hnl a ha).1] at h1
        cases h1
      · show s'.Anl = (s'.compute_nl G).Anl
        rw [hs']
        rfl
      · show s'.dnl_de = (s'.compute_nl G).dnl_de
        rw [hs']
        rfl
    · refine ⟨rfl, rfl, rfl, rfl, rfl, fl, fn, (o.simulation.compute_nl G).eps_nl, (o.simulation.compute_nl G).dnl_de, (o.simulation.compute_nl G).dnl_deps, (o.simulation.compute_nl G).Anl, ?_⟩
      show s' = _
      rw [hs']
      rfl

/-! ## The Born solver on weak Kerr devices -/

theorem Spec.WeakKerr.inexact_start {s : Sim Nx Ny} {m κ R τ : ℝ} (h : Spec.WeakKerr s m κ R) {env : Env} (hτ : 0 ≤ τ) (hw : env.Within τ) (hv : s.Valid) (hp : s.pol = .Ez) (hx : 1 < Nx) (hy : 1 < Ny)
    (hE : ∀ e, s.fields .Ez = some e → ∀ i j, ‖e i j‖ ≤ R) {E0 : Grid Nx Ny ℂ} (hst : Spec.StartsAt env s none E0) : ‖E0‖ ≤ (1 + τ) * R := by
  have hR := h.R_nonneg hv hx hy
  obtain ⟨-, h2, h3⟩ := hst
  cases hf : s.fields s.pol.comp with
  | some e =>
    rw [h2 rfl e hf]
    rw [hp] at hf
    exact grid_le_of_entries (by positivity) e fun i j => (hE e hf i j).trans (by nlinarith)
  | none =>
    obtain ⟨Fx, Fy, h4⟩ := h3 rfl hf
    have h5 : (s.solve_fields env).1 = .ok (s.in_plane false s.eps_r (solver_direct env s.A s.rhs)) := rfl
    rw [h5, Except.ok.injEq] at h4
    have h6 : E0 = unflatten (solver_direct env s.A s.rhs) := by rw [← in_plane_third s false s.eps_r, h4]
    rw [h6]
    exact h.inexact_linear hτ hw hv hp hx hy

/-- With tight settings and accurate enough linear solves the Born solver leaves both the returned field and the field before it close to the solution, for all devices with the same bounds. -/
theorem born_near_uniform (m κ R b : ℝ) (hR : 0 ≤ R) (hb0 : 0 ≤ b) (hb1 : b < 1) (hx : 1 < Nx) (hy : 1 < Ny) (η : ℝ) (hη : 0 < η) :
    ∃ τ0 > 0, ∃ (N : ℕ) (thr0 : ℝ), 0 < thr0 ∧ ∀ s : Sim Nx Ny, Spec.WeakKerr s m κ R → s.Valid → s.pol = .Ez → Spec.bornRate s m κ R ≤ b → ∀ Z : Grid Nx Ny ℂ, (∀ i j, Spec.nlResidual s Z i j = 0) →
      ∀ env : Env, env.Within τ0 → ∀ n, N ≤ n → ∀ thr ≤ thr0, (∀ e, s.fields .Ez = some e → ∀ i j, ‖e i j‖ ≤ R) →
      ∀ r s', solve_fields_nl env s none .born thr n = (.ok r, s') →
      ∃ G fl fn, s' = { ({ s with fields := fl } : Sim Nx Ny).compute_nl G with fields_nl := fn } ∧ fn .Ez = some r.Fz ∧ (∀ i j, ‖r.Fz i j - Z i j‖ < η) ∧ ∀ i j, ‖G i j - Z i j‖ < η := by
  obtain ⟨q, hq⟩ : ∃ q, q = (1 + b) / 2 := ⟨_, rfl⟩
  have hqq : 0 ≤ q := by linarith
  have hq1' : q < 1 := by linarith
  have h1q : 0 < 1 - q := by linarith
  obtain ⟨C, hC⟩ : ∃ C, C = Real.sqrt (Nx * Ny) := ⟨_, rfl⟩
  have hC0 : 0 ≤ C := by rw [hC]; exact Real.sqrt_nonneg _
  have hlim : Tendsto (fun k : ℕ => q ^ k * (3 * R)) atTop (𝓝 0) := by
    simpa using (tendsto_pow_atTop_nhds_zero_of_lt_one hqq hq1').mul_const (3 * R)
  obtain ⟨K, hK⟩ := (hlim.eventually (gt_mem_nhds (half_pos hη))).exists
  have hsmall : ∀ k, K ≤ k → q ^ k * (3 * R) < η / 2 := fun k hk => lt_of_le_of_lt (mul_le_mul_of_nonneg_right (pow_le_pow_of_le_one hqq hq1'.le hk) (by positivity)) hK
  obtain ⟨τ, hτdef⟩ : ∃ τ, τ = min (min 1 (1 - b)) (η * (1 - q) / (4 * (R + 1))) := ⟨_, rfl⟩
  have hτ0 : 0 < τ := by rw [hτdef]; exact lt_min (lt_min one_pos (by linarith)) (by positivity)
  have hτ1 : τ ≤ 1 := by rw [hτdef]; exact (min_le_left _ _).trans (min_le_left _ _)
  have hτ2 : τ ≤ 1 - b := by rw [hτdef]; exact (min_le_left _ _).trans (min_le_right _ _)
  have hτR : τ * R ≤ η * (1 - q) / 4 := by
    have h1 : τ ≤ η * (1 - q) / (4 * (R + 1)) := by rw [hτdef]; exact min_le_right _ _
    calc τ * R ≤ η * (1 - q) / (4 * (R + 1)) * (R + 1) := by
          refine (mul_le_mul_of_nonneg_right h1 hR).trans (mul_le_mul_of_nonneg_left (by linarith) (by positivity))
      _ = η * (1 - q) / 4 := by field_simp
  refine ⟨τ, hτ0, K + 2, η * (1 - q) / (4 * (2 * C * R + 1)), by positivity, fun s h hv hp hsb Z hZ env hw n hn thr hthr hE r s' hr => ?_⟩
  have hZR := solution_bound h hv hp hx hy hZ
  have hZm := residual_matrix s Z (h.bornMat_det hv hp hx hy Z) hZ
  obtain ⟨hq0, hq1⟩ := h.rate_mem hv hx hy
  have hrate : Spec.inexactRate s m κ R τ ≤ q := by
    unfold Spec.inexactRate
    rw [hq]
    nlinarith
  obtain ⟨n, rfl⟩ : ∃ p, n = p + 1 := ⟨n - 1, by omega⟩
  obtain ⟨E0, fl, k, conv, hst, hk, heq, hnot, hstop, hlen, hrow, hzero⟩ := born_solve_spec env s none thr n
  unfold solve_fields_nl at hr
  simp only [heq, Prod.mk.injEq, Except.ok.injEq] at hr
  obtain ⟨rfl, rfl⟩ := hr
  refine ⟨bornIter env s E0 k, fl, _, rfl, ?_, ?_⟩
  · show Sim.store s.pol _ _ _ = _
    rw [hp]
    rfl
  have hE0 : ‖E0‖ ≤ (1 + τ) * R := h.inexact_start hτ0.le hw hv hp hx hy hE hst
  have hball : ‖bornIter env s E0 k‖ ≤ (1 + τ) * R := by
    cases k with
    | zero => exact hE0
    | succ k => rw [bornIter_succ]; exact h.inexact_bound hτ0.le hw hv hp hx hy _
  have hstep : ‖bornIter env s E0 (k + 1) - Z‖ ≤ q * ‖bornIter env s E0 k - Z‖ + τ * R := by
    rw [bornIter_succ]
    refine (h.inexact_step hτ0.le hw hv hp hx hy hZm hZR _ hball).trans ?_
    have := mul_le_mul_of_nonneg_right hrate (norm_nonneg (bornIter env s E0 k - Z))
    linarith
  have hFR : ‖bornIter env s E0 (k + 1)‖ ≤ 2 * R := by
    rw [bornIter_succ]
    refine (h.inexact_bound hτ0.le hw hv hp hx hy _).trans ?_
    nlinarith
  have hG : ‖bornIter env s E0 k - Z‖ < η := by
    rcases hstop with hlt | rfl
    · unfold bornConv at hlt
      set F := bornIter env s E0 (k + 1)
      set G := bornIter env s E0 k
      obtain ⟨c1, c2, c3⟩ := convergence_spec F G
      have hF0 : F ≠ 0 := by
        intro h0
        by_cases hG0 : G = 0
        · rw [c3 h0 hG0] at hlt; exact hlt
        · rw [c2 h0 hG0] at hlt; exact hlt
      rw [c1 hF0] at hlt
      have hlt' : Real.sqrt (∑ i, ∑ j, ‖F i j - G i j‖ ^ 2) / Real.sqrt (∑ i, ∑ j, ‖F i j‖ ^ 2) < thr := hlt
      have hpos : 0 < Real.sqrt (∑ i, ∑ j, ‖F i j‖ ^ 2) := lt_of_lt_of_le (norm_pos_iff.2 hF0) (norm_le_laNorm' F)
      rw [div_lt_iff₀ hpos] at hlt'
      have hFG : ‖F - G‖ < thr * Real.sqrt (∑ i, ∑ j, ‖F i j‖ ^ 2) := lt_of_le_of_lt (norm_le_laNorm' (F - G)) hlt'
      have hla : Real.sqrt (∑ i, ∑ j, ‖F i j‖ ^ 2) ≤ 2 * C * R := by
        refine ((laNorm_le_sqrt F).trans (mul_le_mul_of_nonneg_left hFR (Real.sqrt_nonneg _))).trans (le_of_eq ?_)
        rw [hC]
        ring
      have htri : ‖G - Z‖ ≤ ‖F - Z‖ + ‖F - G‖ := by
        have := norm_sub_le (F - Z) (F - G)
        rwa [sub_sub_sub_cancel_left] at this
      have hFG2 : ‖F - G‖ < η * (1 - q) / 4 := by
        refine lt_of_lt_of_le hFG ?_
        have ht0 : 0 ≤ η * (1 - q) / (4 * (2 * C * R + 1)) := by positivity
        calc thr * Real.sqrt (∑ i, ∑ j, ‖F i j‖ ^ 2) ≤ η * (1 - q) / (4 * (2 * C * R + 1)) * (2 * C * R) := by
              refine (mul_le_mul_of_nonneg_right hthr hpos.le).trans (mul_le_mul_of_nonneg_left hla ht0)
          _ ≤ η * (1 - q) / (4 * (2 * C * R + 1)) * (2 * C * R + 1) := mul_le_mul_of_nonneg_left (by linarith) ht0
          _ = η * (1 - q) / 4 := by field_simp
      by_contra hcon
      have hcon' : η ≤ ‖G - Z‖ := not_lt.1 hcon
      nlinarith
    · obtain ⟨k, rfl⟩ : ∃ p, k = p + 1 := ⟨k - 1, by omega⟩
      refine lt_of_le_of_lt (h.inexact_iter hτ0.le hw hv hp hx hy hZ q hrate hq1' E0 k) ?_
      have h1 := hsmall k (by omega)
      have h2 : q ^ k * ((2 + τ) * R) ≤ q ^ k * (3 * R) := mul_le_mul_of_nonneg_left (mul_le_mul_of_nonneg_right (by linarith) hR) (pow_nonneg hqq _)
      have h3 : τ * R / (1 - q) ≤ η / 4 := by
        rw [div_le_iff₀ h1q]
        linarith
      linarith
  have hF : ‖bornIter env s E0 (k + 1) - Z‖ < η := by
    refine lt_of_le_of_lt hstep ?_
    nlinarith [norm_nonneg (bornIter env s E0 k - Z)]
  exact ⟨fun i j => lt_of_le_of_lt (norm_entry_le (bornIter env s E0 (k + 1) - Z) i j) hF, fun i j => lt_of_le_of_lt (norm_entry_le (bornIter env s E0 k - Z) i j) hG⟩

theorem Spec.WeakKerr.inexact_near {s : Sim Nx Ny} {m κ R : ℝ} (h : Spec.WeakKerr s m κ R) (hv : s.Valid) (hp : s.pol = .Ez) (hx : 1 < Nx) (hy : 1 < Ny)
    {Z : Grid Nx Ny ℂ} (hZ : ∀ i j, Spec.nlResidual s Z i j = 0) (η : ℝ) (hη : 0 < η) :
    ∃ τ0 > 0, ∃ (N : ℕ) (thr0 : ℝ), 0 < thr0 ∧ ∀ env : Env, env.Within τ0 → ∀ n, N ≤ n → ∀ thr ≤ thr0, (∀ e, s.fields .Ez = some e → ∀ i j, ‖e i j‖ ≤ R) →
      ∀ r s', solve_fields_nl env s none .born thr n = (.ok r, s') →
      ∃ G fl fn, s' = { ({ s with fields := fl } : Sim Nx Ny).compute_nl G with fields_nl := fn } ∧ fn .Ez = some r.Fz ∧ (∀ i j, ‖r.Fz i j - Z i j‖ < η) ∧ ∀ i j, ‖G i j - Z i j‖ < η := by
  obtain ⟨hq0, hq1⟩ := h.rate_mem hv hx hy
  obtain ⟨τ, hτ, N, thr0, ht, h1⟩ := born_near_uniform (Nx := Nx) (Ny := Ny) m κ R _ (h.R_nonneg hv hx hy) hq0 hq1 hx hy η hη
  exact ⟨τ, hτ, N, thr0, ht, h1 s h hv hp le_rfl Z hZ⟩

/-- **C121, all densities.** If the device is weakly nonlinear at every density in the box, one accuracy of the linear solves, one threshold and one number of iterations serve all densities: the Born
solver returns the exact nonlinear field within `δ` at every pixel, and a continuous objective of it is that of the exact field within `δ`. -/
theorem C121_uniform (o : Opt Nx Ny) (hv : o.simulation.Valid) (hp : o.simulation.pol = .Ez) (hx : 1 < Nx) (hy : 1 < Ny) (m κ R : ℝ) (h : ∀ x, Spec.Box x → Spec.WeakKerr (Spec.simAt o x) m κ R)
    (J : ObjFn Nx Ny) (hJ : Continuous J.eval) (δ : ℝ) (hδ : 0 < δ) :
    ∃ τ > 0, ∃ (N : ℕ) (thr0 : ℝ), 0 < thr0 ∧ ∀ env : Env, env.Within τ → ∀ n, N ≤ n → ∀ thr ≤ thr0, ∀ x, Spec.Box x →
      ∃ Z r s', (∀ i j, Spec.nlResidual (Spec.simAt o x) Z i j = 0) ∧ (∀ W : Grid Nx Ny ℂ, (∀ i j, Spec.nlResidual (Spec.simAt o x) W i j = 0) → W = Z) ∧
        solve_fields_nl env (Spec.simAt o x) none .born thr n = (.ok r, s') ∧ (∀ i j, ‖r.Fz i j - Z i j‖ < δ) ∧ |(J.eval fun _ => r.Fz) - J.eval fun _ => Z| < δ := by
  have hvx : ∀ x, (Spec.simAt o x).Valid := fun x => hv.set_eps_r _
  have h0 := h (fun _ _ => 0) fun _ _ => ⟨le_rfl, zero_le_one⟩
  have hR := h0.R_nonneg (hvx _) hx hy
  obtain ⟨hq0, hq1⟩ := h0.rate_mem (hvx _) hx hy
  have hf : Continuous fun E : Grid Nx Ny ℂ => J.eval fun _ => E := hJ.comp (continuous_pi fun _ => continuous_id)
  obtain ⟨ε, hε, huc⟩ := Metric.uniformContinuousOn_iff.1 ((isCompact_closedBall (0 : Grid Nx Ny ℂ) (R + 1)).uniformContinuousOn_of_continuous hf.continuousOn) δ hδ
  obtain ⟨η, hη⟩ : ∃ η, η = min (min 1 δ) ε := ⟨_, rfl⟩
  have hη0 : 0 < η := by rw [hη]; exact lt_min (lt_min one_pos hδ) hε
  have hη1 : η ≤ 1 := by rw [hη]; exact (min_le_left _ _).trans (min_le_left _ _)
  have hη2 : η ≤ δ := by rw [hη]; exact (min_le_left _ _).trans (min_le_right _ _)
  have hη3 : η ≤ ε := by rw [hη]; exact min_le_right _ _
  obtain ⟨τ, hτ, N, thr0, ht, h1⟩ := born_near_uniform (Nx := Nx) (Ny := Ny) m κ R _ hR hq0 hq1 hx hy η hη0
  refine ⟨τ, hτ, N + 1, thr0, ht, fun env hw n hn thr hthr x hxb => ?_⟩
  obtain ⟨n, rfl⟩ : ∃ p, n = p + 1 := ⟨n - 1, by omega⟩
  obtain ⟨Z, hZ, hZR, hZu⟩ := C76_unique_solution _ (hvx x) hp hx hy m κ R (h x hxb)
  have hex : ∃ r s', solve_fields_nl env (Spec.simAt o x) none .born thr (n + 1) = (.ok r, s') := by
    obtain ⟨E0, fl, k, conv, -, -, heq, -⟩ := born_solve_spec env (Spec.simAt o x) none thr n
    unfold solve_fields_nl
    simp only [heq]
    exact ⟨_, _, rfl⟩
  obtain ⟨r, s', hr⟩ := hex
  obtain ⟨G, fl, fn, -, -, hF, -⟩ := h1 (Spec.simAt o x) (h x hxb) (hvx x) hp le_rfl Z hZ env hw (n + 1) (by omega) thr hthr (fun e he => nomatch he) r s' hr
  have hd : ‖r.Fz - Z‖ < η := (pi_norm_lt_iff hη0).2 fun i => (pi_norm_lt_iff hη0).2 fun j => hF i j
  have hZn : ‖Z‖ ≤ R := grid_le_of_entries hR Z hZR
  refine ⟨Z, r, s', hZ, hZu, hr, fun i j => lt_of_lt_of_le (hF i j) hη2, ?_⟩
  rw [← Real.dist_eq]
  refine huc _ ?_ _ ?_ ?_
  · rw [mem_closedBall_zero_iff]
    have := norm_add_le (r.Fz - Z) Z
    rw [sub_add_cancel] at this
    linarith
  · rw [mem_closedBall_zero_iff]
    linarith
  · rw [dist_eq_norm]
    exact lt_of_lt_of_le hd hη3

/-- **C121, Born solver.** On a weak Kerr device, whatever solver is used: with accurate enough linear solves, a tight enough threshold and enough iterations allowed, the gradient computed from the fields
the Born solver leaves is as close as desired to the derivative of the objective along exact solutions. -/
theorem C121_born (o : Opt Nx Ny) (J : ObjFn Nx Ny) (args : List ObjArg) (rho : Grid Nx Ny ℝ) (hS : Spec.KerrSetup o J args rho) (hx : 1 < Nx) (hy : 1 < Ny)
    (m κ R : ℝ) (h : Spec.WeakKerr o.simulation m κ R) (hE : ∀ e, o.simulation.fields .Ez = some e → ∀ i j, ‖e i j‖ ≤ R)
    (Z : Grid Nx Ny ℂ) (hZ : ∀ i j, Spec.nlResidual o.simulation Z i j = 0) (hJ : Spec.Autograd J fun _ => Z) (hJc : ∀ k, ContinuousAt (J.partials k) fun _ => Z)
    (i0 : Fin Nx) (j0 : Fin Ny) (hW : Spec.FilterSym o.W o.design_region i0 j0) :
    ∃ d, (∃ E, Spec.KerrBranch o rho Z i0 j0 E) ∧ (∀ E, Spec.KerrBranch o rho Z i0 j0 E → HasDerivAt (fun t => J.eval fun _ => E t) d 0) ∧
      ∀ ε > 0, ∃ τ > 0, ∃ (N : ℕ) (thr0 : ℝ), 0 < thr0 ∧ ∀ env : Env, env.Within τ → ∀ n, N ≤ n → ∀ thr ≤ thr0, ∃ r s' fs, solve_fields_nl env o.simulation none .born thr n = (.ok r, s') ∧ Opt.collect s' args = .ok fs ∧
        ∃ g, (Opt.compute_dJ env { o with simulation := s', field_arg_list := some fs, fields_current := true }).1 = .ok g ∧ |g i0 j0 - d| < ε := by
  have hreg := h.regular hS.valid hS.pol hx hy Z (solution_bound h hS.valid hS.pol hx hy hZ)
  obtain ⟨d, h1, h2, h3⟩ := kerr_setup_derivative o J args rho hS Z hZ hreg hJ hJc i0 j0 hW
  refine ⟨d, h1, h2, fun ε hε => ?_⟩
  obtain ⟨η, hη, τ1, hτ1, h4⟩ := h3 ε hε
  obtain ⟨τ2, hτ2, N, thr0, ht0, h5⟩ := h.inexact_near hS.valid hS.pol hx hy hZ η hη
  refine ⟨min τ1 τ2, lt_min hτ1 hτ2, N + 1, thr0, ht0, fun env hw n hn thr hthr => ?_⟩
  obtain ⟨n, rfl⟩ : ∃ p, n = p + 1 := ⟨n - 1, by omega⟩
  have hex : ∃ r s', solve_fields_nl env o.simulation none .born thr (n + 1) = (.ok r, s') := by
    obtain ⟨E0, fl, k, conv, -, -, heq, -⟩ := born_solve_spec env o.simulation none thr n
    unfold solve_fields_nl
    simp only [heq]
    exact ⟨_, _, rfl⟩
  obtain ⟨r, s', hr⟩ := hex
  obtain ⟨G, fl, fn, hs', hfn, hF, hG⟩ := h5 env (within_weaken hw (min_le_right _ _)) (n + 1) (by omega) thr hthr hE r s' hr
  obtain ⟨fs, hfs, hg⟩ := h4 env (within_weaken hw (min_le_left _ _)) s' r.Fz G fl fn hs' hfn hF hG
  exact ⟨r, s', fs, hr, hfs, hg⟩

/-! ## Newton's solver -/

theorem Spec.InexactNear.shrink {s : Sim Nx Ny} {m κ : ℝ} {Z : Grid Nx Ny ℂ} {r τ Λ θ : ℝ} (hm : 0 ≤ Spec.kerrRatio s m κ) (hc : 0 ≤ s.omega ^ 2 * EPSILON_0 * s.L0 * κ) (hτ : 0 ≤ τ)
    (h : Spec.InexactNear s m κ Z r τ Λ θ) {d : ℝ} (hd0 : 0 ≤ d) (hd : d ≤ r) : Spec.InexactNear s m κ Z d τ Λ θ := by
  have hr := h.near.nonneg
  refine ⟨⟨hd0, le_trans ?_ h.near.half⟩, h.rows, le_trans ?_ h.acc⟩
  · gcongr
  · gcongr

/-- Near a solution Newton's solver leaves both the returned field and the field before it close to the solution. -/
theorem Spec.RealKerr.newton_near_inexact {s : Sim Nx Ny} {m κ : ℝ} (h : Spec.RealKerr s m κ) (hv : s.Valid) (hp : s.pol = .Ez) (hx : 1 < Nx) (hy : 1 < Ny) {Z : Grid Nx Ny ℂ}
    (hZ : ∀ i j, Spec.nlResidual s Z i j = 0) :
    ∃ r > 0, ∀ η > 0, ∃ τ > 0, ∃ (N : ℕ) (thr0 : ℝ), 0 < thr0 ∧ ∀ env : Env, env.backend = .pardiso → env.Within τ → env.WithinR τ → ∀ n, N ≤ n → ∀ thr ≤ thr0,
      ∀ E : Grid Nx Ny ℂ, (∀ i j, ‖E i j - Z i j‖ ≤ r) → ∃ R s' G fl fn, solve_fields_nl env s (some E) .newton thr n = (.ok R, s') ∧
        s' = { ({ s with fields := fl } : Sim Nx Ny).compute_nl G with fields_nl := fn } ∧ fn .Ez = some R.Fz ∧ (∀ i j, ‖R.Fz i j - Z i j‖ < η) ∧ ∀ i j, ‖G i j - Z i j‖ < η := by
  have hm := margin_pos h.coarse
  have hβ := h.ratio_nonneg hv hx hy
  have hc : 0 ≤ s.omega ^ 2 * EPSILON_0 * s.L0 := by have := EPSILON_0_pos; have := hv.L0_pos; positivity
  obtain ⟨k0, hk0, hk1, -⟩ := h.coef ⟨0, by omega⟩ ⟨0, by omega⟩
  have hκ : 0 ≤ κ := hk0.trans hk1
  set β := Spec.kerrRatio s m κ with hβd
  obtain ⟨r, hrd⟩ : ∃ r, r = min 1 (1 / (2 * (β * (3 * ‖Z‖ + 2) + 1))) := ⟨_, rfl⟩
  have hD : 0 < 2 * (β * (3 * ‖Z‖ + 2) + 1) := by positivity
  have hr0 : 0 < r := by rw [hrd]; positivity
  have hr1 : r ≤ 1 := hrd ▸ min_le_left _ _
  have hr2 : r * (2 * (β * (3 * ‖Z‖ + 2) + 1)) ≤ 1 := by
    have : r ≤ 1 / (2 * (β * (3 * ‖Z‖ + 2) + 1)) := hrd ▸ min_le_right _ _
    rwa [le_div_iff₀ hD] at this
  have hnear : Spec.NewtonNear s m κ Z r := by
    refine ⟨hr0.le, ?_⟩
    rw [← hβd]
    have h1 : β * (3 * ‖Z‖ + 2 * r) * r ≤ β * (3 * ‖Z‖ + 2) * r := by
      have : 3 * ‖Z‖ + 2 * r ≤ 3 * ‖Z‖ + 2 := by linarith
      gcongr
    linarith
  set Λ : ℝ := ∑ k, ∑ l, ‖s.A k l‖ with hΛ
  have hΛ0 : 0 ≤ Λ := Finset.sum_nonneg fun k _ => Finset.sum_nonneg fun l _ => norm_nonneg _
  obtain ⟨L, hL⟩ : ∃ L, L = Λ + s.omega ^ 2 * EPSILON_0 * s.L0 * κ * (3 * ‖Z‖ ^ 2 + 3 * ‖Z‖ * r + r ^ 2) := ⟨_, rfl⟩
  have hL0 : 0 ≤ L := by rw [hL]; positivity
  refine ⟨r, hr0, fun η hη => ?_⟩
  obtain ⟨B, hB⟩ : ∃ B, B = β * (‖Z‖ * (2 * ‖Z‖ + r)) := ⟨_, rfl⟩
  have hB0 : 0 ≤ B := by rw [hB]; positivity
  obtain ⟨ζ, hζ⟩ : ∃ ζ, ζ = η / (2 * (B + 1)) := ⟨_, rfl⟩
  have hζ0 : 0 < ζ := by rw [hζ]; positivity
  have hζB : (B + 1) * ζ = η / 2 := by rw [hζ]; field_simp
  obtain ⟨τ, hτd⟩ : ∃ τ, τ = min (Spec.margin s m / (8 * (L + 1))) (η * Spec.margin s m / (4 * (‖s.rhs‖ + 1))) := ⟨_, rfl⟩
  have hτ0 : 0 < τ := by rw [hτd]; exact lt_min (by positivity) (by positivity)
  have hτ1 : τ ≤ Spec.margin s m / (8 * (L + 1)) := hτd ▸ min_le_left _ _
  have hτ2 : τ * ‖s.rhs‖ / Spec.margin s m ≤ η / 4 := by
    have h1 : τ ≤ η * Spec.margin s m / (4 * (‖s.rhs‖ + 1)) := hτd ▸ min_le_right _ _
    rw [le_div_iff₀ (by positivity)] at h1
    rw [div_le_iff₀ hm]
    linarith
  have hI : Spec.InexactNear s m κ Z r τ Λ (1 / 4) := by
    refine ⟨hnear, fun k => ?_, ?_⟩
    · exact Finset.single_le_sum (f := fun k => ∑ l, ‖s.A k l‖) (fun k _ => Finset.sum_nonneg fun l _ => norm_nonneg _) (Finset.mem_univ k)
    · rw [← hL]
      rw [le_div_iff₀ (by positivity)] at hτ1
      linarith
  obtain ⟨C, hC⟩ : ∃ C, C = Real.sqrt (Nx * Ny) := ⟨_, rfl⟩
  have hC0 : 0 ≤ C := by rw [hC]; exact Real.sqrt_nonneg _
  have hlim : Tendsto (fun k : ℕ => r * (1 / 2 + 1 / 4 : ℝ) ^ k) atTop (𝓝 0) := by
    simpa using (tendsto_pow_atTop_nhds_zero_of_lt_one (by norm_num : (0 : ℝ) ≤ 1 / 2 + 1 / 4) (by norm_num)).const_mul r
  obtain ⟨K, hK⟩ := (hlim.eventually (gt_mem_nhds hζ0)).exists
  have hsmall : ∀ k, K ≤ k → r * (1 / 2 + 1 / 4 : ℝ) ^ k < ζ := fun k hk =>
    lt_of_le_of_lt (mul_le_mul_of_nonneg_left (pow_le_pow_of_le_one (by norm_num) (by norm_num) hk) hr0.le) hK
  refine ⟨τ, hτ0, K + 1, ζ / (4 * (C * (‖Z‖ + r) + 1)), by positivity, fun env hb hw hwR n hn thr hthr E hE => ?_⟩
  obtain ⟨n, rfl⟩ : ∃ p, n = p + 1 := ⟨n - 1, by omega⟩
  obtain ⟨R, s1, hR⟩ := newton_solve_ok env hb s hp (some E) thr n
  obtain ⟨E0, fl, k, it, -, hst, hk, h0, hstep, hfin, hs', hnot, hstop, hlen, hrow, hzero⟩ := newton_solve_spec env s (some E) thr n R s1 hR
  have hst0 : ‖it 0 - Z‖ ≤ r := by
    rw [h0, hst.1 E rfl]
    exact grid_le_of_entries hr0.le _ hE
  have hit := newton_iterates_inexact h hτ0.le hwR hb hv hp hx hy hZ hI (by norm_num) (by norm_num) it (k + 1) hst0 (fun l hl => hstep l (by omega))
  have hin : ∀ l ≤ k + 1, ‖it l - Z‖ ≤ r := fun l hl => (hit l hl).trans (by
    have : (1 / 2 + 1 / 4 : ℝ) ^ l ≤ 1 := pow_le_one₀ (by norm_num) (by norm_num)
    nlinarith)
  have hone := newton_iterates_inexact h hτ0.le hwR hb hv hp hx hy hZ (hI.shrink hβ (mul_nonneg hc hκ) hτ0.le (norm_nonneg (it k - Z)) (hin k (by omega))) (by norm_num) (by norm_num) (fun l => it (k + l)) 1
    le_rfl (fun l hl => by obtain rfl : l = 0 := (by omega); exact hstep k le_rfl) 1 le_rfl
  have hF : ‖it (k + 1) - Z‖ < ζ := by
    rcases hstop with hlt | rfl
    · have hone' : ‖it (k + 1) - Z‖ ≤ ‖it k - Z‖ * (1 / 2 + 1 / 4 : ℝ) ^ 1 := hone
      have hFr := hin (k + 1) le_rfl
      set F := it (k + 1)
      set G := it k
      obtain ⟨c1, c2, c3⟩ := convergence_spec F G
      have hF0 : F ≠ 0 := by
        intro h0
        by_cases hG0 : G = 0
        · rw [c3 h0 hG0] at hlt; exact hlt
        · rw [c2 h0 hG0] at hlt; exact hlt
      rw [c1 hF0] at hlt
      have hlt' : Real.sqrt (∑ i, ∑ j, ‖F i j - G i j‖ ^ 2) / Real.sqrt (∑ i, ∑ j, ‖F i j‖ ^ 2) < thr := hlt
      have hpos : 0 < Real.sqrt (∑ i, ∑ j, ‖F i j‖ ^ 2) := lt_of_lt_of_le (norm_pos_iff.2 hF0) (norm_le_laNorm' F)
      rw [div_lt_iff₀ hpos] at hlt'
      have hFG : ‖F - G‖ < thr * Real.sqrt (∑ i, ∑ j, ‖F i j‖ ^ 2) := lt_of_le_of_lt (norm_le_laNorm' (F - G)) hlt'
      have hFn : ‖F‖ ≤ ‖Z‖ + r := by
        have := norm_add_le (F - Z) Z
        rw [sub_add_cancel] at this
        linarith
      have hla : Real.sqrt (∑ i, ∑ j, ‖F i j‖ ^ 2) ≤ C * (‖Z‖ + r) := by
        rw [hC]
        exact (laNorm_le_sqrt F).trans (mul_le_mul_of_nonneg_left hFn (Real.sqrt_nonneg _))
      have htri : ‖G - Z‖ ≤ ‖F - Z‖ + ‖F - G‖ := by
        have := norm_sub_le (F - Z) (F - G)
        rwa [sub_sub_sub_cancel_left] at this
      have hFG2 : ‖F - G‖ < ζ / 4 := by
        refine lt_of_lt_of_le hFG ?_
        have ht0 : 0 ≤ ζ / (4 * (C * (‖Z‖ + r) + 1)) := by positivity
        calc thr * Real.sqrt (∑ i, ∑ j, ‖F i j‖ ^ 2) ≤ ζ / (4 * (C * (‖Z‖ + r) + 1)) * (C * (‖Z‖ + r)) := by
              refine (mul_le_mul_of_nonneg_right hthr hpos.le).trans (mul_le_mul_of_nonneg_left hla ht0)
          _ ≤ ζ / (4 * (C * (‖Z‖ + r) + 1)) * (C * (‖Z‖ + r) + 1) := mul_le_mul_of_nonneg_left (by linarith) ht0
          _ = ζ / 4 := by field_simp
      rw [pow_one] at hone'
      linarith
    · exact lt_of_le_of_lt (hit (k + 1) le_rfl) (hsmall _ (by omega))
  have hζη : ζ < η := by nlinarith
  have hpol : s1.pol = .Ez := by rw [hs']; exact hp
  refine ⟨R, { s1 with fields_nl := Sim.store s1.pol s1.fields_nl (R.Fx, R.Fy, R.Fz) }, it (k + 1), fl, Sim.store s1.pol s1.fields_nl (R.Fx, R.Fy, R.Fz), ?_, ?_, ?_, fun i j => ?_, fun i j => ?_⟩
  · unfold solve_fields_nl
    simp only [hR]
  · rw [hs']
  · show Sim.store s1.pol _ _ _ = _
    rw [hpol]
    rfl
  · refine lt_of_le_of_lt (norm_entry_le (R.Fz - Z) i j) ?_
    have hFz : R.Fz = (bornStep env s (it (k + 1))).2.2 := by rw [← hfin]
    rw [hFz]
    have h1 := h.born_step_inexact hw hv hp hx hy hZ (it (k + 1))
    have h2 : β * (‖Z‖ * (2 * ‖Z‖ + ‖it (k + 1) - Z‖)) * ‖it (k + 1) - Z‖ ≤ B * ζ := by
      rw [hB]
      have := hin (k + 1) le_rfl
      gcongr
    linarith
  · exact lt_of_le_of_lt (norm_entry_le (it (k + 1) - Z) i j) (hF.trans hζη)

/-- **C121, Newton's solver.** A coarse Kerr device, any of its solutions `Z` and any solver: started near `Z`, with accurate enough linear solves, a tight enough threshold and enough iterations allowed, the
gradient computed from the fields Newton's solver leaves is as close as desired to the derivative of the objective along the solutions through `Z`. -/
theorem C121_newton (o : Opt Nx Ny) (J : ObjFn Nx Ny) (args : List ObjArg) (rho : Grid Nx Ny ℝ) (hS : Spec.KerrSetup o J args rho) (hx : 1 < Nx) (hy : 1 < Ny)
    (m κ : ℝ) (h : Spec.RealKerr o.simulation m κ) (Z : Grid Nx Ny ℂ) (hZ : ∀ i j, Spec.nlResidual o.simulation Z i j = 0) (hJ : Spec.Autograd J fun _ => Z)
    (hJc : ∀ k, ContinuousAt (J.partials k) fun _ => Z) (i0 : Fin Nx) (j0 : Fin Ny) (hW : Spec.FilterSym o.W o.design_region i0 j0) :
    ∃ d, (∃ E, Spec.KerrBranch o rho Z i0 j0 E) ∧ (∀ E, Spec.KerrBranch o rho Z i0 j0 E → HasDerivAt (fun t => J.eval fun _ => E t) d 0) ∧
      ∃ r > 0, ∀ ε > 0, ∃ τ > 0, ∃ (N : ℕ) (thr0 : ℝ), 0 < thr0 ∧ ∀ env : Env, env.backend = .pardiso → env.Within τ → env.WithinR τ → ∀ n, N ≤ n → ∀ thr ≤ thr0,
        ∀ E : Grid Nx Ny ℂ, (∀ i j, ‖E i j - Z i j‖ ≤ r) → ∃ R s' fs, solve_fields_nl env o.simulation (some E) .newton thr n = (.ok R, s') ∧ Opt.collect s' args = .ok fs ∧
        ∃ g, (Opt.compute_dJ env { o with simulation := s', field_arg_list := some fs, fields_current := true }).1 = .ok g ∧ |g i0 j0 - d| < ε := by
  have hreg := kerrRegular_of_jac o.simulation Z (kerr_real hS.eps) (h.jac_det hS.valid hS.pol hx hy Z)
  obtain ⟨d, h1, h2, h3⟩ := kerr_setup_derivative o J args rho hS Z hZ hreg hJ hJc i0 j0 hW
  obtain ⟨r, hr, h5⟩ := h.newton_near_inexact hS.valid hS.pol hx hy hZ
  refine ⟨d, h1, h2, r, hr, fun ε hε => ?_⟩
  obtain ⟨η, hη, τ1, hτ1, h4⟩ := h3 ε hε
  obtain ⟨τ2, hτ2, N, thr0, ht0, h6⟩ := h5 η hη
  refine ⟨min τ1 τ2, lt_min hτ1 hτ2, N, thr0, ht0, fun env hb hw hwR n hn thr hthr E hE => ?_⟩
  obtain ⟨R, s', G, fl, fn, hs, hs', hfn, hF, hG⟩ := h6 env hb (within_weaken hw (min_le_right _ _)) (fun A b hA => (hwR A b hA).trans (mul_le_mul_of_nonneg_right (min_le_right _ _) (norm_nonneg _))) n hn
    thr hthr E hE
  obtain ⟨fs, hfs, hg⟩ := h4 env (within_weaken hw (min_le_left _ _)) s' R.Fz G fl fn hs' hfn hF hG
  exact ⟨R, s', fs, hs, hfs, hg⟩

/-! ## A concrete case -/

/-- A point source of strength 1/100 anywhere on any grid, objective the total nonlinear intensity: with accurate enough linear solves the gradient is as close as desired to the derivative at every pixel. -/
example (hx : 1 < Nx) (hy : 1 < Ny) (P : ℕ) (x i0 : Fin Nx) (y j0 : Fin Ny) :
    let o : Opt Nx Ny := copt P (fun i j => if i = x ∧ j = y then 1 / 100 else 0) (intensityJ Nx Ny)
    ∃ Z d, (∀ i j, Spec.nlResidual o.simulation Z i j = 0) ∧ (∃ E, Spec.KerrBranch o (fun _ _ => 0) Z i0 j0 E) ∧
      (∀ E, Spec.KerrBranch o (fun _ _ => 0) Z i0 j0 E → HasDerivAt (fun t => ∑ i, ∑ j, ((E t i j).re ^ 2 + (E t i j).im ^ 2)) d 0) ∧
      ∀ ε > 0, ∃ τ > 0, ∃ (N : ℕ) (thr0 : ℝ), 0 < thr0 ∧ ∀ env : Env, env.Within τ → ∀ n, N ≤ n → ∀ thr ≤ thr0, ∃ r s' fs, solve_fields_nl env o.simulation none .born thr n = (.ok r, s') ∧
        Opt.collect s' [⟨.Ez, true, .kerr_Ez⟩] = .ok fs ∧
        ∃ g, (Opt.compute_dJ env { o with simulation := s', field_arg_list := some fs, fields_current := true }).1 = .ok g ∧ |g i0 j0 - d| < ε := by
  intro o
  have hw0 := cksim_weak (Nx := Nx) (Ny := Ny) P 1 (1 / 100) zero_le_one (by norm_num) (by norm_num) (fun _ _ => 1) (fun i j => if i = x ∧ j = y then 1 / 100 else 0) (fun _ _ => by simp)
    (fun i j => by split_ifs <;> simp)
  have hw : Spec.WeakKerr o.simulation 1 (3 * 1) (9 * (1 / 100)) := ⟨hw0.perm, hw0.coarse, hw0.focusing, hw0.kerr, hw0.source, hw0.weak⟩
  have hv : o.simulation.Valid := { cksim_valid P 1 (fun _ _ => 1) (fun i j => if i = x ∧ j = y then (1 / 100 : ℂ) else 0) with }
  obtain ⟨Z, hZ, -, -⟩ := C76_unique_solution _ hv rfl hx hy _ _ _ hw
  have hS : Spec.KerrSetup o (intensityJ Nx Ny) [⟨.Ez, true, .kerr_Ez⟩] (fun _ _ => 0) :=
    { obj := rfl
      kinds := fun a ha => by rw [List.mem_singleton] at ha; rw [ha]; rfl
      nonempty := by simp
      valid := hv
      pol := rfl
      density := rfl
      eps := by
        show (fun _ _ => (1 : ℂ)) = fun i j => ((rho2eps (fun _ _ => 0) 5 1 (1 / 2) 1 i j : ℝ) : ℂ)
        rw [rho2eps_zero]
        simp
      beta := one_ne_zero }
  obtain ⟨d, h1, h2, h3⟩ := C121_born o _ _ _ hS hx hy _ _ _ hw (fun e h => by cases h) Z hZ (intensityJ_autograd _)
    (fun k => by
      refine Continuous.continuousAt ?_
      refine continuous_pi fun i => continuous_pi fun j => ?_
      exact continuous_const.mul (Complex.continuous_conj.comp ((continuous_apply j).comp ((continuous_apply i).comp (continuous_apply (0 : Fin 1)))))) i0 j0
    (filterSym_one (fun _ _ => Or.inr rfl) rfl)
  exact ⟨Z, d, hZ, h1, h2, h3⟩

/-- A point source of strength 1/100 anywhere on any grid, objective the total nonlinear intensity: Newton's solver started off the solution, and a linear solver that is never exact. -/
example (hx : 1 < Nx) (hy : 1 < Ny) (P : ℕ) (x i0 : Fin Nx) (y j0 : Fin Ny) :
    let o : Opt Nx Ny := copt P (fun i j => if i = x ∧ j = y then 1 / 100 else 0) (intensityJ Nx Ny)
    ∃ Z d, (∀ i j, Spec.nlResidual o.simulation Z i j = 0) ∧ (∃ E, Spec.KerrBranch o (fun _ _ => 0) Z i0 j0 E) ∧
      (∀ E, Spec.KerrBranch o (fun _ _ => 0) Z i0 j0 E → HasDerivAt (fun t => ∑ i, ∑ j, ((E t i j).re ^ 2 + (E t i j).im ^ 2)) d 0) ∧
      ∀ ε > 0, ∃ τ > 0, ∃ r : ℝ, 0 < r ∧ ∃ (n : ℕ) (thr : ℝ), 0 < thr ∧ ∃ R s' fs, solve_fields_nl (swellEnv τ) o.simulation (some fun i j => Z i j + r) .newton thr n = (.ok R, s') ∧
        Opt.collect s' [⟨.Ez, true, .kerr_Ez⟩] = .ok fs ∧
        ∃ g, (Opt.compute_dJ (swellEnv τ) { o with simulation := s', field_arg_list := some fs, fields_current := true }).1 = .ok g ∧ |g i0 j0 - d| < ε := by
  intro o
  have hw0 := cksim_weak (Nx := Nx) (Ny := Ny) P 1 (1 / 100) zero_le_one (by norm_num) (by norm_num) (fun _ _ => 1) (fun i j => if i = x ∧ j = y then 1 / 100 else 0) (fun _ _ => by simp)
    (fun i j => by split_ifs <;> simp)
  have hw : Spec.WeakKerr o.simulation 1 (3 * 1) (9 * (1 / 100)) := ⟨hw0.perm, hw0.coarse, hw0.focusing, hw0.kerr, hw0.source, hw0.weak⟩
  have hv : o.simulation.Valid := { cksim_valid P 1 (fun _ _ => 1) (fun i j => if i = x ∧ j = y then (1 / 100 : ℂ) else 0) with }
  obtain ⟨Z, hZ, -, -⟩ := C76_unique_solution _ hv rfl hx hy _ _ _ hw
  have hS : Spec.KerrSetup o (intensityJ Nx Ny) [⟨.Ez, true, .kerr_Ez⟩] (fun _ _ => 0) :=
    { obj := rfl
      kinds := fun a ha => by rw [List.mem_singleton] at ha; rw [ha]; rfl
      nonempty := by simp
      valid := hv
      pol := rfl
      density := rfl
      eps := by
        show (fun _ _ => (1 : ℂ)) = fun i j => ((rho2eps (fun _ _ => 0) 5 1 (1 / 2) 1 i j : ℝ) : ℂ)
        rw [rho2eps_zero]
        simp
      beta := one_ne_zero }
  have hk : Spec.RealKerr o.simulation 1 (3 * 1) := by
    refine ⟨hw.perm, hw.coarse, fun i j => ⟨3, by norm_num, by norm_num, ?_⟩⟩
    simp [o, copt, Spec.kerrSum, Spec.kerrCoef, cksim]
  obtain ⟨d, h1, h2, r, hr, h3⟩ := C121_newton o _ _ _ hS hx hy _ _ hk Z hZ (intensityJ_autograd _)
    (fun k => by
      refine Continuous.continuousAt ?_
      refine continuous_pi fun i => continuous_pi fun j => ?_
      exact continuous_const.mul (Complex.continuous_conj.comp ((continuous_apply j).comp ((continuous_apply i).comp (continuous_apply (0 : Fin 1)))))) i0 j0
    (filterSym_one (fun _ _ => Or.inr rfl) rfl)
  refine ⟨Z, d, hZ, h1, h2, fun ε hε => ?_⟩
  obtain ⟨τ, hτ, N, thr0, ht0, h4⟩ := h3 ε hε
  have hsw := swellEnv_within τ hτ.le
  exact ⟨τ, hτ, r, hr, N, thr0, ht0, h4 (swellEnv τ) rfl hsw.1 hsw.2 N le_rfl thr0 le_rfl _ fun i j => by rw [add_sub_cancel_left, Complex.norm_real, Real.norm_of_nonneg hr.le]⟩

/-- Sources of strength at most 1/1000 on any grid, objective the total nonlinear intensity: one accuracy for all densities. -/
example (hx : 1 < Nx) (hy : 1 < Ny) (P : ℕ) (src : Grid Nx Ny ℂ) (hs : ∀ i j, ‖src i j‖ ≤ 1 / 1000) (h0 : src ≠ 0) (δ : ℝ) (hδ : 0 < δ) :
    let o : Opt Nx Ny := copt P src (intensityJ Nx Ny)
    ∃ τ > 0, ∃ (N : ℕ) (thr0 : ℝ), 0 < thr0 ∧ ∀ x, Spec.Box x → ∃ Z r s', (∀ i j, Spec.nlResidual (Spec.simAt o x) Z i j = 0) ∧
      solve_fields_nl (shiftEnv τ) (Spec.simAt o x) none .born thr0 N = (.ok r, s') ∧ |(∑ i, ∑ j, ((r.Fz i j).re ^ 2 + (r.Fz i j).im ^ 2)) - ∑ i, ∑ j, ((Z i j).re ^ 2 + (Z i j).im ^ 2)| < δ := by
  intro o
  have hk := copt_kerrProblem P src hs h0
  have hJ : Continuous (intensityJ Nx Ny).eval := by
    unfold intensityJ
    dsimp only
    fun_prop
  obtain ⟨τ, hτ, N, thr0, ht, h⟩ := C121_uniform o hk.valid hk.pol hx hy _ _ _ (fun x hxb => hk.weak x (box_near hk.room hxb)) (intensityJ Nx Ny) hJ δ hδ
  refine ⟨τ, hτ, N, thr0, ht, fun x hxb => ?_⟩
  obtain ⟨Z, r, s', h1, -, h2, -, h3⟩ := h _ (shiftEnv_within τ hτ.le) N le_rfl thr0 le_rfl x hxb
  exact ⟨Z, r, s', h1, h2, h3⟩

end Angler
