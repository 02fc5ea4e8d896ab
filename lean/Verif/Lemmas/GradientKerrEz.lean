import Verif.Lemmas.KerrBranch

/-! # `compute_dJ` at an exact Kerr solution -/

namespace Angler

open Matrix Filter Topology

variable {Nx Ny : ℕ}

/-- The blocks of the doubled adjoint system at the field `E`. -/
noncomputable def kerrC11 (s : Sim Nx Ny) (E : Grid Nx Ny ℂ) : Mat (Nx * Ny) ℂ :=
  s.A + kerrMat s E + spdiag fun k => ((s.omega : ℂ) ^ 2 * ((EPSILON_0 * s.L0 : ℝ) : ℂ) * flatten (s.compute_nl E).dnl_de k) * flatten E k

/-- The off-diagonal block. -/
noncomputable def kerrC12 (s : Sim Nx Ny) (E : Grid Nx Ny ℂ) : Mat (Nx * Ny) ℂ :=
  spdiag fun k => (starRingEnd ℂ) ((s.omega : ℂ) ^ 2 * ((EPSILON_0 * s.L0 : ℝ) : ℂ) * flatten (s.compute_nl E).dnl_de k) * flatten E k

theorem kerrC_mulVec (s : Sim Nx Ny) (E h : Grid Nx Ny ℂ) (hreal : ∀ i j, (Spec.kerrSum s.nonlinearity s.eps_r i j).im = 0) (i : Fin Nx) (j : Fin Ny) :
    (kerrC11 s E *ᵥ flatten h + kerrC12 s E *ᵥ fun k => (starRingEnd ℂ) (flatten h k)) (finProdFinEquiv (i, j)) =
      (s.A *ᵥ flatten h) (finProdFinEquiv (i, j)) + ((s.omega ^ 2 * EPSILON_0 * s.L0 : ℝ) : ℂ) * Spec.kerrSum s.nonlinearity s.eps_r i j *
        (2 * (E i j * (starRingEnd ℂ) (E i j)) * h i j + E i j * E i j * (starRingEnd ℂ) (h i j)) := by
  unfold kerrC11 kerrC12
  rw [Matrix.add_mulVec, Matrix.add_mulVec, kerrMat_mulVec, spdiag_mulVec, spdiag_mulVec]
  have hn : (((‖E i j‖ ^ 2 : ℝ)) : ℂ) = E i j * (starRingEnd ℂ) (E i j) := by
    rw [← Complex.normSq_eq_norm_sq, ← Complex.mul_conj]
  have hc := Complex.conj_eq_iff_im.2 (hreal i j)
  simp only [Pi.add_apply, flatten_pair, compute_nl_dnl_de, hn, map_mul, map_pow, Complex.conj_conj, Complex.conj_ofReal, hc]
  push_cast
  ring

theorem kerrC_det (s : Sim Nx Ny) (E : Grid Nx Ny ℂ) (hreal : ∀ i j, (Spec.kerrSum s.nonlinearity s.eps_r i j).im = 0) (hreg : Spec.KerrRegular s E) :
    (stackConj (kerrC11 s E) (kerrC12 s E)).det ≠ 0 := by
  refine stackConj_det _ _ fun h hh => ?_
  have h0 : (unflatten h : Grid Nx Ny ℂ) = 0 := by
    refine hreg _ fun i j => ?_
    rw [← kerrC_mulVec s E _ hreal, flatten_unflatten, hh]
    rfl
  rw [← flatten_unflatten (Nx := Nx) (Ny := Ny) h, h0]
  rfl

/-- The last step of `grad_kerr_Ez`. -/
noncomputable def tail_kerr (o : Opt Nx Ny) (rho : Grid Nx Ny ℝ) (E aj : Grid Nx Ny ℂ) : Grid Nx Ny ℝ :=
  unflatten fun k => (Opt.filtDot o (fun j => flatten E j * (Opt.projMat o rho j : ℂ) * (Opt.dAdeps o j +
    ((flatten o.design_region j : ℝ) : ℂ) * (o.simulation.omega : ℂ) ^ 2 * ((EPSILON_0 * o.simulation.L0 : ℝ) : ℂ) * flatten (o.simulation.compute_nl E).dnl_deps j)) (flatten aj) k).re

theorem tail_kerr_apply (o : Opt Nx Ny) (rho : Grid Nx Ny ℝ) (E aj : Grid Nx Ny ℂ) (i0 : Fin Nx) (j0 : Fin Ny) :
    tail_kerr o rho E aj i0 j0 = (∑ i, ∑ j, aj i j * (((o.simulation.omega ^ 2 * EPSILON_0 * o.simulation.L0 : ℝ) : ℂ) * ((1 + (o.simulation.compute_nl E).dnl_deps i j) *
      (((o.eps_m - 1) * drhob_drhot (rho2rhot rho o.W i j) o.eta o.beta * (o.W (finProdFinEquiv (i0, j0)) (finProdFinEquiv (i, j)) * o.design_region i j) : ℝ) : ℂ)) * E i j)).re := by
  simp only [tail_kerr, unflatten, Opt.filtDot]
  rw [sum_flat]
  congr 1
  refine Finset.sum_congr rfl fun i _ => Finset.sum_congr rfl fun j _ => ?_
  simp only [flatten_pair, Opt.projMat, Opt.dAdeps, drhot_drho]
  push_cast
  ring

/-- The first half of the adjoint solution. -/
noncomputable def kerrAdj (env : Env) (s : Sim Nx Ny) (E p : Grid Nx Ny ℂ) : Vec (Nx * Ny + Nx * Ny) ℂ :=
  solver_direct env (stackConj (kerrC11 s E) (kerrC12 s E))ᵀ (stackVec (-(flatten p)))

/-- What `grad_kerr_Ez` returns when the stored nonlinear state belongs to `E`. -/
theorem gradFn_kerr (env : Env) (o : Opt Nx Ny) (rho : Grid Nx Ny ℝ) (hrho : o.simulation.rho = some (some rho)) (E p : Grid Nx Ny ℂ)
    (hE : o.simulation.fields_nl .Ez = some E) (hA : o.simulation.Anl = (o.simulation.compute_nl E).Anl) (hd : o.simulation.dnl_de = (o.simulation.compute_nl E).dnl_de) :
    Opt.gradFn env o .kerr_Ez p E =
      (.ok (tail_kerr o rho E (unflatten fun k => kerrAdj env o.simulation E p (Fin.castAdd _ k))), o.simulation.compute_nl E) := by
  have hadj : adjoint_kerr_Ez env o.simulation (fun i j => -p i j) = .ok (unflatten fun k => kerrAdj env o.simulation E p (Fin.castAdd _ k)) := by
    unfold adjoint_kerr_Ez adjoint_kerr_vec
    rw [hA, compute_nl_Anl, hE]
    simp only [hd]
    rfl
  have hr : Opt.getRho (o.simulation.compute_nl E) = .ok rho := by
    have : (o.simulation.compute_nl E).rho = o.simulation.rho := rfl
    unfold Opt.getRho
    rw [this, hrho]
  simp only [Opt.gradFn, Opt.grad_kerr_Ez, hadj, hr]
  rfl

/-- The situation of C31: an objective of linear Ez, Hx, Hy fields and the nonlinear Ez field, accepted by the constructor; a constructed Ez simulation whose density and
permittivity agree; stored fields that are up to date, with the stored nonlinear field `E` and the nonlinear state computed from it; `E` an exact, regular solution of the
Kerr system; and correct `autograd` partials at these fields. -/
structure Spec.KerrEz (env : Env) (o : Opt Nx Ny) (J : ObjFn Nx Ny) (args : List ObjArg) (rho : Grid Nx Ny ℝ) (E : Grid Nx Ny ℂ) : Prop where
  obj : Objective.init J args = .ok o.objective
  kinds : ∀ a ∈ args, (∃ c, c ∈ ["Ez", "Hx", "Hy"] ∧ ObjArg.init c false = .ok a) ∨ ObjArg.init "Ez" true = .ok a
  nonempty : args ≠ []
  valid : o.simulation.Valid
  pol : o.simulation.pol = .Ez
  density : o.simulation.rho = some (some rho)
  eps : o.simulation.eps_r = fun i j => ((rho2eps rho o.eps_m o.W o.eta o.beta i j : ℝ) : ℂ)
  beta : o.beta ≠ 0
  current : o.fields_current = true
  linear : ∀ c, c = Comp.Ez ∨ c = .Hx ∨ c = .Hy → (∃ a ∈ args, a.nl = false) → o.simulation.fields c = (o.simulation.solve_fields env).2.fields c
  nonlinear : o.simulation.fields_nl .Ez = some E
  anl : o.simulation.Anl = (o.simulation.compute_nl E).Anl
  dnl : o.simulation.dnl_de = (o.simulation.compute_nl E).dnl_de
  collected : ∃ fs, Opt.collect o.simulation args = .ok fs ∧ o.field_arg_list = some fs
  det : (∃ a ∈ args, a.nl = false) → o.simulation.A.det ≠ 0
  exact : Spec.KerrMaxwellEz o.simulation E
  regular : Spec.KerrRegular o.simulation E
  autograd : ∀ x, (∀ (k : Fin J.arity) a, args[(k : ℕ)]? = some a → (if a.nl then o.simulation.fields_nl a.component else o.simulation.fields a.component) = some (x k)) →
    Spec.Autograd J x

theorem kinds_cases {a : ObjArg} (h : (∃ c, c ∈ ["Ez", "Hx", "Hy"] ∧ ObjArg.init c false = .ok a) ∨ ObjArg.init "Ez" true = .ok a) :
    (a.nl = false ∧ a.component.isEz ∧ a.gradient = gradientMap a.component false) ∨ (a.nl = true ∧ a.component = .Ez ∧ a.gradient = .kerr_Ez) := by
  rcases h with ⟨c, hc, h⟩ | h
  · left
    simp only [List.mem_cons, List.not_mem_nil, or_false] at hc
    rcases hc with rfl | rfl | rfl <;> cases h <;> exact ⟨rfl, trivial, rfl⟩
  · right
    cases h
    exact ⟨rfl, rfl, rfl⟩

/-- One gradient contribution of the code. -/
noncomputable def argGrad (env : Env) (o : Opt Nx Ny) (rho : Grid Nx Ny ℝ) (E p : Grid Nx Ny ℂ) (a : ObjArg) : Grid Nx Ny ℝ :=
  if a.nl then tail_kerr o rho E (unflatten fun k => kerrAdj env o.simulation E p (Fin.castAdd _ k))
  else Opt.tail_Ez o rho (unflatten (solver_direct env o.simulation.A o.simulation.rhs))
    (unflatten (solver_direct env o.simulation.Aᵀ (-(linPart o.simulation p a.component))))

/-- The field an argument refers to, given the nonlinear Ez field. -/
noncomputable def argField (env : Env) (s : Sim Nx Ny) (E : Grid Nx Ny ℂ) (a : ObjArg) : Grid Nx Ny ℂ :=
  if a.nl then E else linField s (solver_direct env s.A s.rhs) a.component

theorem kerr_compute_dJ (env : Env) (o : Opt Nx Ny) (J : ObjFn Nx Ny) (args : List ObjArg) (rho : Grid Nx Ny ℝ) (E : Grid Nx Ny ℂ) (hS : Spec.KerrEz env o J args rho E) :
    ∃ hlen : args.length = J.arity, (Opt.compute_dJ env o).1 = .ok fun i j => ∑ k : Fin J.arity,
      argGrad env o rho E (J.partials k fun m => argField env o.simulation E (args.get (m.cast hlen.symm))) (args.get (k.cast hlen.symm)) i j := by
  obtain ⟨hlen, hmk⟩ := objective_init_ok hS.obj
  refine ⟨hlen, ?_⟩
  obtain ⟨fs, hfs, hfl⟩ := hS.collected
  obtain ⟨t, ht, hst⟩ := solve_fields_Ez env o.simulation hS.pol
  let arg : Fin J.arity → ObjArg := fun k => args.get (k.cast hlen.symm)
  have harg : ∀ k, arg k ∈ args := fun k => List.get_mem _ _
  let x0 : Fin J.arity → Grid Nx Ny ℂ := fun k => argField env o.simulation E (arg k)
  have hlinf : ∀ c : Comp, c.isEz → (∃ a ∈ args, a.nl = false) → o.simulation.fields c = some (linField o.simulation (solver_direct env o.simulation.A o.simulation.rhs) c) := by
    intro c hc hex
    have h1 : o.simulation.fields c = (o.simulation.solve_fields env).2.fields c := hS.linear c (by cases c <;> simp_all [Comp.isEz]) hex
    rw [h1, ht]
    exact hst c hc
  have hcol := collect_ok o.simulation (argField env o.simulation E) args (by
    intro a ha
    rcases kinds_cases (hS.kinds a ha) with ⟨h1, h2, -⟩ | ⟨h1, h2, -⟩
    · simp only [argField, h1, Bool.false_eq_true, if_false]
      exact hlinf _ h2 ⟨a, ha, h1⟩
    · simp only [argField, h1, if_true, h2]
      exact hS.nonlinear)
  rw [hcol] at hfs
  cases hfs
  have hne : (args.map (argField env o.simulation E)).isEmpty = false := by
    rw [List.isEmpty_eq_false_iff]
    simpa using hS.nonempty
  have hsol : Opt.solveArgFields env o none = (.ok (), o, none) := by
    unfold Opt.solveArgFields
    rw [if_neg]
    rw [hS.current, hfl, Option.getD_some, hne]
    simp
  have hcall : ∀ d : Fin J.arity, J.callGrad d (args.map (argField env o.simulation E)) = .ok (J.partials d x0) := by
    intro d
    unfold ObjFn.callGrad
    rw [dif_pos (by rw [List.length_map, hlen])]
    congr 2
    funext m
    simp [x0, arg]
  have hzip := zip_args J args hlen
  have hloop := dJLoop_ok env (fun o' => ∃ en dd, o' = { o with simulation := { o.simulation with eps_nl := en, dnl_deps := dd } })
    (fun d => J.callGrad d (args.map (argField env o.simulation E))) (fun q => argGrad env o rho E (J.partials q.2.1 x0) q.2.2)
    (List.ofFn fun k : Fin J.arity => ((arg k).gradient, k, arg k)) (by
      intro q hq o' ho'
      rw [List.mem_ofFn] at hq
      obtain ⟨k, rfl⟩ := hq
      obtain ⟨en, dd, rfl⟩ := ho'
      rcases kinds_cases (hS.kinds _ (harg k)) with ⟨h1, h2, h3⟩ | ⟨h1, h2, h3⟩
      · refine ⟨unflatten (solver_direct env o.simulation.A o.simulation.rhs), J.partials k x0, { o.simulation with eps_nl := en, dnl_deps := dd }, ?_, hcall k, ?_, en, dd, rfl⟩
        · show (if (arg k).nl then _ else o.simulation.fields o.simulation.pol.comp) = _
          rw [h1, hS.pol]
          exact hlinf .Ez trivial ⟨_, harg k, h1⟩
        · show Opt.gradFn env _ (arg k).gradient (J.partials k x0) _ = _
          rw [h3]
          have h4 := gradFn_Ez env { o with simulation := { o.simulation with eps_nl := en, dnl_deps := dd } } rho hS.density (arg k).component h2 (J.partials k x0)
            (unflatten (solver_direct env o.simulation.A o.simulation.rhs))
          rw [h4]
          simp only [argGrad, h1, Bool.false_eq_true, if_false]
          rfl
      · refine ⟨E, J.partials k x0, o.simulation.compute_nl E, ?_, hcall k, ?_, (o.simulation.compute_nl E).eps_nl, (o.simulation.compute_nl E).dnl_deps, ?_⟩
        · show (if (arg k).nl then o.simulation.fields_nl o.simulation.pol.comp else _) = _
          rw [h1, hS.pol]
          exact hS.nonlinear
        · show Opt.gradFn env _ (arg k).gradient (J.partials k x0) _ = _
          rw [h3]
          have h4 := gradFn_kerr env { o with simulation := { o.simulation with eps_nl := en, dnl_deps := dd } } rho hS.density E (J.partials k x0) hS.nonlinear hS.anl hS.dnl
          rw [h4]
          simp only [argGrad, h1, if_true]
          rfl
        · show ({ o with simulation := o.simulation.compute_nl E } : Opt Nx Ny) = _
          have h5 : o.simulation.compute_nl E = { o.simulation with eps_nl := (o.simulation.compute_nl E).eps_nl, dnl_deps := (o.simulation.compute_nl E).dnl_deps } := by
            have e1 := hS.anl
            have e2 := hS.dnl
            calc o.simulation.compute_nl E = { o.simulation with eps_nl := (o.simulation.compute_nl E).eps_nl, dnl_de := (o.simulation.compute_nl E).dnl_de, dnl_deps := (o.simulation.compute_nl E).dnl_deps, Anl := (o.simulation.compute_nl E).Anl } := rfl
              _ = _ := by rw [← e1, ← e2]
          rw [← h5])
    o (fun _ _ => 0) ⟨_, _, rfl⟩
  obtain ⟨o', _, hdJ⟩ := hloop
  have hsumG : ∀ i j, (0 : ℝ) + ((List.ofFn fun k : Fin J.arity => ((arg k).gradient, k, arg k)).map fun q => argGrad env o rho E (J.partials q.2.1 x0) q.2.2 i j).sum =
      ∑ k, argGrad env o rho E (J.partials k x0) (arg k) i j := by
    intro i j
    rw [zero_add, List.map_ofFn, List.sum_ofFn]
    rfl
  unfold Opt.compute_dJ
  rw [hsol]
  simp only [hfl, Option.getD_some]
  have hgoal : Opt.dJLoop env (o.objective.grad_fn_list.zip (o.objective.dJ_list.zip o.objective.arg_list)) (fun d => o.objective.J.callGrad d (args.map (argField env o.simulation E))) o none (fun _ _ => 0) =
      Opt.dJLoop env (List.ofFn fun k : Fin J.arity => ((arg k).gradient, k, arg k)) (fun d => J.callGrad d (args.map (argField env o.simulation E))) o none (fun _ _ => 0) := by
    have key : ∀ ob : Objective Nx Ny, ob = Objective.mk' J args → Opt.dJLoop env (ob.grad_fn_list.zip (ob.dJ_list.zip ob.arg_list)) (fun d => ob.J.callGrad d (args.map (argField env o.simulation E))) o none (fun _ _ => 0) =
      Opt.dJLoop env (List.ofFn fun k : Fin J.arity => ((arg k).gradient, k, arg k)) (fun d => J.callGrad d (args.map (argField env o.simulation E))) o none (fun _ _ => 0) := by
      rintro ob rfl
      rw [hzip]
      rfl
    exact key _ hmk
  rw [hgoal, hdJ]
  simp only [hsumG]
  rfl

end Angler
