import Verif.Props.Lbfgs

/-! # C35 (compute_J and the field cache), C43 (scans leave the simulation alone) -/

namespace Angler

open Matrix

variable {Nx Ny : ℕ}

/-! ## C43 -/

theorem scanOne_keep (env : Env) (f : ℝ) (o : Opt Nx Ny) : OptKeep o (Opt.scanOne env f o).2 ∧ (Opt.scanOne env f o).2.simulation = o.simulation := by
  unfold Opt.scanOne
  simp only
  have h := OptKeep.compute_J env { o with fields_current := false }
    (some (({ o.simulation with omega := 2 * Real.pi * f } : Sim Nx Ny).set_eps_r o.simulation.eps_r))
  generalize Opt.compute_J env { o with fields_current := false } (some (({ o.simulation with omega := 2 * Real.pi * f } : Sim Nx Ny).set_eps_r o.simulation.eps_r)) = R at h ⊢
  obtain ⟨e | J, r⟩ := R <;> exact ⟨⟨h.1.core, h.1.sim⟩, h.2 rfl⟩

theorem scanLoop_keep (env : Env) (fs : List ℝ) (o : Opt Nx Ny) : OptKeep o (Opt.scanLoop env fs o).2 ∧ (Opt.scanLoop env fs o).2.simulation = o.simulation := by
  induction fs generalizing o with
  | nil => exact ⟨OptKeep.refl o, rfl⟩
  | cons f fs ih =>
    unfold Opt.scanLoop
    have h := scanOne_keep env f o
    generalize Opt.scanOne env f o = R at h ⊢
    obtain ⟨e | J, o1⟩ := R
    · exact h
    · simp only [pySeq]
      have h2 := ih o1
      generalize Opt.scanLoop env fs o1 = R at h2 ⊢
      obtain ⟨e | Js, o2⟩ := R <;> exact ⟨h.1.trans h2.1, h2.2.trans h.2⟩

/-- **C43, `scan_frequency`.** The optimisation's simulation is exactly as before (source, frequency, permittivity, all fields and caches), and so are the density, the logs
and the parameters; also when the scan raises. -/
theorem C43_scan_frequency (env : Env) (Nf : ℕ) (df : ℝ) (o : Opt Nx Ny) :
    (Opt.scan_frequency env Nf df o).2.simulation = o.simulation ∧ (Opt.scan_frequency env Nf df o).2.objfn_list = o.objfn_list ∧
    (Opt.scan_frequency env Nf df o).2.src_amplitudes = o.src_amplitudes := by
  unfold Opt.scan_frequency
  simp only
  have h := scanLoop_keep env (Opt.scanFreqs o.simulation.omega df Nf) o
  generalize Opt.scanLoop env (Opt.scanFreqs o.simulation.omega df Nf) o = R at h ⊢
  obtain ⟨e | objs, o1⟩ := R
  · exact ⟨h.2, h.1.objfn_list, h.1.src_amplitudes⟩
  · simp only [pySeq]
    rcases Opt.fwhm (Opt.scanFreqs o.simulation.omega df Nf) objs Nf with e | w <;> exact ⟨h.2, h.1.objfn_list, h.1.src_amplitudes⟩

theorem checkPts_keep (env : Env) (g : Grid Nx Ny ℝ) (J0 d : ℝ) (ps : List ℕ) (o : Opt Nx Ny) :
    OptKeep o (Opt.checkPts env g J0 d ps o).2 ∧ (Opt.checkPts env g J0 d ps o).2.simulation = o.simulation := by
  have one : ∀ (p : ℕ) (o : Opt Nx Ny), OptKeep o (Opt.checkPt env g J0 d p o).2 ∧ (Opt.checkPt env g J0 d p o).2.simulation = o.simulation := by
    intro p o
    unfold Opt.checkPt
    rcases (Opt.desPts o)[p]? with _ | pt
    · exact ⟨OptKeep.refl o, rfl⟩
    · simp only
      rcases o.simulation.rho with _ | _ | rho
      · exact ⟨OptKeep.refl o, rfl⟩
      · exact ⟨OptKeep.refl o, rfl⟩
      · simp only
        generalize hs : Sim.set_eps_r ({ o.simulation with rho := some (some (Opt.bumpRho rho pt d)) } : Sim Nx Ny)
          (fun i j => ((rho2eps (Opt.bumpRho rho pt d) o.eps_m o.W o.eta o.beta i j : ℝ) : ℂ)) = s
        have h := OptKeep.compute_J env { o with fields_current := false } (some s)
        generalize Opt.compute_J env { o with fields_current := false } (some s) = R at h ⊢
        obtain ⟨e | J, r⟩ := R
        · exact ⟨⟨h.1.core, h.1.sim⟩, h.2 rfl⟩
        · simp only
          by_cases hd : d = 0
          · rw [if_pos hd]; exact ⟨⟨h.1.core, h.1.sim⟩, h.2 rfl⟩
          · rw [if_neg hd]; exact ⟨⟨h.1.core, h.1.sim⟩, h.2 rfl⟩
  induction ps generalizing o with
  | nil => exact ⟨OptKeep.refl o, rfl⟩
  | cons p ps ih =>
    unfold Opt.checkPts
    have h := one p o
    generalize Opt.checkPt env g J0 d p o = R at h ⊢
    obtain ⟨e | J, o1⟩ := R
    · exact h
    · simp only [pySeq]
      have h2 := ih o1
      generalize Opt.checkPts env g J0 d ps o1 = R at h2 ⊢
      obtain ⟨e | Js, o2⟩ := R <;> exact ⟨h.1.trans h2.1, h2.2.trans h.2⟩

theorem check_deriv_keep (env : Env) (picks : List ℕ) (d : ℝ) (o : Opt Nx Ny) (rho : Grid Nx Ny ℝ) (hr : o.simulation.rho = some (some rho)) :
    OptKeep { Opt.putRho o rho with fields_current := false } (Opt.check_deriv env picks d o).2 := by
  unfold Opt.check_deriv
  rw [hr]
  simp only
  have h1 := OptKeep.dJ_self env { Opt.putRho o rho with fields_current := false }
  generalize Opt.dJ_self env { Opt.putRho o rho with fields_current := false } = R at h1 ⊢
  obtain ⟨e | g, o2⟩ := R
  · exact h1
  · simp only [pySeq]
    have h2 := OptKeep.J_self env o2
    generalize Opt.J_self env o2 = R at h2 ⊢
    obtain ⟨e | J, o3⟩ := R
    · exact h1.trans h2
    · exact (h1.trans h2).trans (checkPts_keep env g J d picks o3).1

/-- **C43, `check_deriv`.** For every choice of points and step (also when it raises), source, frequency, density, logs and parameters are as before; the permittivity is the
re-projected density, so unchanged if it was the image of the density. -/
theorem C43_check_deriv (env : Env) (picks : List ℕ) (d : ℝ) (o : Opt Nx Ny) (rho : Grid Nx Ny ℝ) (hr : o.simulation.rho = some (some rho)) :
    let s := (Opt.check_deriv env picks d o).2.simulation
    s.src = o.simulation.src ∧ s.omega = o.simulation.omega ∧ s.rho = o.simulation.rho ∧
    (s.eps_r = fun i j => ((rho2eps rho o.eps_m o.W o.eta o.beta i j : ℝ) : ℂ)) ∧ (Spec.EpsOfRho o → s.eps_r = o.simulation.eps_r) ∧
    (Opt.check_deriv env picks d o).2.objfn_list = o.objfn_list ∧ (Opt.check_deriv env picks d o).2.src_amplitudes = o.src_amplitudes := by
  have main := check_deriv_keep env picks d o rho hr
  have heps : (Opt.check_deriv env picks d o).2.simulation.eps_r = fun i j => ((rho2eps rho o.eps_m o.W o.eta o.beta i j : ℝ) : ℂ) := main.sim.eps_r
  refine ⟨main.sim.src, main.sim.omega, main.sim.rho.trans hr.symm, heps, ?_, main.objfn_list, main.src_amplitudes⟩
  rintro ⟨rho', hr', he⟩
  rw [hr] at hr'
  cases hr'
  rw [heps]
  funext i j
  exact (he i j).symm

/-- Both hypotheses are met at vacuum with zero density. -/
example (env : Env) : (Opt.check_deriv env [0, 3, 7] 1e-3 (ropt (Nx := 3) (Ny := 3) (fun _ _ => 1) (fun _ _ => 1) (fun _ _ => 0) (fun _ _ => 1) 1)).2.simulation.eps_r = fun _ _ => 1 := by
  refine (C43_check_deriv env [0, 3, 7] 1e-3 _ (fun _ _ => 0) rfl).2.2.2.2.1 ?_
  refine ⟨_, rfl, fun i j => ?_⟩
  have hC := C01_projection_physical (1 / 2) 1 (by norm_num)
  show (1 : ℂ) = ((rhob2eps (rhot2rhob (rho2rhot (fun _ _ => 0) (1 : Mat (3 * 3) ℝ) i j) (1 / 2) 1) 5 : ℝ) : ℂ)
  rw [rho2rhot_one, hC.1, rhob2eps]
  simp

/-! ## C35 -/

/-- The field component `c` of the simulation in its present state, solved for now. -/
noncomputable def Spec.freshField (env : Env) (s : Sim Nx Ny) (c : Comp) : Grid Nx Ny ℂ := ((s.solve_fields env).2.fields c).getD fun _ _ => 0

theorem collect_fresh (env : Env) (s : Sim Nx Ny) (args : List ObjArg) (hlin : ∀ a ∈ args, a.nl = false) (hb : ∀ a ∈ args, Spec.belongs s.pol a.component) :
    Opt.collect (s.solve_fields env).2 args = .ok (args.map fun a => Spec.freshField env s a.component) := by
  induction args with
  | nil => rfl
  | cons a l ih =>
    have hs : ((s.solve_fields env).2.fields a.component).isSome := by
      obtain ⟨t, ht⟩ := solve_fields_eq env s false
      rw [ht]
      exact store_belongs _ _ _ _ (hb a List.mem_cons_self)
    obtain ⟨f, hf⟩ := Option.isSome_iff_exists.1 hs
    rw [Opt.collect, hlin a List.mem_cons_self]
    simp only [Bool.false_eq_true, if_false]
    rw [hf, ih (fun a ha => hlin a (List.mem_cons_of_mem _ ha)) (fun a ha => hb a (List.mem_cons_of_mem _ ha))]
    simp only [List.map_cons, Spec.freshField, hf, Option.getD_some, Except.map]

theorem solveAll_true (env : Env) (s : Sim Nx Ny) : Opt.solveAll env true s = (.ok (), (s.solve_fields env).2) := by
  obtain ⟨t, ht⟩ := solve_fields_eq env s false
  simp only [Opt.solveAll, ht, if_true]

/-- The optimisation has a linear objective `J(args)`, all of whose components belong to the polarisation of the simulation `s`. -/
structure Spec.LinearObjective (o : Opt Nx Ny) (J : ObjFn Nx Ny) (args : List ObjArg) (s : Sim Nx Ny) : Prop where
  obj : Objective.init J args = .ok o.objective
  lin : ∀ a ∈ args, a.nl = false
  comps : ∀ a ∈ args, Spec.belongs s.pol a.component

/-- `J` evaluated on the freshly solved fields of `s`. -/
noncomputable def Spec.freshJ (env : Env) (J : ObjFn Nx Ny) (args : List ObjArg) (hlen : args.length = J.arity) (s : Sim Nx Ny) : ℝ :=
  J.eval fun k => Spec.freshField env s (args.get (k.cast hlen.symm)).component

theorem call_fresh (env : Env) (J : ObjFn Nx Ny) (args : List ObjArg) (hlen : args.length = J.arity) (s : Sim Nx Ny) :
    J.call (args.map fun a => Spec.freshField env s a.component) = .ok (Spec.freshJ env J args hlen s) := by
  unfold ObjFn.call Spec.freshJ
  rw [dif_pos (by rw [List.length_map, hlen])]
  congr 2
  funext k
  simp

theorem solveArgFields_stale (env : Env) (o : Opt Nx Ny) (other : Option (Sim Nx Ny)) (J : ObjFn Nx Ny) (args : List ObjArg)
    (h : Spec.LinearObjective o J args (o.target other)) (hcur : o.fields_current = false ∨ (o.field_arg_list.getD []).isEmpty) :
    Opt.solveArgFields env o other = (.ok (), { (o.putTarget other ((o.target other).solve_fields env).2).1 with
      field_arg_list := some (args.map fun a => Spec.freshField env (o.target other) a.component), fields_current := true }, (o.putTarget other ((o.target other).solve_fields env).2).2) := by
  obtain ⟨hlen, hob⟩ := objective_init_ok h.obj
  have harg : o.objective.arg_list = args := by rw [hob]; rfl
  have hl : o.objective.isLinear = true := (isLinear_iff _).2 (harg ▸ h.lin)
  unfold Opt.solveArgFields
  rw [if_pos hcur, hl, solveAll_true, harg]
  simp only
  rw [collect_fresh env _ args h.lin h.comps]

/-- **C35 (partial), stale flag.** With a linear objective and `fields_current = False`, `compute_J(sim)` is `J` of the freshly solved fields of `sim` in its present state,
for the optimisation's own simulation and for any other.  Missing: calls with `fields_current = True`, where the claim fails (`C35_cache_ignores_argument`, `C35_false`). -/
theorem C35_fresh_partial (env : Env) (o : Opt Nx Ny) (other : Option (Sim Nx Ny)) (J : ObjFn Nx Ny) (args : List ObjArg)
    (h : Spec.LinearObjective o J args (o.target other)) (hlen : args.length = J.arity) (hcur : o.fields_current = false) :
    (Opt.compute_J env o other).1 = .ok (Spec.freshJ env J args hlen (o.target other)) := by
  obtain ⟨_, hob⟩ := objective_init_ok h.obj
  have har : o.objective.J = J := by rw [hob]; rfl
  unfold Opt.compute_J
  rw [solveArgFields_stale env o other J args h (Or.inl hcur)]
  simp only [har, Option.getD_some]
  exact call_fresh env J args hlen _

/-- **C35, negation (general form).** Once `compute_J` has returned, and until something resets the flag, `compute_J` returns that same value for every simulation passed to it and
after every edit of the optimisation's own simulation. -/
theorem C35_cache_ignores_argument (env : Env) (o : Opt Nx Ny) (other : Option (Sim Nx Ny)) (v : ℝ) (hv : (Opt.compute_J env o other).1 = .ok v) (hne : o.objective.arg_list ≠ []) :
    ∀ (edit : Sim Nx Ny) (other' : Option (Sim Nx Ny)), (Opt.compute_J env { (Opt.compute_J env o other).2.1 with simulation := edit } other').1 = .ok v := by
  intro edit other'
  have hk := OptKeep.compute_J env o other
  have key : (Opt.compute_J env o other).2.1.fields_current = true ∧ (((Opt.compute_J env o other).2.1.field_arg_list.getD []).isEmpty = false) ∧
      o.objective.J.call ((Opt.compute_J env o other).2.1.field_arg_list.getD []) = .ok v := by
    unfold Opt.compute_J at hv ⊢
    unfold Opt.solveArgFields at hv ⊢
    by_cases hc : o.fields_current = false ∨ (o.field_arg_list.getD []).isEmpty
    · rw [if_pos hc] at hv ⊢
      generalize Opt.solveAll env o.objective.isLinear (o.target other) = R at hv ⊢
      obtain ⟨e | u, s1⟩ := R
      · cases hv
      · simp only at hv ⊢
        rcases hco : Opt.collect s1 o.objective.arg_list with e | fs
        · rw [hco] at hv; cases hv
        · rw [hco] at hv
          refine ⟨rfl, ?_, hv⟩
          have hl : fs ≠ [] := by
            intro h0
            rw [h0] at hco
            obtain ⟨a, l, hal⟩ := List.exists_cons_of_ne_nil hne
            rw [hal, Opt.collect] at hco
            generalize (if a.nl then s1.fields_nl a.component else s1.fields a.component) = F at hco
            rcases F with _ | f
            · cases hco
            · simp only at hco
              generalize Opt.collect s1 l = C at hco
              rcases C with e | fs'
              · cases hco
              · cases hco
          simpa using hl
    · rw [if_neg hc] at hv ⊢
      rw [not_or] at hc
      exact ⟨by simpa using hc.1, by simpa using hc.2, hv⟩
  obtain ⟨k1, k2, k3⟩ := key
  have hob : (Opt.compute_J env o other).2.1.objective = o.objective := hk.1.objective
  generalize Opt.compute_J env o other = R at k1 k2 k3 hob ⊢
  unfold Opt.compute_J Opt.solveArgFields
  rw [if_neg (by rw [not_or]; exact ⟨by simp [k1], by simp [k2]⟩)]
  simp only [hob]
  exact k3

/-- **C35, negation (concrete).** On a witness with a solver that is exact: after `compute_J` the user sets the source to zero.  The objective (field intensity) is now 0, but
`compute_J` returns the old, positive value. -/
theorem C35_false (env : Env) (he : env.Exact) (hx : 1 < Nx) (hy : 1 < Ny) : ∃ (o : Opt Nx Ny) (v : ℝ),
    let o' := (Opt.compute_J env o).2.1
    let o2 := { o' with simulation := { o'.simulation with src := fun _ _ => 0 } }
    (Opt.compute_J env o).1 = .ok v ∧ (Opt.compute_J env o2).1 = .ok v ∧ (Opt.compute_J env { o2 with fields_current := false }).1 = .ok 0 ∧ 0 < v := by
  let o : Opt Nx Ny := gopt 1 (fun _ _ => 1) (Objective.mk' (intensityJ Nx Ny) [⟨.Ez, false, .linear_Ez⟩]) (fun _ _ => 1) 1
  have hL : ∀ s : Sim Nx Ny, s.pol = .Ez → Spec.LinearObjective o (intensityJ Nx Ny) [⟨.Ez, false, .linear_Ez⟩] s := fun s hs => {
    obj := rfl
    lin := by
      intro a ha
      rw [List.mem_singleton] at ha
      rw [ha]
    comps := by
      intro a ha
      rw [List.mem_singleton] at ha
      rw [ha, hs]
      trivial }
  have hlen : ([⟨.Ez, false, .linear_Ez⟩] : List ObjArg).length = (intensityJ Nx Ny).arity := rfl
  have h1 := C35_fresh_partial env o none _ _ (hL _ rfl) hlen rfl
  have hval : ∀ s : Sim Nx Ny, s.pol = .Ez → Spec.freshJ env (intensityJ Nx Ny) [⟨.Ez, false, .linear_Ez⟩] hlen s =
      ∑ i, ∑ j, (((solver_direct env s.A s.rhs) (finProdFinEquiv (i, j))).re ^ 2 + ((solver_direct env s.A s.rhs) (finProdFinEquiv (i, j))).im ^ 2) := by
    intro s hs
    have : ∀ i j, Spec.freshField env s .Ez i j = (solver_direct env s.A s.rhs) (finProdFinEquiv (i, j)) := by
      intro i j
      unfold Spec.freshField Sim.solve_fields
      rw [if_pos rfl]
      simp only [hs, Sim.store, Sim.in_plane, Option.getD_some]
      rfl
    show ∑ i, ∑ j, ((Spec.freshField env s .Ez i j).re ^ 2 + (Spec.freshField env s .Ez i j).im ^ 2) = _
    simp only [this]
  refine ⟨o, _, h1, C35_cache_ignores_argument env o none _ h1 (List.cons_ne_nil _ _) _ _, ?_, ?_⟩
  · have hk := OptKeep.compute_J env o none
    have hpol : (Opt.compute_J env o).2.1.simulation.pol = .Ez := hk.1.sim.pol
    have hob : (Opt.compute_J env o).2.1.objective = o.objective := hk.1.objective
    generalize (Opt.compute_J env o).2.1 = o' at hpol hob ⊢
    have h2 := C35_fresh_partial env { o' with simulation := { o'.simulation with src := fun _ _ => 0 }, fields_current := false } none (intensityJ Nx Ny) [⟨.Ez, false, .linear_Ez⟩]
      ⟨by show Objective.init _ _ = .ok o'.objective; rw [hob]; rfl, (hL o.simulation rfl).lin, (hL _ hpol).comps⟩ hlen rfl
    rw [h2]
    congr 1
    show Spec.freshJ env (intensityJ Nx Ny) [⟨.Ez, false, .linear_Ez⟩] hlen ({ o'.simulation with src := fun _ _ => 0 } : Sim Nx Ny) = 0
    rw [hval ({ o'.simulation with src := fun _ _ => 0 } : Sim Nx Ny) hpol]
    have hz : ({ o'.simulation with src := fun _ _ => 0 } : Sim Nx Ny).rhs = 0 := by
      funext k
      simp [Sim.rhs, flatten]
    have hz' : solver_direct env o'.simulation.A ({ o'.simulation with src := fun _ _ => 0 } : Sim Nx Ny).rhs = 0 := by
      unfold solver_direct
      rw [if_pos hz]
    refine Finset.sum_eq_zero fun i _ => Finset.sum_eq_zero fun j _ => ?_
    show ((solver_direct env o'.simulation.A ({ o'.simulation with src := fun _ _ => 0 } : Sim Nx Ny).rhs) (finProdFinEquiv (i, j))).re ^ 2 +
      ((solver_direct env o'.simulation.A ({ o'.simulation with src := fun _ _ => 0 } : Sim Nx Ny).rhs) (finProdFinEquiv (i, j))).im ^ 2 = 0
    rw [hz']
    simp
  · show 0 < Spec.freshJ env (intensityJ Nx Ny) [⟨.Ez, false, .linear_Ez⟩] hlen (gsim Nx Ny 1 fun _ _ => 1)
    rw [hval _ rfl]
    have hnn : ∀ (x : Vec (Nx * Ny) ℂ), 0 ≤ ∑ i, ∑ j, ((x (finProdFinEquiv (i, j))).re ^ 2 + (x (finProdFinEquiv (i, j))).im ^ 2) := fun x =>
      Finset.sum_nonneg fun i _ => Finset.sum_nonneg fun j _ => by positivity
    refine lt_of_le_of_ne (hnn _) fun h0 => ?_
    have hzero : solver_direct env (gsim Nx Ny 1 fun _ _ => 1).A (gsim Nx Ny 1 fun _ _ => 1).rhs = 0 := by
      funext k
      obtain ⟨⟨i, j⟩, rfl⟩ := finProdFinEquiv.surjective k
      have h1 := (Finset.sum_eq_zero_iff_of_nonneg (fun i _ => Finset.sum_nonneg fun j _ => by positivity)).1 h0.symm i (Finset.mem_univ i)
      have h2 := (Finset.sum_eq_zero_iff_of_nonneg (fun j _ => by positivity)).1 h1 j (Finset.mem_univ j)
      apply Complex.ext
      · show _ = (0 : ℂ).re
        rw [Complex.zero_re]
        nlinarith [sq_nonneg ((solver_direct env (gsim Nx Ny 1 fun _ _ => 1).A (gsim Nx Ny 1 fun _ _ => 1).rhs (finProdFinEquiv (i, j))).im),
          sq_nonneg ((solver_direct env (gsim Nx Ny 1 fun _ _ => 1).A (gsim Nx Ny 1 fun _ _ => 1).rhs (finProdFinEquiv (i, j))).re)]
      · show _ = (0 : ℂ).im
        rw [Complex.zero_im]
        nlinarith [sq_nonneg ((solver_direct env (gsim Nx Ny 1 fun _ _ => 1).A (gsim Nx Ny 1 fun _ _ => 1).rhs (finProdFinEquiv (i, j))).im),
          sq_nonneg ((solver_direct env (gsim Nx Ny 1 fun _ _ => 1).A (gsim Nx Ny 1 fun _ _ => 1).rhs (finProdFinEquiv (i, j))).re)]
    have hrhs : (gsim Nx Ny 1 fun _ _ => 1).rhs (finProdFinEquiv (⟨0, by omega⟩, ⟨0, by omega⟩)) ≠ 0 := by
      simp [Sim.rhs, gsim, flatten]
    have hb : (gsim Nx Ny 1 fun _ _ => 1).rhs ≠ 0 := fun h => hrhs (by rw [h]; rfl)
    have hsol : (gsim Nx Ny 1 fun _ _ => 1).A *ᵥ solver_direct env (gsim Nx Ny 1 fun _ _ => 1).A (gsim Nx Ny 1 fun _ _ => 1).rhs = (gsim Nx Ny 1 fun _ _ => 1).rhs := by
      unfold solver_direct
      rw [if_neg hb]
      exact he.solveC_spec _ _ (gsim_det hx hy 1 _)
    rw [hzero, Matrix.mulVec_zero] at hsol
    exact hb hsol.symm

/-! ### Repeated calls -/

/-- A call of `compute_J` or `compute_dJ` on the optimisation's own simulation. -/
inductive SelfCall
  | J
  | dJ

/-- The state after the call. -/
noncomputable def SelfCall.exec (env : Env) (o : Opt Nx Ny) : SelfCall → Opt Nx Ny
  | .J => (Opt.compute_J env o).2.1
  | .dJ => (Opt.compute_dJ env o).2.1

theorem dJLoop_cache (env : Env) {k : ℕ} (l : List (GradFn × Fin k × ObjArg)) (dJ : (d : Fin k) → Except PyErr (Grid Nx Ny ℂ)) (o : Opt Nx Ny)
    (other : Option (Sim Nx Ny)) (acc : Grid Nx Ny ℝ) :
    (Opt.dJLoop env l dJ o other acc).2.1.field_arg_list = o.field_arg_list ∧ (Opt.dJLoop env l dJ o other acc).2.1.fields_current = o.fields_current := by
  induction l generalizing o acc with
  | nil => exact ⟨rfl, rfl⟩
  | cons q l ih =>
    obtain ⟨g, d, a⟩ := q
    unfold Opt.dJLoop
    simp only
    generalize (if a.nl then (o.target other).fields_nl (o.target other).pol.comp else (o.target other).fields (o.target other).pol.comp) = F
    rcases F with _ | Fz
    · exact ⟨rfl, rfl⟩
    · simp only
      rcases dJ d with e | p
      · exact ⟨rfl, rfl⟩
      · simp only
        generalize Opt.gradFn env o g p Fz = R
        obtain ⟨e | gr, s1⟩ := R
        · exact ⟨rfl, rfl⟩
        · exact ih { o with simulation := s1 } _

theorem freshField_congr (env : Env) {s s' : Sim Nx Ny} (h : SimKeep s s') (c : Comp) (hc : Spec.belongs s.pol c) : Spec.freshField env s' c = Spec.freshField env s c := by
  have key : ∀ (F F' : Comp → Option (Grid Nx Ny ℂ)) (t : Grid Nx Ny ℂ × Grid Nx Ny ℂ × Grid Nx Ny ℂ) (p : Pol), Spec.belongs p c → Sim.store p F t c = Sim.store p F' t c := by
    intro F F' t p hp
    obtain ⟨t1, t2, t3⟩ := t
    cases p <;> cases c <;> first | rfl | exact hp.elim
  unfold Spec.freshField
  rw [h]
  unfold Sim.solve_fields
  simp only [Bool.false_eq_true, if_false]
  exact congrArg (fun z : Option (Grid Nx Ny ℂ) => z.getD fun _ _ => 0) (key _ _ _ _ hc)


/-- The cache of `o` is empty, stale or holds the fresh fields of `o0`'s simulation, and `o` differs from `o0` at most in cache and stored fields. -/
def CacheOK (env : Env) (o0 : Opt Nx Ny) (args : List ObjArg) (o : Opt Nx Ny) : Prop :=
  OptKeep o0 o ∧ (o.fields_current = false ∨ o.field_arg_list = some (args.map fun a => Spec.freshField env o0.simulation a.component))

theorem CacheOK.solve {env : Env} {o0 o : Opt Nx Ny} {J : ObjFn Nx Ny} {args : List ObjArg} (h : Spec.LinearObjective o0 J args o0.simulation) (hc : CacheOK env o0 args o) :
    (Opt.solveArgFields env o none).1 = .ok () ∧
    (Opt.solveArgFields env o none).2.1.field_arg_list = some (args.map fun a => Spec.freshField env o0.simulation a.component) := by
  have hob : o.objective = o0.objective := hc.1.objective
  have hL : Spec.LinearObjective o J args (o.target none) := ⟨by rw [hob]; exact h.obj, h.lin, fun a ha => by
    have hp : (o.target none).pol = o0.simulation.pol := hc.1.sim.pol
    rw [hp]
    exact h.comps a ha⟩
  have hfr : (args.map fun a => Spec.freshField env (o.target none) a.component) = args.map fun a => Spec.freshField env o0.simulation a.component :=
    List.map_congr_left fun a ha => freshField_congr env hc.1.sim a.component (h.comps a ha)
  by_cases hcur : o.fields_current = false ∨ (o.field_arg_list.getD []).isEmpty
  · rw [solveArgFields_stale env o none J args hL hcur]
    exact ⟨rfl, congrArg some hfr⟩
  · unfold Opt.solveArgFields
    rw [if_neg hcur]
    rw [not_or] at hcur
    exact ⟨rfl, hc.2.resolve_left hcur.1⟩

theorem CacheOK.exec {env : Env} {o0 o : Opt Nx Ny} {J : ObjFn Nx Ny} {args : List ObjArg} (h : Spec.LinearObjective o0 J args o0.simulation) (hc : CacheOK env o0 args o)
    (c : SelfCall) : CacheOK env o0 args (c.exec env o) := by
  have hs := hc.solve h
  cases c with
  | J =>
    refine ⟨hc.1.trans (OptKeep.compute_J env o none).1, Or.inr ?_⟩
    show (Opt.compute_J env o).2.1.field_arg_list = _
    unfold Opt.compute_J
    generalize Opt.solveArgFields env o none = R at hs ⊢
    obtain ⟨e | u, r⟩ := R
    · cases hs.1
    · exact hs.2
  | dJ =>
    refine ⟨hc.1.trans (OptKeep.compute_dJ env o none), Or.inr ?_⟩
    show (Opt.compute_dJ env o).2.1.field_arg_list = _
    unfold Opt.compute_dJ
    generalize Opt.solveArgFields env o none = R at hs ⊢
    obtain ⟨e | u, r, r'⟩ := R
    · cases hs.1
    · exact (dJLoop_cache env _ _ _ _ _).1.trans hs.2

/-- **C35 (partial), repeated calls.** With a linear objective, after any sequence of `compute_J` and `compute_dJ` calls on the optimisation's own simulation, `compute_J` still
is `J` of the freshly solved fields.  Missing: edits of the simulation between the calls, and calls with another simulation, where it fails. -/
theorem C35_repeated_partial (env : Env) (o : Opt Nx Ny) (J : ObjFn Nx Ny) (args : List ObjArg) (h : Spec.LinearObjective o J args o.simulation)
    (hlen : args.length = J.arity) (hcur : o.fields_current = false) (calls : List SelfCall) :
    (Opt.compute_J env (calls.foldl (SelfCall.exec env) o)).1 = .ok (Spec.freshJ env J args hlen o.simulation) := by
  have hc : CacheOK env o args (calls.foldl (SelfCall.exec env) o) := by
    have : ∀ (o' : Opt Nx Ny), CacheOK env o args o' → CacheOK env o args (calls.foldl (SelfCall.exec env) o') := by
      induction calls with
      | nil => exact fun _ h => h
      | cons c l ih => exact fun o' h' => ih _ (h'.exec h c)
    exact this o ⟨OptKeep.refl o, Or.inl hcur⟩
  have hs := hc.solve h
  have hJ : (calls.foldl (SelfCall.exec env) o).objective.J = J := by
    rw [hc.1.objective, (objective_init_ok h.obj).2]
    rfl
  generalize calls.foldl (SelfCall.exec env) o = o' at hs hJ ⊢
  unfold Opt.compute_J
  generalize Opt.solveArgFields env o' none = R at hs ⊢
  obtain ⟨e | u, r⟩ := R
  · cases hs.1
  · simp only [hJ]
    rw [hs.2]
    exact call_fresh env J args hlen _

/-- The hypotheses are met by an optimisation of the intensity of `Ez`. -/
example (env : Env) : ∃ v, (Opt.compute_J env ([SelfCall.J, .dJ, .J, .J].foldl (SelfCall.exec env)
    (gopt 1 (fun _ _ => 1) (Objective.mk' (intensityJ 4 4) [⟨.Ez, false, .linear_Ez⟩]) (fun _ _ => 1) 1))).1 = .ok v :=
  ⟨_, C35_repeated_partial env _ (intensityJ 4 4) [⟨.Ez, false, .linear_Ez⟩] ⟨rfl, by
      intro a ha
      rw [List.mem_singleton] at ha
      rw [ha], by
      intro a ha
      rw [List.mem_singleton] at ha
      rw [ha]
      trivial⟩ rfl rfl _⟩

end Angler
