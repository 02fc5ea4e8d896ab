import Verif.Lemmas.GradientPath
import Verif.Lemmas.OptFrame
import Verif.Lemmas.KerrBranch

/-! # Optimisations that differ only in the present density, caches and logs -/

namespace Angler

open Matrix

variable {Nx Ny : ℕ}

/-- `o'` poses the same problem as `o`: they may differ in the present density (and what derives from it), in caches and in logs. -/
structure SameProblem (o o' : Opt Nx Ny) : Prop where
  objective : o'.objective = o.objective
  W : o'.W = o.W
  design : o'.design_region = o.design_region
  eps_m : o'.eps_m = o.eps_m
  eta : o'.eta = o.eta
  beta : o'.beta = o.beta
  shift : o'.max_ind_shift = o.max_ind_shift
  omega : o'.simulation.omega = o.simulation.omega
  L0 : o'.simulation.L0 = o.simulation.L0
  NPML : o'.simulation.NPML = o.simulation.NPML
  pol : o'.simulation.pol = o.simulation.pol
  src : o'.simulation.src = o.simulation.src
  xrange : o'.simulation.xrange = o.simulation.xrange
  yrange : o'.simulation.yrange = o.simulation.yrange

namespace SameProblem
variable {o o' o'' : Opt Nx Ny}

theorem refl (o : Opt Nx Ny) : SameProblem o o := ⟨rfl, rfl, rfl, rfl, rfl, rfl, rfl, rfl, rfl, rfl, rfl, rfl, rfl, rfl⟩

theorem trans (h : SameProblem o o') (h' : SameProblem o' o'') : SameProblem o o'' :=
  ⟨h'.objective.trans h.objective, h'.W.trans h.W, h'.design.trans h.design, h'.eps_m.trans h.eps_m, h'.eta.trans h.eta, h'.beta.trans h.beta, h'.shift.trans h.shift,
    h'.omega.trans h.omega, h'.L0.trans h.L0, h'.NPML.trans h.NPML, h'.pol.trans h.pol, h'.src.trans h.src, h'.xrange.trans h.xrange, h'.yrange.trans h.yrange⟩

theorem of_keep (h : OptKeep o o') : SameProblem o o' where
  objective := h.objective
  W := h.W
  design := h.design
  eps_m := h.eps_m
  eta := h.eta
  beta := h.beta
  shift := h.max_ind_shift
  omega := h.sim.omega
  L0 := by rw [h.sim]
  NPML := by rw [h.sim]
  pol := h.sim.pol
  src := h.sim.src
  xrange := by rw [h.sim]
  yrange := by rw [h.sim]

theorem putRho (o : Opt Nx Ny) (rho : Grid Nx Ny ℝ) : SameProblem o { Opt.putRho o rho with fields_current := false } :=
  ⟨rfl, rfl, rfl, rfl, rfl, rfl, rfl, rfl, rfl, rfl, rfl, rfl, rfl, rfl⟩

theorem simAt_A (h : SameProblem o o') (rho : Grid Nx Ny ℝ) : (Spec.simAt o' rho).A = (Spec.simAt o rho).A := by
  simp only [Spec.simAt, Sim.set_eps_r, h.omega, h.xrange, h.yrange, h.NPML, h.pol, h.L0, h.eps_m, h.W, h.eta, h.beta]

theorem simAt_derivs (h : SameProblem o o') (rho : Grid Nx Ny ℝ) : (Spec.simAt o' rho).derivs = (Spec.simAt o rho).derivs := by
  simp only [Spec.simAt, Sim.set_eps_r, h.omega, h.xrange, h.yrange, h.NPML, h.pol, h.L0, h.eps_m, h.W, h.eta, h.beta]

theorem simAt_rhs (h : SameProblem o o') (rho : Grid Nx Ny ℝ) : (Spec.simAt o' rho).rhs = (Spec.simAt o rho).rhs := by
  show o'.simulation.rhs = o.simulation.rhs
  unfold Sim.rhs
  rw [h.src, h.omega]

theorem linField (h : SameProblem o o') (rho : Grid Nx Ny ℝ) (X : Vec (Nx * Ny) ℂ) (c : Comp) : linField (Spec.simAt o' rho) X c = linField (Spec.simAt o rho) X c := by
  have ho : (Spec.simAt o' rho).omega = (Spec.simAt o rho).omega := h.omega
  have hL : (Spec.simAt o' rho).L0 = (Spec.simAt o rho).L0 := h.L0
  cases c <;> simp only [Angler.linField, h.simAt_derivs, ho, hL]

theorem linObj (h : SameProblem o o') (env : Env) (J : ObjFn Nx Ny) (args : List ObjArg) (hlen : args.length = J.arity) (rho : Grid Nx Ny ℝ) :
    linObj env o' J args hlen rho = linObj env o J args hlen rho := by
  simp only [Angler.linObj, h.linField, h.simAt_A, h.simAt_rhs]

end SameProblem

theorem SimKeep.valid {s s' : Sim Nx Ny} (h : SimKeep s s') (hv : s.Valid) : s'.Valid := by
  rw [h]
  exact ⟨hv.L0_pos, hv.omega_pos, hv.xr, hv.yr, hv.A_eq, hv.derivs_eq⟩

theorem valid_putRho {o : Opt Nx Ny} (hv : o.simulation.Valid) (rho : Grid Nx Ny ℝ) : (Opt.putRho o rho).simulation.Valid := by
  have h := hv.set_eps_r fun i j => ((rho2eps rho o.eps_m o.W o.eta o.beta i j : ℝ) : ℂ)
  exact ⟨h.L0_pos, h.omega_pos, h.xr, h.yr, h.A_eq, h.derivs_eq⟩

/-- What is asked of the arguments of the objective. -/
abbrev EzArgs (args : List ObjArg) : Prop := ∀ a ∈ args, a.nl = false ∧ a.component.isEz ∧ a.gradient = gradientMap a.component a.nl

/-- The present simulation is the one of the present density. -/
theorem simAt_self {o : Opt Nx Ny} {rho : Grid Nx Ny ℝ} (hv : o.simulation.Valid) (heps : o.simulation.eps_r = fun i j => ((rho2eps rho o.eps_m o.W o.eta o.beta i j : ℝ) : ℂ)) :
    (Spec.simAt o rho).A = o.simulation.A ∧ (Spec.simAt o rho).rhs = o.simulation.rhs :=
  ⟨by rw [hv.A_eq, heps]; rfl, rfl⟩

/-- The value of the objective of the optimisation's own simulation. -/
theorem J_self_linObj (env : Env) {o : Opt Nx Ny} {J : ObjFn Nx Ny} {args : List ObjArg} {rho : Grid Nx Ny ℝ} (hobj : o.objective = Objective.mk' J args)
    (hv : o.simulation.Valid) (hp : o.simulation.pol = .Ez) (hcur : o.fields_current = false)
    (heps : o.simulation.eps_r = fun i j => ((rho2eps rho o.eps_m o.W o.eta o.beta i j : ℝ) : ℂ)) (hargs : EzArgs args) (hlen : args.length = J.arity) :
    (Opt.J_self env o).1 = .ok (linObj env o J args hlen rho) := by
  obtain ⟨fl, hsol, -, -⟩ := solveArgFields_self env o J args hobj hcur (fun a ha => ⟨(hargs a ha).1, (hargs a ha).2.1⟩) hp
  obtain ⟨hA, hr⟩ := simAt_self hv heps
  show (Opt.compute_J env o none).1 = _
  unfold Opt.compute_J
  rw [hsol]
  simp only [Option.getD_some]
  rw [hobj]
  unfold linObj
  simp only [linField_simAt o hv, hA, hr]
  show J.call _ = _
  unfold ObjFn.call
  rw [dif_pos (by rw [List.length_map, hlen])]
  congr 2
  funext k
  simp

/-- The situation is the same for another state of the same problem at the same density. -/
theorem Spec.LinearEz.same {env : Env} {o o' : Opt Nx Ny} {J : ObjFn Nx Ny} {args : List ObjArg} {rho : Grid Nx Ny ℝ} (hS : Spec.LinearEz env o J args rho) (hargs : EzArgs args)
    (h : SameProblem o o') (hv : o'.simulation.Valid) (hcur : o'.fields_current = false) (hrho : o'.simulation.rho = some (some rho))
    (heps : o'.simulation.eps_r = fun i j => ((rho2eps rho o'.eps_m o'.W o'.eta o'.beta i j : ℝ) : ℂ)) : Spec.LinearEz env o' J args rho := by
  have hA : o'.simulation.A = o.simulation.A := by rw [← (simAt_self hv heps).1, h.simAt_A, (simAt_self hS.valid hS.eps).1]
  have hr : o'.simulation.rhs = o.simulation.rhs := by rw [← (simAt_self hv heps).2, h.simAt_rhs, (simAt_self hS.valid hS.eps).2]
  have hmk := (objective_init_ok hS.obj).2
  have hlin : ∀ a ∈ args, a.nl = false ∧ a.component.isEz := fun a ha => ⟨(hargs a ha).1, (hargs a ha).2.1⟩
  refine ⟨by rw [h.objective]; exact hS.obj, hv, h.pol.trans hS.pol, by rw [hA]; exact hS.det, hcur, hrho, heps, by rw [h.beta]; exact hS.beta, fun x hx => hS.autograd x fun k a hk => ?_⟩
  obtain ⟨fl, -, hfl, hflc⟩ := solveArgFields_self env o J args hmk hS.stale hlin hS.pol
  obtain ⟨fl', -, hfl', hflc'⟩ := solveArgFields_self env o' J args (h.objective.trans hmk) hcur hlin (h.pol.trans hS.pol)
  have ha : a ∈ args := List.mem_of_getElem? hk
  rw [hfl, hflc _ (hlin a ha).2, ← hx k a hk, hfl', hflc' _ (hlin a ha).2, hA, hr, ← linField_simAt o' hv rho, h.linField, linField_simAt o hS.valid]

/-- The code's gradient does not depend on caches and logs. -/
theorem compute_dJ_same {env : Env} {o o' : Opt Nx Ny} {J : ObjFn Nx Ny} {args : List ObjArg} {rho : Grid Nx Ny ℝ} (hS : Spec.LinearEz env o J args rho)
    (hS' : Spec.LinearEz env o' J args rho) (hargs : EzArgs args) (h : SameProblem o o') : (Opt.compute_dJ env o').1 = (Opt.compute_dJ env o).1 := by
  have hlen := (objective_init_ok hS.obj).1
  have hA : o'.simulation.A = o.simulation.A := by rw [← (simAt_self hS'.valid hS'.eps).1, h.simAt_A, (simAt_self hS.valid hS.eps).1]
  have hr : o'.simulation.rhs = o.simulation.rhs := by rw [← (simAt_self hS'.valid hS'.eps).2, h.simAt_rhs, (simAt_self hS.valid hS.eps).2]
  have hf : ∀ X c, linField o'.simulation X c = linField o.simulation X c := fun X c => by rw [← linField_simAt o' hS'.valid rho, h.linField, linField_simAt o hS.valid]
  have hd : o'.simulation.derivs = o.simulation.derivs := by
    rw [hS'.valid.derivs_eq, hS.valid.derivs_eq, h.omega, h.xrange, h.yrange, h.NPML, h.L0]
  have hpt : ∀ p c, linPart o'.simulation p c = linPart o.simulation p c := by
    intro p c
    cases c <;> simp only [linPart, hd, h.omega, h.L0]
  have ht : ∀ a b, Opt.tail_Ez o' rho a b = Opt.tail_Ez o rho a b := by
    intro a b
    funext i j
    rw [tail_Ez_apply, tail_Ez_apply]
    simp only [h.W, h.design, h.eps_m, h.eta, h.beta, h.omega, h.L0]
  rw [(dJ_Ez_formula env o J args rho hS hargs hlen).2, (dJ_Ez_formula env o' J args rho hS' hargs hlen).2]
  simp only [hA, hr, hf, hpt, ht]

/-- One iteration of an optimiser up to the gradient, without source control: the logged value is the objective of the present density, the gradient is the one `compute_dJ`
returns for the present state, and any density update leads to a state of the same problem. -/
theorem iteration_Ez (env : Env) {o : Opt Nx Ny} {J : ObjFn Nx Ny} {args : List ObjArg} {rho : Grid Nx Ny ℝ} (hS : Spec.LinearEz env o J args rho) (hargs : EzArgs args)
    (hlen : args.length = J.arity) (hsh : o.max_ind_shift = none) :
    ∃ (o1 o2 o3 : Opt Nx Ny) (g : Grid Nx Ny ℝ), Opt.J_self env o = (.ok (linObj env o J args hlen rho), o1) ∧
      Opt.set_source_amplitude env { o1 with objfn_list := o1.objfn_list ++ [linObj env o J args hlen rho] } = (.ok (), o2) ∧
      Opt.dJ_self env o2 = (.ok g, o3) ∧ (Opt.compute_dJ env o).1 = .ok g ∧
      ∀ (d : Grid Nx Ny ℝ) (st : ℝ), ∃ o', Opt.update_rho o3 d st = (.ok (), o') ∧ SameProblem o o' ∧ o'.simulation.Valid ∧ o'.fields_current = false ∧
        o'.objfn_list = o.objfn_list ++ [linObj env o J args hlen rho] ∧
        o'.simulation.rho = some (some fun i j => Opt.clip01 (rho i j + o.design_region i j * st * d i j)) ∧
        o'.simulation.eps_r = (fun i j => ((rho2eps (fun i j => Opt.clip01 (rho i j + o.design_region i j * st * d i j)) o'.eps_m o'.W o'.eta o'.beta i j : ℝ) : ℂ)) := by
  have hmk := (objective_init_ok hS.obj).2
  set v := linObj env o J args hlen rho with hvdef
  have hv := J_self_linObj env hmk hS.valid hS.pol hS.stale hS.eps hargs hlen
  rw [← hvdef] at hv
  have hk1 := OptKeep.J_self env o
  generalize hq1 : Opt.J_self env o = R at hv hk1
  obtain ⟨r1, o1⟩ := R
  simp only at hv hk1
  subst hv
  let o2 : Opt Nx Ny := { o1 with objfn_list := o1.objfn_list ++ [v], src_amplitudes := o1.src_amplitudes ++ [gridMax fun i j => ‖o1.simulation.src i j‖], fields_current := false }
  have hq2 : Opt.set_source_amplitude env { o1 with objfn_list := o1.objfn_list ++ [v] } = (.ok (), o2) := by
    unfold Opt.set_source_amplitude
    have hn : o1.max_ind_shift = none := hk1.max_ind_shift.trans hsh
    simp only [hn, o2]
  have hs1 := SameProblem.of_keep hk1
  have hs2 : SameProblem o o2 := ⟨hs1.objective, hs1.W, hs1.design, hs1.eps_m, hs1.eta, hs1.beta, hs1.shift, hs1.omega, hs1.L0, hs1.NPML, hs1.pol, hs1.src, hs1.xrange, hs1.yrange⟩
  have hS2 : Spec.LinearEz env o2 J args rho := by
    refine hS.same hargs hs2 (hk1.sim.valid hS.valid) rfl (hk1.sim.rho.trans hS.density) ?_
    rw [hs2.W, hs2.eps_m, hs2.eta, hs2.beta]
    exact hk1.sim.eps_r.trans hS.eps
  obtain ⟨g, hg⟩ : ∃ g, (Opt.compute_dJ env o2).1 = .ok g := ⟨_, (dJ_Ez_formula env o2 J args rho hS2 hargs hlen).2⟩
  have hk3 := OptKeep.dJ_self env o2
  have hg3 : (Opt.dJ_self env o2).1 = .ok g := hg
  generalize hq3 : Opt.dJ_self env o2 = R at hk3 hg3
  obtain ⟨r3, o3⟩ := R
  simp only at hk3 hg3
  subst hg3
  have hs3 : SameProblem o o3 := hs2.trans (SameProblem.of_keep hk3)
  have hr3 : o3.simulation.rho = some (some rho) := hk3.sim.rho.trans (hk1.sim.rho.trans hS.density)
  refine ⟨o1, o2, o3, g, rfl, hq2, hq3, by rw [← compute_dJ_same hS hS2 hargs hs2]; exact hg, fun d st => ?_⟩
  have hl3 : o3.objfn_list = o.objfn_list ++ [v] := by
    rw [hk3.objfn_list]
    show o1.objfn_list ++ [v] = _
    rw [hk1.objfn_list]
  refine ⟨{ Opt.putRho o3 (fun i j => Opt.clip01 (rho i j + o3.design_region i j * st * d i j)) with fields_current := false }, ?_, hs3.trans (SameProblem.putRho o3 _), ?_, rfl, ?_, ?_, ?_⟩
  · unfold Opt.update_rho
    rw [hr3]
  · exact valid_putRho (hk3.sim.valid (hk1.sim.valid hS.valid)) _
  · exact hl3
  · rw [← hs3.design]
    rfl
  · rw [← hs3.design]
    rfl

end Angler
