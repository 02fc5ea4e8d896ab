import Verif.Lemmas.RunInv
import Verif.Props.Objective

/-! # Optimisations on which gradient descent runs to the end -/

namespace Angler

variable {Nx Ny : ℕ}

/-- A linear objective of components of the right polarisation, densities present, no source control. -/
structure Runnable (o : Opt Nx Ny) (J : ObjFn Nx Ny) (args : List ObjArg) : Prop where
  obj : Objective.init J args = .ok o.objective
  kinds : ∀ a ∈ args, ∃ name, ObjArg.init name false = .ok a
  belongs : ∀ a ∈ args, Spec.belongs o.simulation.pol a.component
  stale : o.fields_current = false
  noShift : o.max_ind_shift = none
  clean : ∀ c, ¬ Spec.belongs o.simulation.pol c → o.simulation.fields c = none

theorem Runnable.lin {o : Opt Nx Ny} {J : ObjFn Nx Ny} {args : List ObjArg} (h : Runnable o J args) : ∀ a ∈ args, a.nl = false := by
  intro a ha
  obtain ⟨name, hn⟩ := h.kinds a ha
  exact ((C34_obj_arg name false).1 a hn).2.1

/-- `compute_J` keeps the absence of other components, for linear objectives. -/
theorem J_self_clean (env : Env) {o : Opt Nx Ny} {J : ObjFn Nx Ny} {args : List ObjArg} (h : Runnable o J args) :
    (∃ v, (Opt.J_self env o).1 = .ok v) ∧ ∀ c, ¬ Spec.belongs o.simulation.pol c → (Opt.J_self env o).2.simulation.fields c = none := by
  have hJ := (C34_compute_J_linear_iff env o none J args h.obj h.stale h.lin h.clean).1.2 h.belongs
  refine ⟨hJ, ?_⟩
  intro c hc
  obtain ⟨hlen, hob⟩ := objective_init_ok h.obj
  have harg : o.objective.arg_list = args := by rw [hob]; rfl
  have hl : o.objective.isLinear = true := (isLinear_iff _).2 (harg ▸ h.lin)
  obtain ⟨s1, hs1⟩ := solveAll_linear env o.simulation
  have hS := solveAll_ok env true _ s1 hs1
  have h0 : s1.fields c = none := ((hS.other c hc).1).trans (h.clean c hc)
  show (Opt.compute_J env o).2.1.simulation.fields c = none
  unfold Opt.compute_J Opt.solveArgFields
  rw [if_pos (Or.inl h.stale), hl]
  simp only [Opt.target, Option.getD_none, hs1]
  rcases Opt.collect s1 o.objective.arg_list with e | fs <;> exact h0

/-- One iteration up to the gradient succeeds, and any density update after it leads to a runnable state. -/
theorem Runnable.iteration (env : Env) {o : Opt Nx Ny} {J : ObjFn Nx Ny} {args : List ObjArg} (h : Runnable o J args) {rho : Grid Nx Ny ℝ}
    (hr : o.simulation.rho = some (some rho)) :
    ∃ (v : ℝ) (o1 o2 o3 : Opt Nx Ny) (g : Grid Nx Ny ℝ), Opt.J_self env o = (.ok v, o1) ∧
      Opt.set_source_amplitude env { o1 with objfn_list := o1.objfn_list ++ [v] } = (.ok (), o2) ∧ Opt.dJ_self env o2 = (.ok g, o3) ∧
      ∀ (d : Grid Nx Ny ℝ) (st : ℝ), ∃ o', Opt.update_rho o3 d st = (.ok (), o') ∧ Runnable o' J args ∧
        o'.simulation.rho = some (some fun i j => Opt.clip01 (rho i j + o.design_region i j * st * d i j)) ∧
        o'.simulation.eps_r = (fun i j => ((rho2eps (fun i j => Opt.clip01 (rho i j + o.design_region i j * st * d i j)) o.eps_m o.W o.eta o.beta i j : ℝ) : ℂ)) := by
  obtain ⟨⟨v, hv⟩, hcl⟩ := J_self_clean env h
  have hk1 := OptKeep.J_self env o
  rcases hq1 : Opt.J_self env o with ⟨r1, o1⟩
  rw [hq1] at hv hcl hk1
  simp only at hv hcl hk1
  subst hv
  -- after the source bookkeeping
  let o2 : Opt Nx Ny := { o1 with objfn_list := o1.objfn_list ++ [v], src_amplitudes := o1.src_amplitudes ++ [gridMax fun i j => ‖o1.simulation.src i j‖], fields_current := false }
  have hq2 : Opt.set_source_amplitude env { o1 with objfn_list := o1.objfn_list ++ [v] } = (.ok (), o2) := by
    unfold Opt.set_source_amplitude
    have hn : o1.max_ind_shift = none := hk1.max_ind_shift.trans h.noShift
    simp only [hn, o2]
  have h2 : Runnable o2 J args := by
    refine ⟨?_, h.kinds, ?_, rfl, ?_, ?_⟩
    · show Objective.init J args = .ok o1.objective
      rw [hk1.objective]; exact h.obj
    · show ∀ a ∈ args, Spec.belongs o1.simulation.pol a.component
      rw [hk1.sim.pol]; exact h.belongs
    · show o1.max_ind_shift = none
      rw [hk1.max_ind_shift]; exact h.noShift
    · show ∀ c, ¬ Spec.belongs o1.simulation.pol c → o1.simulation.fields c = none
      rw [hk1.sim.pol]; exact hcl
  have hr2 : o2.simulation.rho = some (some rho) := hk1.sim.rho.trans hr
  have hJ2 := (C34_compute_J_linear_iff env o2 none J args h2.obj h2.stale h2.lin h2.clean).1.2 h2.belongs
  obtain ⟨g, hg⟩ := C34_gradient_supported_partial env o2 J args h2.obj h2.stale rho hr2 (fun a ha => by
    obtain ⟨name, hn⟩ := h.kinds a ha
    exact ⟨name, false, hn, fun hx => absurd hx (by decide)⟩) hJ2
  have hk3 := OptKeep.dJ_self env o2
  rcases hq3 : Opt.dJ_self env o2 with ⟨r3, o3⟩
  rw [hq3] at hk3
  have hg3 : r3 = .ok g := by
    have : (Opt.dJ_self env o2).1 = .ok g := hg
    rw [hq3] at this
    exact this
  subst hg3
  simp only at hk3
  have hr3 : o3.simulation.rho = some (some rho) := hk3.sim.rho.trans hr2
  have hd3 : o3.design_region = o.design_region := hk3.design.trans hk1.design
  have hW3 : o3.W = o.W := hk3.W.trans hk1.W
  have hm3 : o3.eps_m = o.eps_m := hk3.eps_m.trans hk1.eps_m
  have he3 : o3.eta = o.eta := hk3.eta.trans hk1.eta
  have hb3 : o3.beta = o.beta := hk3.beta.trans hk1.beta
  refine ⟨v, o1, o2, o3, g, rfl, hq2, hq3, fun d st => ?_⟩
  let rho' : Grid Nx Ny ℝ := fun i j => Opt.clip01 (rho i j + o3.design_region i j * st * d i j)
  refine ⟨{ Opt.putRho o3 rho' with fields_current := false }, ?_, ?_, ?_, ?_⟩
  · unfold Opt.update_rho
    rw [hr3]
  · refine ⟨?_, h.kinds, ?_, rfl, ?_, fun _ _ => rfl⟩
    · show Objective.init J args = .ok o3.objective
      rw [hk3.objective]; exact h2.obj
    · show ∀ a ∈ args, Spec.belongs o3.simulation.pol a.component
      rw [hk3.sim.pol]; exact h2.belongs
    · show o3.max_ind_shift = none
      rw [hk3.max_ind_shift]; exact h2.noShift
  · show some (some rho') = _
    simp only [rho', hd3]
  · show (fun i j => ((rho2eps rho' o3.eps_m o3.W o3.eta o3.beta i j : ℝ) : ℂ)) = _
    simp only [rho', hd3, hW3, hm3, he3, hb3]

theorem Runnable.stepGD (env : Env) {o : Opt Nx Ny} {J : ObjFn Nx Ny} {args : List ObjArg} (h : Runnable o J args) {rho : Grid Nx Ny ℝ}
    (hr : o.simulation.rho = some (some rho)) (st : ℝ) :
    ∃ (o' : Opt Nx Ny) (g : Grid Nx Ny ℝ), Opt.stepGD env st o = (.ok (), o') ∧ Runnable o' J args ∧
      o'.simulation.rho = some (some fun i j => Opt.clip01 (rho i j + o.design_region i j * st * g i j)) ∧
      o'.simulation.eps_r = (fun i j => ((rho2eps (fun i j => Opt.clip01 (rho i j + o.design_region i j * st * g i j)) o.eps_m o.W o.eta o.beta i j : ℝ) : ℂ)) := by
  obtain ⟨v, o1, o2, o3, g, hq1, hq2, hq3, hup⟩ := h.iteration env hr
  obtain ⟨o', hu, h'⟩ := hup g st
  refine ⟨o', g, ?_, h'⟩
  unfold Opt.stepGD
  rw [hq1]
  simp only [pySeq]
  rw [hq2]
  simp only
  rw [hq3]
  exact hu

theorem Runnable.run_GD (env : Env) {o : Opt Nx Ny} {J : ObjFn Nx Ny} {args : List ObjArg} (h : Runnable o J args) {rho : Grid Nx Ny ℝ}
    (hr : o.simulation.rho = some (some rho)) (st : ℝ) (n : ℕ) : (Opt.run_GD env st n o).1 = .ok () := by
  induction n generalizing o rho with
  | zero => rfl
  | succ n ih =>
    obtain ⟨o', g, hs, h', hr', -⟩ := h.stepGD env hr st
    unfold Opt.run_GD
    rw [hs]
    exact ih h' hr'

/-- The witness simulation with a given permittivity and density. -/
noncomputable def rsim (src eps : Grid Nx Ny ℂ) (rho : Grid Nx Ny ℝ) : Sim Nx Ny :=
  { (gsim Nx Ny 1 src).set_eps_r eps with rho := some (some rho) }

/-- An optimisation (of the intensity of Ez) of the witness simulation. -/
noncomputable def ropt (src eps : Grid Nx Ny ℂ) (rho design : Grid Nx Ny ℝ) (W : Mat (Nx * Ny) ℝ) : Opt Nx Ny :=
  { gopt 1 src (Objective.mk' (intensityJ Nx Ny) [⟨.Ez, false, .linear_Ez⟩]) design W with simulation := rsim src eps rho }

theorem ropt_runnable (src eps : Grid Nx Ny ℂ) (rho design : Grid Nx Ny ℝ) (W : Mat (Nx * Ny) ℝ) :
    Runnable (ropt src eps rho design W) (intensityJ Nx Ny) [⟨.Ez, false, .linear_Ez⟩] where
  obj := rfl
  kinds := by
    intro a ha
    rw [List.mem_singleton] at ha
    exact ⟨"Ez", ha ▸ rfl⟩
  belongs := by
    intro a ha
    rw [List.mem_singleton] at ha
    rw [ha]
    trivial
  stale := rfl
  noShift := rfl
  clean := fun _ _ => rfl

end Angler
