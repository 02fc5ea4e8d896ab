import Verif.Props.History

/-! # C43: the simulation that `check_deriv` leaves behind -/

namespace Angler

variable {Nx Ny : ℕ}

/-- **C43, no trace of the perturbed devices.** Whatever points `check_deriv` picks and whatever the step, the optimisation's simulation (fields, permittivity, all caches) is left exactly as if no
point had been tried; also when it raises. -/
theorem C43_check_deriv_no_trace (env : Env) (picks : List ℕ) (d : ℝ) (o : Opt Nx Ny) :
    (Opt.check_deriv env picks d o).2.simulation = (Opt.check_deriv env [] 0 o).2.simulation := by
  unfold Opt.check_deriv
  rcases o.simulation.rho with _ | _ | rho
  · rfl
  · rfl
  · simp only
    generalize Opt.dJ_self env { Opt.putRho o rho with fields_current := false } = R
    obtain ⟨e | g, o2⟩ := R
    · rfl
    · simp only [pySeq]
      generalize Opt.J_self env o2 = R
      obtain ⟨e | J, o3⟩ := R
      · rfl
      · exact (checkPts_keep env g J d picks o3).2

theorem gradFn_fields (env : Env) (o : Opt Nx Ny) (g : GradFn) (p Fz : Grid Nx Ny ℂ) : (Opt.gradFn env o g p Fz).2.fields = o.simulation.fields := by
  cases g <;> try rfl
  show (Opt.grad_kerr_Ez env o p Fz).2.fields = _
  unfold Opt.grad_kerr_Ez
  rcases adjoint_kerr_Ez env o.simulation (fun i j => -p i j) with e | a
  · rfl
  · simp only
    rcases Opt.getRho (o.simulation.compute_nl Fz) with e | r <;> rfl

theorem dJLoop_fields (env : Env) {k : ℕ} (l : List (GradFn × Fin k × ObjArg)) (dJ : (d : Fin k) → Except PyErr (Grid Nx Ny ℂ)) (o : Opt Nx Ny)
    (other : Option (Sim Nx Ny)) (acc : Grid Nx Ny ℝ) : (Opt.dJLoop env l dJ o other acc).2.1.simulation.fields = o.simulation.fields := by
  induction l generalizing o acc with
  | nil => rfl
  | cons q l ih =>
    obtain ⟨g, d, a⟩ := q
    unfold Opt.dJLoop
    simp only
    generalize (if a.nl then (o.target other).fields_nl (o.target other).pol.comp else (o.target other).fields (o.target other).pol.comp) = F
    rcases F with _ | Fz
    · rfl
    · simp only
      rcases dJ d with e | p
      · rfl
      · simp only
        have hg := gradFn_fields env o g p Fz
        generalize Opt.gradFn env o g p Fz = R at hg ⊢
        obtain ⟨e | gr, s1⟩ := R
        · exact hg
        · exact (ih { o with simulation := s1 } _).trans hg

theorem solve_fields_stored (env : Env) (s : Sim Nx Ny) : ∃ t s1 f, s.solve_fields env = (.ok t, s1) ∧ s1.fields s1.pol.comp = some f := by
  have h : ∃ f, (s.solve_fields env).2.fields (s.solve_fields env).2.pol.comp = some f := by
    show ∃ f, Sim.store s.pol s.fields _ s.pol.comp = some f
    rcases s.pol with _ | _ <;> exact ⟨_, rfl⟩
  obtain ⟨f, hf⟩ := h
  exact ⟨_, _, f, rfl, hf⟩

/-- The linear fields after the solves of an evaluation of the objective. -/
theorem solveAll_fields (env : Env) (lin : Bool) (s : Sim Nx Ny) : (Opt.solveAll env lin s).2.fields = (s.solve_fields env).2.fields := by
  obtain ⟨t, s1, f, h1, h2⟩ := solve_fields_stored env s
  unfold Opt.solveAll
  rw [h1]
  simp only
  cases lin with
  | true => rfl
  | false =>
    have h3 := solve_nl_linear_fields env s1 none .hybrid 1e-10 50 f h2
    generalize solve_fields_nl env s1 = R at h3 ⊢
    obtain ⟨e | r, s2⟩ := R <;> exact h3

theorem collect_length {s : Sim Nx Ny} {l : List ObjArg} {fs : List (Grid Nx Ny ℂ)} (h : Opt.collect s l = .ok fs) : fs.length = l.length := by
  induction l generalizing fs with
  | nil => cases h; rfl
  | cons a l ih =>
    unfold Opt.collect at h
    generalize (if a.nl = true then s.fields_nl a.component else s.fields a.component) = F at h
    rcases F with _ | f
    · cases h
    · rcases hc : Opt.collect s l with e | gs
      · rw [hc] at h; cases h
      · rw [hc] at h; cases h
        rw [List.length_cons, List.length_cons, ih hc]

theorem solveArgFields_fields (env : Env) (o : Opt Nx Ny) (hcur : o.fields_current = false) :
    (Opt.solveArgFields env o none).2.1.simulation.fields = (o.simulation.solve_fields env).2.fields ∧
    ((Opt.solveArgFields env o none).1 = .ok () → (Opt.solveArgFields env o none).2.1.fields_current = true ∧
      ∃ fs, (Opt.solveArgFields env o none).2.1.field_arg_list = some fs ∧ fs.length = o.objective.arg_list.length) := by
  unfold Opt.solveArgFields
  rw [if_pos (Or.inl hcur)]
  have h := solveAll_fields env o.objective.isLinear o.simulation
  show _ ∧ _
  rw [show o.target none = o.simulation from rfl]
  generalize Opt.solveAll env o.objective.isLinear o.simulation = R at h ⊢
  obtain ⟨e | u, s1⟩ := R
  · exact ⟨h, fun hc => by cases hc⟩
  · simp only
    rcases hc : Opt.collect s1 o.objective.arg_list with e | fs
    · exact ⟨h, fun hc => by cases hc⟩
    · exact ⟨h, fun _ => ⟨rfl, fs, rfl, collect_length hc⟩⟩

/-- **C43, the fields after `check_deriv`.** They are those of the device with the re-projected density, solved once: the optimisation's simulation is solved after the re-projection and not touched
again, for every objective with at least one argument (linear or not), every choice of points and step, and also when an exception ends the check. -/
theorem C43_check_deriv_fields (env : Env) (picks : List ℕ) (d : ℝ) (o : Opt Nx Ny) (rho : Grid Nx Ny ℝ) (hr : o.simulation.rho = some (some rho)) (hne : o.objective.arg_list ≠ []) :
    (Opt.check_deriv env picks d o).2.simulation.fields =
      ((o.simulation.set_eps_r fun i j => ((rho2eps rho o.eps_m o.W o.eta o.beta i j : ℝ) : ℂ)).solve_fields env).2.fields := by
  rw [C43_check_deriv_no_trace]
  set o1 : Opt Nx Ny := { Opt.putRho o rho with fields_current := false } with ho1
  have hsol : ((o.simulation.set_eps_r fun i j => ((rho2eps rho o.eps_m o.W o.eta o.beta i j : ℝ) : ℂ)).solve_fields env).2.fields = (o1.simulation.solve_fields env).2.fields := rfl
  rw [hsol]
  unfold Opt.check_deriv
  rw [hr]
  simp only
  rw [← ho1]
  obtain ⟨h1, h2⟩ := solveArgFields_fields env o1 rfl
  have hdJ : (Opt.dJ_self env o1).2.simulation.fields = (o1.simulation.solve_fields env).2.fields ∧
      (∀ g, (Opt.dJ_self env o1).1 = .ok g → (Opt.dJ_self env o1).2.fields_current = true ∧ ((Opt.dJ_self env o1).2.field_arg_list.getD []).isEmpty = false) := by
    unfold Opt.dJ_self Opt.compute_dJ
    generalize Opt.solveArgFields env o1 none = R at h1 h2 ⊢
    obtain ⟨e | u, o2, other⟩ := R
    · exact ⟨h1, fun g hc => by cases hc⟩
    · simp only at h1 h2 ⊢
      refine ⟨(dJLoop_fields env _ _ o2 other _).trans h1, fun g _ => ?_⟩
      obtain ⟨hc, fs, hfs, hl⟩ := h2 trivial
      have hk := dJLoop_cache env (o1.objective.grad_fn_list.zip (o1.objective.dJ_list.zip o1.objective.arg_list)) (fun d => o1.objective.J.callGrad d (o2.field_arg_list.getD [])) o2 other
        fun _ _ => 0
      rw [hk.1, hk.2]
      refine ⟨hc, ?_⟩
      rw [hfs]
      rcases fs with _ | ⟨f, fs⟩
      · exact absurd (List.length_eq_zero_iff.1 hl.symm) hne
      · rfl
  obtain ⟨h3, h4⟩ := hdJ
  generalize Opt.dJ_self env o1 = R at h3 h4 ⊢
  obtain ⟨e | g, o2⟩ := R
  · exact h3
  · simp only [pySeq]
    have h5 : (Opt.J_self env o2).2.simulation = o2.simulation := by
      obtain ⟨h6, h7⟩ := h4 g rfl
      unfold Opt.J_self Opt.compute_J Opt.solveArgFields
      rw [if_neg (by rw [h6, h7]; simp)]
    generalize Opt.J_self env o2 = R at h5 ⊢
    obtain ⟨e | J, o3⟩ := R <;> exact (congrArg Sim.fields h5).trans h3

/-- So the stored fields are in general not those from before: on a device that has not been solved yet, `check_deriv` leaves the fields of the re-projected device behind. -/
example (env : Env) : let o := ropt (Nx := 3) (Ny := 3) (fun _ _ => 1) (fun _ _ => 1) (fun _ _ => 0) (fun _ _ => 1) 1
    o.simulation.fields .Ez = none ∧ ∃ f, (Opt.check_deriv env [0, 3, 7] 1e-3 o).2.simulation.fields .Ez = some f := by
  intro o
  refine ⟨rfl, ?_⟩
  rw [C43_check_deriv_fields env [0, 3, 7] 1e-3 o (fun _ _ => 0) rfl (by simp [o, ropt, gopt, Objective.mk'])]
  exact ⟨_, rfl⟩

end Angler
