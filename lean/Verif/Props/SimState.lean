import Verif.Lemmas.Frame
import Verif.Lemmas.Witness

/-! # C17–C20: the `Simulation` state machine over all histories -/

namespace Angler

variable {Nx Ny : ℕ}

/-- The public operations on a simulation object. -/
inductive Op (Nx Ny : ℕ)
  | setEps (e : Grid Nx Ny ℂ)
  | setSrc (f : Grid Nx Ny ℂ)
  | solve (avg : Bool)
  | solveIncl (avg : Bool)
  | computeNl (e : Grid Nx Ny ℂ)
  | addNl (chi : ℝ) (region : Grid Nx Ny ℝ) (ty : String) (sc : Bool) (m : Option EpsMax)
  | solveNl (E : Option (Grid Nx Ny ℂ)) (solver : NlSolver) (thr : ℝ) (n : ℕ)
  | initDesign (design : Grid Nx Ny ℝ) (eps_m : ℝ) (style : Style) (draw : Grid Nx Ny ℝ)

/-- The state an operation leaves behind (also when it raises). -/
noncomputable def Op.run (env : Env) (s : Sim Nx Ny) : Op Nx Ny → Sim Nx Ny
  | .setEps e => s.set_eps_r e
  | .setSrc f => { s with src := f }
  | .solve avg => (s.solve_fields env false avg).2
  | .solveIncl avg => (s.solve_fields env true avg).2
  | .computeNl e => s.compute_nl e
  | .addNl chi r ty sc m => (s.add_nl chi r ty sc m).2
  | .solveNl E solver thr n => (solve_fields_nl env s E solver thr n).2
  | .initDesign d m st dr => s.init_design_region d m st dr

/-- The state after a list of operations. -/
noncomputable def runOps (env : Env) (s : Sim Nx Ny) (ops : List (Op Nx Ny)) : Sim Nx Ny := ops.foldl (Op.run env) s

/-- The polarisation string. -/
def Spec.polName : Pol → String
  | .Ez => "Ez"
  | .Hz => "Hz"

/-- The freshly constructed simulation with the parameters and the *present* permittivity of `s`, and source `f`. -/
noncomputable def Spec.fresh (s : Sim Nx Ny) (f : Grid Nx Ny ℂ) : Except PyErr (Sim Nx Ny) :=
  (Sim.init s.omega s.eps_r s.dl (.list [s.NPML.1, s.NPML.2]) (Spec.polName s.pol) s.L0).map fun t => { t with src := f }

/-- Stored linear fields are those of the present permittivity (for some source and averaging flag used when solving). -/
def Spec.FieldsCurrent (env : Env) (s : Sim Nx Ny) : Prop :=
  (∀ c, s.fields c = none) ∨
  ∃ f avg t, Spec.fresh s f = .ok t ∧ s.fields = (t.solve_fields env false avg).2.fields

/-- The components belonging to a polarisation. -/
def Spec.belongs : Pol → Comp → Prop
  | .Ez, .Hx | .Ez, .Hy | .Ez, .Ez | .Hz, .Ex | .Hz, .Ey | .Hz, .Hz => True
  | _, _ => False

theorem init_ok {omega : ℝ} {eps : Grid Nx Ny ℂ} {dl : ℝ} {NPML : Sim.NPMLArg} {pol : String} {L0 : ℝ} {s : Sim Nx Ny}
    (h : Sim.init omega eps dl NPML pol L0 = .ok s) :
    s.Valid ∧ (∀ c, s.fields c = none) ∧ (∀ c, s.fields_nl c = none) ∧ s.eps_r = eps ∧ s.src = fun _ _ => 0 := by
  unfold Sim.init at h
  rcases hc : Sim.check_inputs omega L0 NPML pol with e | ⟨np, p⟩
  · rw [hc] at h; cases h
  · rw [hc] at h
    have hpos : 0 < L0 ∧ 0 < omega := by
      by_cases h1 : 0 < L0
      swap
      · simp [Sim.check_inputs, h1] at hc
      by_cases h2 : 0 < omega
      swap
      · simp [Sim.check_inputs, h1, h2] at hc
      exact ⟨h1, h2⟩
    cases h
    exact ⟨⟨hpos.1, hpos.2, rfl, rfl, rfl, construct_A_derivs _ _ _ _ _ _ _ _⟩, fun _ => rfl, fun _ => rfl, rfl, rfl⟩

/-- The invariant carried along histories. -/
structure Inv (env : Env) (s : Sim Nx Ny) : Prop where
  valid : s.Valid
  lin : (∀ c, s.fields c = none) ∨ ∃ (f : Grid Nx Ny ℂ) (avg : Bool), s.fields = Sim.store s.pol (fun _ => none)
    (s.in_plane avg s.eps_r (solver_direct env s.A (Sim.rhs { s with src := f })))
  nl : (∀ c, s.fields_nl c = none) ∨ ∃ t, s.fields_nl = Sim.store s.pol (fun _ => none) t

theorem store_store (pol : Pol) (t t' : Grid Nx Ny ℂ × Grid Nx Ny ℂ × Grid Nx Ny ℂ) (f : Fields Nx Ny)
    (h : (∀ c, f c = none) ∨ ∃ t', f = Sim.store pol (fun _ => none) t') : Sim.store pol f t = Sim.store pol (fun _ => none) t := by
  rcases h with h | ⟨t', rfl⟩
  · rw [show f = fun _ => none from funext h]
  · funext c; cases pol <;> cases c <;> rfl

theorem Inv.solve {env : Env} {s : Sim Nx Ny} (h : Inv env s) (avg : Bool) : Inv env (s.solve_fields env false avg).2 := by
  refine ⟨⟨h.valid.L0_pos, h.valid.omega_pos, h.valid.xr, h.valid.yr, h.valid.A_eq, h.valid.derivs_eq⟩, Or.inr ⟨s.src, avg, ?_⟩, h.nl⟩
  have := store_store s.pol (s.in_plane avg s.eps_r (solver_direct env s.A s.rhs)) (0, 0, 0) s.fields
    (h.lin.imp_right fun ⟨_, _, e⟩ => ⟨_, e⟩)
  exact this

theorem Inv.frame {env : Env} {s s' : Sim Nx Ny} (h : Inv env s) (hf : Frame env s s') : Inv env s' := by
  have hs := h.solve false
  obtain ⟨hc, hf⟩ := hf
  generalize s'.fields = F, s'.eps_nl = a, s'.dnl_de = b, s'.dnl_deps = c, s'.Anl = d at hc hf
  subst hc
  rcases hf with hf | ⟨_, hf⟩
  · subst hf
    exact ⟨⟨h.valid.L0_pos, h.valid.omega_pos, h.valid.xr, h.valid.yr, h.valid.A_eq, h.valid.derivs_eq⟩, h.lin, h.nl⟩
  · subst hf
    exact ⟨⟨h.valid.L0_pos, h.valid.omega_pos, h.valid.xr, h.valid.yr, h.valid.A_eq, h.valid.derivs_eq⟩, hs.lin, hs.nl⟩

theorem Inv.setEps {env : Env} {s : Sim Nx Ny} (h : Inv env s) (e : Grid Nx Ny ℂ) : Inv env (s.set_eps_r e) :=
  ⟨⟨h.valid.L0_pos, h.valid.omega_pos, h.valid.xr, h.valid.yr, rfl, construct_A_derivs _ _ _ _ _ _ _ _⟩,
    Or.inl fun _ => rfl, Or.inl fun _ => rfl⟩

theorem Inv.run {env : Env} {s : Sim Nx Ny} (h : Inv env s) (op : Op Nx Ny) : Inv env (op.run env s) := by
  cases op with
  | setEps e => exact h.setEps e
  | setSrc f =>
    exact ⟨⟨h.valid.L0_pos, h.valid.omega_pos, h.valid.xr, h.valid.yr, h.valid.A_eq, h.valid.derivs_eq⟩, h.lin, h.nl⟩
  | solve avg => exact h.solve avg
  | solveIncl avg =>
    show Inv env (s.solve_fields env true avg).2
    rw [Frame.solve_incl]; exact h
  | computeNl e => exact h.frame (Frame.compute_nl env s e)
  | addNl chi r ty sc m =>
    simp only [Op.run, Sim.add_nl]
    cases Nonlinearity.init (chi / s.L0 ^ 2) r ty sc m with
    | error e => exact h
    | ok n => exact ⟨⟨h.valid.L0_pos, h.valid.omega_pos, h.valid.xr, h.valid.yr, h.valid.A_eq, h.valid.derivs_eq⟩, h.lin, h.nl⟩
  | solveNl E solver thr n =>
    obtain ⟨s1, hf, hr⟩ := Frame.solve_fields_nl env s E solver thr n
    have h1 := h.frame hf
    rcases hr with ⟨_, _, e⟩ | ⟨r, _, e⟩
    · show Inv env (solve_fields_nl env s E solver thr n).2
      rw [e]; exact h1
    · show Inv env (solve_fields_nl env s E solver thr n).2
      rw [e]
      exact ⟨⟨h1.valid.L0_pos, h1.valid.omega_pos, h1.valid.xr, h1.valid.yr, h1.valid.A_eq, h1.valid.derivs_eq⟩, h1.lin,
        Or.inr ⟨_, store_store s1.pol (r.Fx, r.Fy, r.Fz) (0, 0, 0) s1.fields_nl h1.nl⟩⟩
  | initDesign d m st dr =>
    simp only [Op.run, Sim.init_design_region]
    cases designEps s.eps_r d m st dr with
    | none => exact ⟨⟨h.valid.L0_pos, h.valid.omega_pos, h.valid.xr, h.valid.yr, h.valid.A_eq, h.valid.derivs_eq⟩, h.lin, h.nl⟩
    | some e =>
      have h1 := h.setEps e
      exact ⟨⟨h1.valid.L0_pos, h1.valid.omega_pos, h1.valid.xr, h1.valid.yr, h1.valid.A_eq, h1.valid.derivs_eq⟩, h1.lin, h1.nl⟩

theorem Inv.runOps {env : Env} (ops : List (Op Nx Ny)) : ∀ {s : Sim Nx Ny}, Inv env s → Inv env (runOps env s ops) := by
  induction ops with
  | nil => intro s h; exact h
  | cons op ops ih => intro s h; exact ih (h.run op)

theorem Inv.init {env : Env} {omega : ℝ} {eps : Grid Nx Ny ℂ} {dl : ℝ} {NPML : Sim.NPMLArg} {pol : String} {L0 : ℝ} {s : Sim Nx Ny}
    (h : Sim.init omega eps dl NPML pol L0 = .ok s) : Inv env s := by
  obtain ⟨h1, h2, h3, _⟩ := init_ok h
  exact ⟨h1, Or.inl h2, Or.inl h3⟩

theorem fresh_eq {s : Sim Nx Ny} (h : s.Valid) (f : Grid Nx Ny ℂ) : ∃ t, Spec.fresh s f = .ok t ∧ t.Valid ∧ t.pol = s.pol ∧ t.eps_r = s.eps_r ∧
    t.A = s.A ∧ t.derivs = s.derivs ∧ t.omega = s.omega ∧ t.L0 = s.L0 ∧ t.src = f ∧ t.fields = fun _ => none := by
  have hc : Sim.check_inputs s.omega s.L0 (.list [(s.NPML.1 : ℝ), (s.NPML.2 : ℝ)]) (Spec.polName s.pol) = .ok (((s.NPML.1 : ℝ), (s.NPML.2 : ℝ)), s.pol) := by
    simp only [Sim.check_inputs, h.L0_pos, h.omega_pos, not_true_eq_false, if_false, Nat.cast_nonneg, and_self]
    cases s.pol <;> simp [Spec.polName]
  let base : Sim Nx Ny :=
    { L0 := s.L0, omega := s.omega, dl := s.dl, NPML := (⌊(s.NPML.1 : ℝ)⌋₊, ⌊(s.NPML.2 : ℝ)⌋₊), pol := s.pol,
      xrange := (0, Nx * s.dl), yrange := (0, Ny * s.dl), src := fun _ _ => 0,
      eps_r := s.eps_r, A := 0, derivs := ⟨0, 0, 0, 0⟩, fields := fun _ => none, fields_nl := fun _ => none,
      nonlinearity := [], eps_nl := fun _ _ => 0, dnl_de := fun _ _ => 0, dnl_deps := fun _ _ => 0, Anl := none, rho := none }
  refine ⟨{ base.set_eps_r s.eps_r with src := f }, by simp only [Spec.fresh, Sim.init, hc]; rfl, ?_, rfl, rfl, ?_, ?_, rfl, rfl, rfl, rfl⟩
  · exact ⟨h.L0_pos, h.omega_pos, rfl, rfl, rfl, construct_A_derivs _ _ _ _ _ _ _ _⟩
  · rw [h.A_eq, h.xr, h.yr]
    simp [Sim.set_eps_r, base]
  · rw [h.derivs_eq, h.xr, h.yr]
    simp [Sim.set_eps_r, construct_A_derivs, base]

theorem Inv.current {env : Env} {s : Sim Nx Ny} (h : Inv env s) : Spec.FieldsCurrent env s := by
  rcases h.lin with h0 | ⟨f, avg, e⟩
  · exact Or.inl h0
  · right
    obtain ⟨t, ht, _, hp, he, hA, hd, ho, hL, hs, hf⟩ := fresh_eq h.valid f
    refine ⟨f, avg, t, ht, ?_⟩
    rw [e]
    have hr : t.rhs = Sim.rhs { s with src := f } := by
      funext k; simp only [Sim.rhs, ho, hs]
    have hi : ∀ X, t.in_plane avg t.eps_r X = s.in_plane avg s.eps_r X := by
      intro X
      simp only [Sim.in_plane, hp, hd, ho, hL, he]
    simp only [Sim.solve_fields, if_true, hf, hr, hi, hA, hp]

/-- **C17.** After any history of operations on any constructed simulation the system matrix and derivative operators are those of the present permittivity,
every stored linear component is what a freshly built simulation with the present permittivity gives, and directly after an assignment nothing is stored. -/
theorem C17_fields_current (env : Env) (omega : ℝ) (eps : Grid Nx Ny ℂ) (dl : ℝ) (NPML : Sim.NPMLArg) (pol : String) (L0 : ℝ) (s0 : Sim Nx Ny)
    (h0 : Sim.init omega eps dl NPML pol L0 = .ok s0) (ops : List (Op Nx Ny)) :
    let s := runOps env s0 ops
    s.A = (construct_A s.omega s.xrange s.yrange s.eps_r s.NPML s.pol s.L0).1 ∧
    s.derivs = (construct_A s.omega s.xrange s.yrange s.eps_r s.NPML s.pol s.L0).2 ∧
    Spec.FieldsCurrent env s ∧
    ∀ e, let s' := runOps env s0 (ops ++ [.setEps e])
      s'.eps_r = e ∧ s'.A = (construct_A s.omega s.xrange s.yrange e s.NPML s.pol s.L0).1 ∧ ∀ c, s'.fields c = none ∧ s'.fields_nl c = none := by
  intro s
  have h : Inv env s := (Inv.init h0).runOps ops
  refine ⟨h.valid.A_eq, by rw [construct_A_derivs]; exact h.valid.derivs_eq, h.current, ?_⟩
  intro e s'
  have hs : s' = s.set_eps_r e := by simp only [s', s, runOps, List.foldl_append, List.foldl_cons, List.foldl_nil, Op.run]
  rw [hs]
  exact ⟨rfl, rfl, fun c => ⟨rfl, rfl⟩⟩

/-- An operation assigns the permittivity. -/
def Op.assigns : Op Nx Ny → Prop
  | .setEps _ => True
  | .initDesign _ _ st _ => st ≠ .other
  | _ => False

theorem run_eps {env : Env} {s : Sim Nx Ny} {op : Op Nx Ny} (h : ¬ op.assigns) : (op.run env s).eps_r = s.eps_r := by
  cases op with
  | setEps e => exact absurd trivial h
  | setSrc f => rfl
  | solve avg => rfl
  | solveIncl avg => show (s.solve_fields env true avg).2.eps_r = _; rw [Frame.solve_incl]
  | computeNl e => rfl
  | addNl chi r ty sc m =>
    simp only [Op.run, Sim.add_nl]
    cases Nonlinearity.init (chi / s.L0 ^ 2) r ty sc m <;> rfl
  | solveNl E solver thr n =>
    obtain ⟨s1, ⟨hc, _⟩, hr⟩ := Frame.solve_fields_nl env s E solver thr n
    have he : s1.eps_r = s.eps_r := by rw [hc]
    rcases hr with ⟨_, _, e⟩ | ⟨r, _, e⟩
    · show (solve_fields_nl env s E solver thr n).2.eps_r = _
      rw [e]; exact he
    · show (solve_fields_nl env s E solver thr n).2.eps_r = _
      rw [e]; exact he
  | initDesign d m st dr =>
    have : st = .other := by simpa [Op.assigns] using h
    subst this; rfl

/-- **C17, nonlinear fields.** A stored nonlinear component was computed by a nonlinear solve after the last assignment of the permittivity (so for the present one). -/
theorem C17_fields_nl_current (env : Env) (s0 : Sim Nx Ny) (h0 : ∀ c, s0.fields_nl c = none) (ops : List (Op Nx Ny)) (c : Comp) (f : Grid Nx Ny ℂ)
    (hc : (runOps env s0 ops).fields_nl c = some f) :
    ∃ pre post E solver thr n r, ops = pre ++ .solveNl E solver thr n :: post ∧ (∀ op ∈ post, ¬ op.assigns) ∧
      (runOps env s0 pre).eps_r = (runOps env s0 ops).eps_r ∧
      (solve_fields_nl env (runOps env s0 pre) E solver thr n).1 = .ok r ∧
      (f = r.Fx ∨ f = r.Fy ∨ f = r.Fz) := by
  induction ops using List.reverseRecOn with
  | nil =>
    have : s0.fields_nl c = some f := hc
    rw [h0] at this; cases this
  | append_singleton ops op ih =>
    have hstep : runOps env s0 (ops ++ [op]) = op.run env (runOps env s0 ops) := by simp [runOps]
    -- the case where the operation leaves the component as it was
    have keep : (runOps env s0 ops).fields_nl c = some f → ¬ op.assigns →
        ∃ pre post E solver thr n r, ops ++ [op] = pre ++ .solveNl E solver thr n :: post ∧ (∀ op ∈ post, ¬ op.assigns) ∧
      (runOps env s0 pre).eps_r = (runOps env s0 (ops ++ [op])).eps_r ∧
      (solve_fields_nl env (runOps env s0 pre) E solver thr n).1 = .ok r ∧
      (f = r.Fx ∨ f = r.Fy ∨ f = r.Fz) := by
      intro hk ha
      obtain ⟨pre, post, E, solver, thr, n, r, h1, h2, h3, h4, h5⟩ := ih hk
      refine ⟨pre, post ++ [op], E, solver, thr, n, r, by rw [h1]; simp, ?_, ?_, h4, h5⟩
      · intro op' hm
        rcases List.mem_append.1 hm with hm | hm
        · exact h2 _ hm
        · rw [List.mem_singleton.1 hm]; exact ha
      · rw [h3, hstep, run_eps ha]
    rw [hstep] at hc
    cases op with
    | setEps e => cases hc
    | setSrc g => exact keep hc (fun h => h)
    | solve avg => exact keep hc (fun h => h)
    | solveIncl avg =>
      have hc : ((runOps env s0 ops).solve_fields env true avg).2.fields_nl c = some f := hc
      rw [Frame.solve_incl] at hc
      exact keep hc (fun h => h)
    | computeNl e => exact keep hc (fun h => h)
    | addNl chi r ty sc m =>
      refine keep ?_ (fun h => h)
      simp only [Op.run, Sim.add_nl] at hc
      revert hc
      cases Nonlinearity.init (chi / (runOps env s0 ops).L0 ^ 2) r ty sc m <;> exact fun hc => hc
    | initDesign d m st dr =>
      by_cases hst : st = .other
      · subst hst; exact keep hc (fun h => h rfl)
      · exfalso
        revert hc
        cases st with
        | other => exact absurd rfl hst
        | _ => intro hc; cases hc
    | solveNl E solver thr n =>
      obtain ⟨s1, ⟨hcore, _⟩, hr⟩ := Frame.solve_fields_nl env (runOps env s0 ops) E solver thr n
      have hfn : s1.fields_nl = (runOps env s0 ops).fields_nl := by rw [hcore]
      have hc : (solve_fields_nl env (runOps env s0 ops) E solver thr n).2.fields_nl c = some f := hc
      rcases hr with ⟨_, _, e⟩ | ⟨r, h4, e⟩
      · rw [e, hfn] at hc
        exact keep hc (fun h => h)
      · rw [e] at hc
        simp only [hfn] at hc
        by_cases hb : Spec.belongs s1.pol c
        · refine ⟨ops, [], E, solver, thr, n, r, rfl, by simp, ?_, h4, ?_⟩
          · rw [hstep, run_eps (op := .solveNl E solver thr n) (fun h => h)]
          · revert hc hb
            cases s1.pol <;> cases c <;> simp [Sim.store, Spec.belongs] <;> intro h <;> simp [h]
        · refine keep ?_ (fun h => h)
          revert hc hb
          cases s1.pol <;> cases c <;> simp [Sim.store, Spec.belongs]

/-- **C18.** After every history only components of the simulation's polarisation are stored, and `solve_fields` stores exactly the triple it returns. -/
theorem C18_only_pol_components (env : Env) (omega : ℝ) (eps : Grid Nx Ny ℂ) (dl : ℝ) (NPML : Sim.NPMLArg) (pol : String) (L0 : ℝ) (s0 : Sim Nx Ny)
    (h0 : Sim.init omega eps dl NPML pol L0 = .ok s0) (ops : List (Op Nx Ny)) :
    let s := runOps env s0 ops
    (∀ c, ¬ Spec.belongs s.pol c → s.fields c = none ∧ s.fields_nl c = none) ∧
    ∀ avg, ∃ P Q R, (s.solve_fields env false avg).1 = .ok (P, Q, R) ∧
      (s.pol = .Ez → (s.solve_fields env false avg).2.fields .Hx = some P ∧ (s.solve_fields env false avg).2.fields .Hy = some Q ∧
        (s.solve_fields env false avg).2.fields .Ez = some R) ∧
      (s.pol = .Hz → (s.solve_fields env false avg).2.fields .Ex = some P ∧ (s.solve_fields env false avg).2.fields .Ey = some Q ∧
        (s.solve_fields env false avg).2.fields .Hz = some R) := by
  intro s
  have h : Inv env s := (Inv.init h0).runOps ops
  constructor
  · intro c hc
    constructor
    · rcases h.lin with hl | ⟨_, _, hl⟩
      · exact hl c
      · rw [hl]
        revert hc
        cases s.pol <;> cases c <;> simp [Sim.store, Spec.belongs]
    · rcases h.nl with hl | ⟨_, hl⟩
      · exact hl c
      · rw [hl]
        revert hc
        cases s.pol <;> cases c <;> simp [Sim.store, Spec.belongs]
  · intro avg
    let t := s.in_plane avg s.eps_r (solver_direct env s.A s.rhs)
    refine ⟨t.1, t.2.1, t.2.2, rfl, fun hp => ?_, fun hp => ?_⟩ <;>
    · simp only [Sim.solve_fields, if_true, hp]
      exact ⟨rfl, rfl, rfl⟩

/-- **C19.** In every reachable state, a solve with `include_nl=True` and every nonlinear solve (any solver, start, threshold, limit, also when it raises) keep
each stored linear field, the source, the permittivity, the system matrix, the derivative operators and the density. -/
theorem C19_nl_solve_keeps_linear (env : Env) (omega : ℝ) (eps : Grid Nx Ny ℂ) (dl : ℝ) (NPML : Sim.NPMLArg) (pol : String) (L0 : ℝ) (s0 : Sim Nx Ny)
    (h0 : Sim.init omega eps dl NPML pol L0 = .ok s0) (ops : List (Op Nx Ny)) :
    let s := runOps env s0 ops
    (∀ avg, (s.solve_fields env true avg).2 = s) ∧
    ∀ E solver thr n, let s' := (solve_fields_nl env s E solver thr n).2
      (∀ c f, s.fields c = some f → s'.fields c = some f) ∧ s'.src = s.src ∧ s'.eps_r = s.eps_r ∧ s'.A = s.A ∧ s'.derivs = s.derivs ∧
      s'.nonlinearity = s.nonlinearity ∧ s'.rho = s.rho := by
  intro s
  have h : Inv env s := (Inv.init h0).runOps ops
  refine ⟨fun avg => Frame.solve_incl env s avg, ?_⟩
  intro E solver thr n s'
  obtain ⟨s1, ⟨hc, hf⟩, hr⟩ := Frame.solve_fields_nl env s E solver thr n
  have hs1 : (∀ c f, s.fields c = some f → s1.fields c = some f) ∧ s1.src = s.src ∧ s1.eps_r = s.eps_r ∧ s1.A = s.A ∧ s1.derivs = s.derivs ∧
      s1.nonlinearity = s.nonlinearity ∧ s1.rho = s.rho := by
    refine ⟨?_, by rw [hc], by rw [hc], by rw [hc], by rw [hc], by rw [hc], by rw [hc]⟩
    intro c f hcf
    rcases hf with hf | ⟨hn, _⟩
    · rw [hf]; exact hcf
    · exfalso
      rcases h.lin with hl | ⟨_, _, hl⟩
      · rw [hl] at hcf; cases hcf
      · rw [hl] at hn
        revert hn
        cases s.pol <;> simp [Sim.store, Pol.comp]
  rcases hr with ⟨_, _, e⟩ | ⟨r, _, e⟩
  · simp only [s', e]; exact hs1
  · simp only [s', e]; exact hs1

/-- The arguments the constructor should accept. -/
def Spec.GoodArgs (omega L0 : ℝ) (NPML : Sim.NPMLArg) (pol : String) : Prop :=
  0 < L0 ∧ 0 < omega ∧ (∃ a b, NPML = .list [a, b] ∧ 0 ≤ a ∧ 0 ≤ b) ∧ (pol = "Ez" ∨ pol = "Hz")

/-- **C20.** The constructor succeeds exactly on good arguments; otherwise it raises `AssertionError` (so there is no object).  On success the object has the given
parameters, integer layer sizes, no stored fields and a zero source. -/
theorem C20_constructor_validation (omega : ℝ) (eps : Grid Nx Ny ℂ) (dl : ℝ) (NPML : Sim.NPMLArg) (pol : String) (L0 : ℝ) :
    ((∃ s, Sim.init omega eps dl NPML pol L0 = .ok s) ↔ Spec.GoodArgs omega L0 NPML pol) ∧
    (¬ Spec.GoodArgs omega L0 NPML pol → (Sim.init omega eps dl NPML pol L0 : Except PyErr (Sim Nx Ny)) = .error .assertionError) ∧
    ∀ s, Sim.init omega eps dl NPML pol L0 = .ok s →
      s.Valid ∧ s.omega = omega ∧ s.L0 = L0 ∧ s.dl = dl ∧ s.eps_r = eps ∧ Spec.polName s.pol = pol ∧
      (∀ a b, NPML = .list [a, b] → s.NPML = (⌊a⌋₊, ⌊b⌋₊)) ∧ (s.src = fun _ _ => 0) ∧ ∀ c, s.fields c = none ∧ s.fields_nl c = none := by
  have good : ∀ a b, 0 < L0 → 0 < omega → 0 ≤ a → 0 ≤ b → ∀ p, Sim.check_inputs omega L0 (.list [a, b]) (Spec.polName p) = .ok ((a, b), p) := by
    intro a b h1 h2 h3 h4 p
    simp only [Sim.check_inputs, h1, h2, h3, h4, not_true_eq_false, if_false, and_self]
    cases p <;> simp [Spec.polName]
  have bad : ¬ Spec.GoodArgs omega L0 NPML pol → Sim.check_inputs omega L0 NPML pol = .error .assertionError := by
    intro h
    by_cases h1 : 0 < L0
    swap
    · simp [Sim.check_inputs, h1]
    by_cases h2 : 0 < omega
    swap
    · simp [Sim.check_inputs, h1, h2]
    simp only [Sim.check_inputs, h1, h2, not_true_eq_false, if_false]
    match NPML with
    | .notList => rfl
    | .list [] => rfl
    | .list [_] => rfl
    | .list (_ :: _ :: _ :: _) => rfl
    | .list [a, b] =>
      simp only
      by_cases h3 : 0 ≤ a ∧ 0 ≤ b
      swap
      · rw [if_pos h3]
      rw [if_neg (not_not.2 h3)]
      by_cases h4 : pol = "Ez"
      · exact absurd ⟨h1, h2, ⟨a, b, rfl, h3⟩, Or.inl h4⟩ h
      by_cases h5 : pol = "Hz"
      · exact absurd ⟨h1, h2, ⟨a, b, rfl, h3⟩, Or.inr h5⟩ h
      rw [if_neg h4, if_neg h5]
  have bad' : ¬ Spec.GoodArgs omega L0 NPML pol → (Sim.init omega eps dl NPML pol L0 : Except PyErr (Sim Nx Ny)) = .error .assertionError := by
    intro h
    simp only [Sim.init, bad h]
    rfl
  have names : Spec.GoodArgs omega L0 NPML pol → ∃ a b p, NPML = .list [a, b] ∧ pol = Spec.polName p ∧ 0 < L0 ∧ 0 < omega ∧ 0 ≤ a ∧ 0 ≤ b := by
    rintro ⟨h1, h2, ⟨a, b, h3, h4, h5⟩, h6⟩
    rcases h6 with h6 | h6
    · exact ⟨a, b, .Ez, h3, h6, h1, h2, h4, h5⟩
    · exact ⟨a, b, .Hz, h3, h6, h1, h2, h4, h5⟩
  refine ⟨⟨?_, ?_⟩, bad', ?_⟩
  · rintro ⟨s, hs⟩
    by_contra h
    rw [bad' h] at hs; cases hs
  · intro h
    obtain ⟨a, b, p, rfl, rfl, h1, h2, h3, h4⟩ := names h
    exact ⟨_, by simp only [Sim.init, good a b h1 h2 h3 h4 p]; rfl⟩
  · intro s hs
    have hg : Spec.GoodArgs omega L0 NPML pol := by
      by_contra h
      rw [bad' h] at hs; cases hs
    obtain ⟨hv, hf, hfn, he, hsrc⟩ := init_ok hs
    obtain ⟨a, b, p, rfl, rfl, h1, h2, h3, h4⟩ := names hg
    simp only [Sim.init, good a b h1 h2 h3 h4 p] at hs
    cases hs
    refine ⟨hv, rfl, rfl, rfl, rfl, rfl, ?_, rfl, fun c => ⟨rfl, rfl⟩⟩
    intro a' b' hab
    cases hab
    rfl

/-- Non-vacuity of C17–C19: a constructed simulation with a history of a permittivity change, a source, a linear and a nonlinear solve. -/
example (env : Env) (eps e2 f : Grid 3 4 ℂ) : ∃ s0, Sim.init 1 eps 1 (.list [1, 1]) "Ez" 1 = .ok s0 ∧
    Spec.FieldsCurrent env (runOps env s0 [.setSrc f, .solve false, .setEps e2, .solve true, .solveNl none .born 1e-3 5]) := by
  obtain ⟨s0, h0⟩ := (C20_constructor_validation 1 eps 1 (.list [1, 1]) "Ez" 1).1.2 ⟨one_pos, one_pos, ⟨1, 1, rfl, zero_le_one, zero_le_one⟩, Or.inl rfl⟩
  exact ⟨s0, h0, (C17_fields_current env _ _ _ _ _ _ s0 h0 _).2.2.1⟩

/-- Non-vacuity of C20, both directions. -/
example : Spec.GoodArgs 1 1 (.list [0, 2]) "Hz" ∧ ¬ Spec.GoodArgs 1 1 (.list [1, 2, 3]) "Hz" ∧ ¬ Spec.GoodArgs 1 1 (.list [-1, 0]) "Ez" := by
  refine ⟨⟨one_pos, one_pos, ⟨0, 2, rfl, le_refl _, by norm_num⟩, Or.inr rfl⟩, ?_, ?_⟩
  · rintro ⟨_, _, ⟨a, b, h, _⟩, _⟩
    simp at h
  · rintro ⟨_, _, ⟨a, b, h, ha, _⟩, _⟩
    simp at h
    linarith [h.1]

end Angler
