import Verif.Lemmas.GradientKerrEz
import Mathlib.Topology.Instances.Matrix

/-! # `compute_dJ` when the stored Kerr fields are only approximate -/

namespace Angler

open Matrix Filter Topology

variable {Nx Ny : ℕ}

/-- The blocks of the doubled adjoint system when the stored field is `E` and the stored nonlinear state was computed from `E1`. -/
noncomputable def kerrD11 (s : Sim Nx Ny) (E1 E : Grid Nx Ny ℂ) : Mat (Nx * Ny) ℂ :=
  s.A + kerrMat s E1 + spdiag fun k => ((s.omega : ℂ) ^ 2 * ((EPSILON_0 * s.L0 : ℝ) : ℂ) * flatten (s.compute_nl E1).dnl_de k) * flatten E k

/-- The off-diagonal block. -/
noncomputable def kerrD12 (s : Sim Nx Ny) (E1 E : Grid Nx Ny ℂ) : Mat (Nx * Ny) ℂ :=
  spdiag fun k => (starRingEnd ℂ) ((s.omega : ℂ) ^ 2 * ((EPSILON_0 * s.L0 : ℝ) : ℂ) * flatten (s.compute_nl E1).dnl_de k) * flatten E k

/-- The adjoint solution. -/
noncomputable def kerrAdj2 (env : Env) (s : Sim Nx Ny) (E1 E p : Grid Nx Ny ℂ) : Vec (Nx * Ny + Nx * Ny) ℂ :=
  solver_direct env (stackConj (kerrD11 s E1 E) (kerrD12 s E1 E))ᵀ (stackVec (-(flatten p)))

theorem kerrAdj2_self (env : Env) (s : Sim Nx Ny) (E p : Grid Nx Ny ℂ) : kerrAdj2 env s E E p = kerrAdj env s E p := rfl

/-- What `grad_kerr_Ez` returns when the stored nonlinear state belongs to `E1`. -/
theorem gradFn_kerr2 (env : Env) (o : Opt Nx Ny) (rho : Grid Nx Ny ℝ) (hrho : o.simulation.rho = some (some rho)) (E E1 p : Grid Nx Ny ℂ)
    (hE : o.simulation.fields_nl .Ez = some E) (hA : o.simulation.Anl = (o.simulation.compute_nl E1).Anl) (hd : o.simulation.dnl_de = (o.simulation.compute_nl E1).dnl_de) :
    Opt.gradFn env o .kerr_Ez p E =
      (.ok (tail_kerr o rho E (unflatten fun k => kerrAdj2 env o.simulation E1 E p (Fin.castAdd _ k))), o.simulation.compute_nl E) := by
  have hadj : adjoint_kerr_Ez env o.simulation (fun i j => -p i j) = .ok (unflatten fun k => kerrAdj2 env o.simulation E1 E p (Fin.castAdd _ k)) := by
    unfold adjoint_kerr_Ez adjoint_kerr_vec
    rw [hA, compute_nl_Anl, hE]
    simp only [hd]
    rfl
  have hr : Opt.getRho (o.simulation.compute_nl E) = .ok rho := by
    have : (o.simulation.compute_nl E).rho = o.simulation.rho := rfl
    unfold Opt.getRho
    rw [this, hrho]
  simp only [Opt.gradFn, Opt.grad_kerr_Ez, hadj, hr]
  rfl

/-- As `Spec.KerrEz`, for fields that need not solve anything: stored nonlinear field `E`, stored nonlinear state computed from `E1` (the field of the pass before). -/
structure Spec.KerrApprox (env : Env) (o : Opt Nx Ny) (J : ObjFn Nx Ny) (args : List ObjArg) (rho : Grid Nx Ny ℝ) (E E1 : Grid Nx Ny ℂ) : Prop where
  obj : Objective.init J args = .ok o.objective
  kinds : ∀ a ∈ args, (∃ c, c ∈ ["Ez", "Hx", "Hy"] ∧ ObjArg.init c false = .ok a) ∨ ObjArg.init "Ez" true = .ok a
  nonempty : args ≠ []
  pol : o.simulation.pol = .Ez
  density : o.simulation.rho = some (some rho)
  current : o.fields_current = true
  linear : ∀ c, c = Comp.Ez ∨ c = .Hx ∨ c = .Hy → (∃ a ∈ args, a.nl = false) → o.simulation.fields c = (o.simulation.solve_fields env).2.fields c
  nonlinear : o.simulation.fields_nl .Ez = some E
  anl : o.simulation.Anl = (o.simulation.compute_nl E1).Anl
  dnl : o.simulation.dnl_de = (o.simulation.compute_nl E1).dnl_de
  collected : ∃ fs, Opt.collect o.simulation args = .ok fs ∧ o.field_arg_list = some fs

/-- One gradient contribution of the code. -/
noncomputable def argGrad2 (env : Env) (o : Opt Nx Ny) (rho : Grid Nx Ny ℝ) (E1 E p : Grid Nx Ny ℂ) (a : ObjArg) : Grid Nx Ny ℝ :=
  if a.nl then tail_kerr o rho E (unflatten fun k => kerrAdj2 env o.simulation E1 E p (Fin.castAdd _ k))
  else Opt.tail_Ez o rho (unflatten (solver_direct env o.simulation.A o.simulation.rhs))
    (unflatten (solver_direct env o.simulation.Aᵀ (-(linPart o.simulation p a.component))))

theorem dJLoop_rel (env : Env) {k : ℕ} (I : Opt Nx Ny → Prop) (dJ : (d : Fin k) → Except PyErr (Grid Nx Ny ℂ)) (R : GradFn × Fin k × ObjArg → Grid Nx Ny ℝ → Prop)
    (l : List (GradFn × Fin k × ObjArg))
    (h : ∀ x ∈ l, ∀ o, I o → ∃ Fz p s1 v, (if x.2.2.nl then o.simulation.fields_nl o.simulation.pol.comp else o.simulation.fields o.simulation.pol.comp) = some Fz ∧
      dJ x.2.1 = .ok p ∧ Opt.gradFn env o x.1 p Fz = (.ok v, s1) ∧ R x v ∧ I { o with simulation := s1 }) :
    ∀ (o : Opt Nx Ny) (acc : Grid Nx Ny ℝ), I o →
      ∃ o' vs, List.Forall₂ R l vs ∧ Opt.dJLoop env l dJ o none acc = (.ok (fun i j => acc i j + (vs.map fun v => v i j).sum), o', none) := by
  induction l with
  | nil =>
    intro o acc hI
    exact ⟨o, [], List.Forall₂.nil, by simp [Opt.dJLoop]⟩
  | cons x l ih =>
    intro o acc hI
    obtain ⟨g, d, a⟩ := x
    obtain ⟨Fz, p, s1, v, hF, hp, hg, hR, hI1⟩ := h _ (List.mem_cons_self ..) o hI
    obtain ⟨o', vs, hvs, e⟩ := ih (fun x hx => h x (List.mem_cons_of_mem _ hx)) _ (fun i j => acc i j + v i j) hI1
    refine ⟨o', v :: vs, List.Forall₂.cons hR hvs, ?_⟩
    have ht : o.target none = o.simulation := rfl
    simp only at hF hp hg
    simp only [Opt.dJLoop, ht, hF, hp, hg]
    rw [e]
    congr 2
    funext i j
    simp only [List.map_cons, List.sum_cons]
    ring

/-- The simulation between two passes of the loop of `compute_dJ`. -/
noncomputable def Sim.withNl (s : Sim Nx Ny) (en : Grid Nx Ny ℂ) (dd : Grid Nx Ny ℂ) (E2 : Grid Nx Ny ℂ) : Sim Nx Ny :=
  { s with eps_nl := en, dnl_deps := dd, Anl := (s.compute_nl E2).Anl, dnl_de := (s.compute_nl E2).dnl_de }

theorem approx_compute_dJ (env : Env) (o : Opt Nx Ny) (J : ObjFn Nx Ny) (args : List ObjArg) (rho : Grid Nx Ny ℝ) (E E1 : Grid Nx Ny ℂ) (hS : Spec.KerrApprox env o J args rho E E1) :
    ∃ (hlen : args.length = J.arity) (ch : Fin J.arity → Grid Nx Ny ℂ), (∀ k, ch k = E ∨ ch k = E1) ∧ (Opt.compute_dJ env o).1 = .ok fun i j => ∑ k : Fin J.arity,
      argGrad2 env o rho (ch k) E (J.partials k fun m => argField env o.simulation E (args.get (m.cast hlen.symm))) (args.get (k.cast hlen.symm)) i j := by
  obtain ⟨hlen, hmk⟩ := objective_init_ok hS.obj
  refine ⟨hlen, ?_⟩
  obtain ⟨fs, hfs, hfl⟩ := hS.collected
  obtain ⟨t, ht, hst⟩ := solve_fields_Ez env o.simulation hS.pol
  let arg : Fin J.arity → ObjArg := fun k => args.get (k.cast hlen.symm)
  have harg : ∀ k, arg k ∈ args := fun k => List.get_mem _ _
  let x0 : Fin J.arity → Grid Nx Ny ℂ := fun k => argField env o.simulation E (arg k)
  have hlinf : ∀ c : Comp, c.isEz → (∃ a ∈ args, a.nl = false) → o.simulation.fields c = some (linField o.simulation (solver_direct env o.simulation.A o.simulation.rhs) c) := by
    intro c hc hex
    have h1 : o.simulation.fields c = (o.simulation.solve_fields env).2.fields c := hS.linear c (by cases c <;> simp_all [Comp.isEz]) hex
    rw [h1, ht]
    exact hst c hc
  have hcol := collect_ok o.simulation (argField env o.simulation E) args (by
    intro a ha
    rcases kinds_cases (hS.kinds a ha) with ⟨h1, h2, -⟩ | ⟨h1, h2, -⟩
    · simp only [argField, h1, Bool.false_eq_true, if_false]
      exact hlinf _ h2 ⟨a, ha, h1⟩
    · simp only [argField, h1, if_true, h2]
      exact hS.nonlinear)
  rw [hcol] at hfs
  cases hfs
  have hne : (args.map (argField env o.simulation E)).isEmpty = false := by
    rw [List.isEmpty_eq_false_iff]
    simpa using hS.nonempty
  have hsol : Opt.solveArgFields env o none = (.ok (), o, none) := by
    unfold Opt.solveArgFields
    rw [if_neg]
    rw [hS.current, hfl, Option.getD_some, hne]
    simp
  have hcall : ∀ d : Fin J.arity, J.callGrad d (args.map (argField env o.simulation E)) = .ok (J.partials d x0) := by
    intro d
    unfold ObjFn.callGrad
    rw [dif_pos (by rw [List.length_map, hlen])]
    congr 2
    funext m
    simp [x0, arg]
  have hzip := zip_args J args hlen
  have hloop := dJLoop_rel env (fun o' => ∃ en dd E2, (E2 = E ∨ E2 = E1) ∧ o' = { o with simulation := o.simulation.withNl en dd E2 })
    (fun d => J.callGrad d (args.map (argField env o.simulation E))) (fun q v => ∃ E2, (E2 = E ∨ E2 = E1) ∧ v = argGrad2 env o rho E2 E (J.partials q.2.1 x0) q.2.2)
    (List.ofFn fun k : Fin J.arity => ((arg k).gradient, k, arg k)) (by
      intro q hq o' ho'
      rw [List.mem_ofFn] at hq
      obtain ⟨k, rfl⟩ := hq
      obtain ⟨en, dd, E2, hE2, rfl⟩ := ho'
      rcases kinds_cases (hS.kinds _ (harg k)) with ⟨h1, h2, h3⟩ | ⟨h1, h2, h3⟩
      · refine ⟨unflatten (solver_direct env o.simulation.A o.simulation.rhs), J.partials k x0, o.simulation.withNl en dd E2, _, ?_, hcall k, ?_, ⟨E2, hE2, rfl⟩, en, dd, E2, hE2, rfl⟩
        · show (if (arg k).nl then _ else o.simulation.fields o.simulation.pol.comp) = _
          rw [h1, hS.pol]
          exact hlinf .Ez trivial ⟨_, harg k, h1⟩
        · show Opt.gradFn env _ (arg k).gradient (J.partials k x0) _ = _
          rw [h3]
          have h4 := gradFn_Ez env { o with simulation := o.simulation.withNl en dd E2 } rho hS.density (arg k).component h2 (J.partials k x0)
            (unflatten (solver_direct env o.simulation.A o.simulation.rhs))
          rw [h4]
          simp only [argGrad2, h1, Bool.false_eq_true, if_false]
          rfl
      · refine ⟨E, J.partials k x0, o.simulation.compute_nl E, _, ?_, hcall k, ?_, ⟨E2, hE2, rfl⟩, (o.simulation.compute_nl E).eps_nl, (o.simulation.compute_nl E).dnl_deps, E, Or.inl rfl, rfl⟩
        · show (if (arg k).nl then o.simulation.fields_nl o.simulation.pol.comp else _) = _
          rw [h1, hS.pol]
          exact hS.nonlinear
        · show Opt.gradFn env _ (arg k).gradient (J.partials k x0) _ = _
          rw [h3]
          have h4 := gradFn_kerr2 env { o with simulation := o.simulation.withNl en dd E2 } rho hS.density E E2 (J.partials k x0) hS.nonlinear rfl rfl
          rw [h4]
          simp only [argGrad2, h1, if_true]
          rfl)
    o (fun _ _ => 0) ⟨o.simulation.eps_nl, o.simulation.dnl_deps, E1, Or.inr rfl, by unfold Sim.withNl; rw [← hS.anl, ← hS.dnl]⟩
  obtain ⟨o', vs, hvs, hdJ⟩ := hloop
  have hvlen : vs.length = J.arity := by rw [← hvs.length_eq, List.length_ofFn]
  have hV : ∀ k : Fin J.arity, ∃ E2, (E2 = E ∨ E2 = E1) ∧ vs.get (k.cast hvlen.symm) = argGrad2 env o rho E2 E (J.partials k x0) (arg k) := by
    intro k
    have := hvs.get (i := k) (by rw [List.length_ofFn]; exact k.2) (by rw [hvlen]; exact k.2)
    simpa using this
  choose ch hch hval using hV
  refine ⟨ch, hch, ?_⟩
  have hsumG : ∀ i j, (0 : ℝ) + (vs.map fun v => v i j).sum = ∑ k, argGrad2 env o rho (ch k) E (J.partials k x0) (arg k) i j := by
    intro i j
    rw [zero_add]
    have : vs = List.ofFn fun k : Fin J.arity => vs.get (k.cast hvlen.symm) := by
      refine List.ext_getElem (by rw [List.length_ofFn, hvlen]) fun n h1 h2 => ?_
      simp
    rw [this, List.map_ofFn, List.sum_ofFn]
    refine Finset.sum_congr rfl fun k _ => ?_
    simp only [Function.comp, hval]
  unfold Opt.compute_dJ
  rw [hsol]
  simp only [hfl, Option.getD_some]
  have hgoal : Opt.dJLoop env (o.objective.grad_fn_list.zip (o.objective.dJ_list.zip o.objective.arg_list)) (fun d => o.objective.J.callGrad d (args.map (argField env o.simulation E))) o none (fun _ _ => 0) =
      Opt.dJLoop env (List.ofFn fun k : Fin J.arity => ((arg k).gradient, k, arg k)) (fun d => J.callGrad d (args.map (argField env o.simulation E))) o none (fun _ _ => 0) := by
    have key : ∀ ob : Objective Nx Ny, ob = Objective.mk' J args → Opt.dJLoop env (ob.grad_fn_list.zip (ob.dJ_list.zip ob.arg_list)) (fun d => ob.J.callGrad d (args.map (argField env o.simulation E))) o none (fun _ _ => 0) =
      Opt.dJLoop env (List.ofFn fun k : Fin J.arity => ((arg k).gradient, k, arg k)) (fun d => J.callGrad d (args.map (argField env o.simulation E))) o none (fun _ _ => 0) := by
      rintro ob rfl
      rw [hzip]
      rfl
    exact key _ hmk
  rw [hgoal, hdJ]
  simp only [hsumG]
  rfl

/-- Solutions of regular systems depend continuously on matrix and right-hand side. -/
theorem tendsto_solver {n : ℕ} {ι : Type*} {l : Filter ι} {env : Env} (he : env.Exact) {M : ι → Mat n ℂ} {M0 : Mat n ℂ} {b : ι → Vec n ℂ} {b0 : Vec n ℂ}
    (hM : Tendsto M l (𝓝 M0)) (hb : Tendsto b l (𝓝 b0)) (hdet : M0.det ≠ 0) : Tendsto (fun t => solver_direct env (M t) (b t)) l (𝓝 (solver_direct env M0 b0)) := by
  have h1 : ∀ (N : Mat n ℂ) (v : Vec n ℂ), N.det ≠ 0 → solver_direct env N v = N.det⁻¹ • (N.adjugate *ᵥ v) := by
    intro N v hN
    refine solver_direct_unique he hN ?_
    rw [Matrix.mulVec_smul, Matrix.mulVec_mulVec, Matrix.mul_adjugate, smul_mulVec, Matrix.one_mulVec, smul_smul, inv_mul_cancel₀ hN, one_smul]
  have hd : Tendsto (fun t => (M t).det) l (𝓝 M0.det) := by
    have hc : Continuous fun N : Matrix (Fin n) (Fin n) ℂ => N.det := Continuous.matrix_det continuous_id
    exact (hc.tendsto M0).comp hM
  have hev : ∀ᶠ t in l, (M t).det ≠ 0 := hd.eventually (isOpen_ne.mem_nhds hdet)
  have h2 : Tendsto (fun t => (M t).det⁻¹ • ((M t).adjugate *ᵥ b t)) l (𝓝 (M0.det⁻¹ • (M0.adjugate *ᵥ b0))) := by
    have hi : Tendsto (fun t => (M t).det⁻¹) l (𝓝 M0.det⁻¹) := hd.inv₀ hdet
    have hc : Continuous fun q : Matrix (Fin n) (Fin n) ℂ × (Fin n → ℂ) => q.1.adjugate *ᵥ q.2 := Continuous.matrix_mulVec (Continuous.matrix_adjugate continuous_fst) continuous_snd
    have hv : Tendsto (fun t => (M t).adjugate *ᵥ b t) l (𝓝 (M0.adjugate *ᵥ b0)) := by
      have h3 := hc.tendsto (M0, b0)
      beta_reduce at h3
      have h4 := h3.comp (hM.prodMk_nhds hb)
      exact h4
    exact tendsto_pi_nhds.2 fun i => hi.mul (tendsto_pi_nhds.1 hv i)
  rw [h1 M0 b0 hdet]
  exact h2.congr' (hev.mono fun t ht => (h1 _ _ ht).symm)

end Angler
