import Verif.Model.OptRun
import Verif.Lemmas.SolveAll

/-! # What the methods of `Optimization` leave alone -/

namespace Angler

variable {Nx Ny : ℕ}

/-- `s'` differs from `s` at most in stored fields and nonlinear caches. -/
def SimKeep (s s' : Sim Nx Ny) : Prop :=
  s' = { s with fields := s'.fields, fields_nl := s'.fields_nl, eps_nl := s'.eps_nl, dnl_de := s'.dnl_de, dnl_deps := s'.dnl_deps, Anl := s'.Anl }

namespace SimKeep
variable {s s' s'' : Sim Nx Ny}

theorem refl (s : Sim Nx Ny) : SimKeep s s := rfl

theorem trans (h1 : SimKeep s s') (h2 : SimKeep s' s'') : SimKeep s s'' := by
  unfold SimKeep at *
  rw [h2, h1]

theorem of_frame {env : Env} (h : Frame env s s') : SimKeep s s' := by
  unfold SimKeep
  have h2 := h.core
  rw [h2]

theorem solve (env : Env) (s : Sim Nx Ny) (inc avg : Bool) : SimKeep s (s.solve_fields env inc avg).2 := by
  cases inc with
  | false => rfl
  | true => rw [Frame.solve_incl]; exact rfl

theorem solve_nl (env : Env) (s : Sim Nx Ny) (E : Option (Grid Nx Ny ℂ)) (solver : NlSolver) (thr : ℝ) (n : ℕ) : SimKeep s (solve_fields_nl env s E solver thr n).2 := by
  obtain ⟨s1, hf, h | ⟨r, -, h⟩⟩ := Frame.solve_fields_nl env s E solver thr n
  · obtain ⟨e, -, h⟩ := h
    rw [h]
    exact of_frame hf
  · rw [h]
    exact (of_frame hf).trans rfl

theorem compute_nl (s : Sim Nx Ny) (e : Grid Nx Ny ℂ) : SimKeep s (s.compute_nl e) := rfl

theorem solveAll (env : Env) (lin : Bool) (s : Sim Nx Ny) : SimKeep s (Opt.solveAll env lin s).2 := by
  obtain ⟨t, ht⟩ := solve_fields_eq env s false
  have h1 : SimKeep s { s with fields := Sim.store s.pol s.fields t } := rfl
  simp only [Opt.solveAll, ht]
  cases lin with
  | true => exact h1
  | false =>
    have h2 := solve_nl env { s with fields := Sim.store s.pol s.fields t } none .hybrid 1e-10 50
    simp only [Bool.false_eq_true, if_false]
    generalize solve_fields_nl env { s with fields := Sim.store s.pol s.fields t } = R at h2 ⊢
    obtain ⟨e | r, s2⟩ := R <;> exact h1.trans h2

theorem withSrc (h : SimKeep s s') (f : Grid Nx Ny ℂ) : SimKeep { s with src := f } { s' with src := f } := by
  unfold SimKeep at h ⊢
  rw [h]

theorem withSelf (h : SimKeep s s') : SimKeep { s with src := s'.src } s' := by
  have h2 := h.withSrc s'.src
  exact h2

theorem pol (h : SimKeep s s') : s'.pol = s.pol := by rw [h]
theorem rho (h : SimKeep s s') : s'.rho = s.rho := by rw [h]
theorem eps_r (h : SimKeep s s') : s'.eps_r = s.eps_r := by rw [h]
theorem src (h : SimKeep s s') : s'.src = s.src := by rw [h]
theorem omega (h : SimKeep s s') : s'.omega = s.omega := by rw [h]
theorem A (h : SimKeep s s') : s'.A = s.A := by rw [h]

end SimKeep

/-- `o'` differs from `o` at most in the caches, the fields of the simulation and the field list. -/
structure OptKeep (o o' : Opt Nx Ny) : Prop where
  core : o' = { o with simulation := o'.simulation, fields_current := o'.fields_current, field_arg_list := o'.field_arg_list }
  sim : SimKeep o.simulation o'.simulation

namespace OptKeep
variable {o o' o'' : Opt Nx Ny}

theorem refl (o : Opt Nx Ny) : OptKeep o o := ⟨rfl, rfl⟩

theorem trans (h1 : OptKeep o o') (h2 : OptKeep o' o'') : OptKeep o o'' := by
  refine ⟨?_, h1.sim.trans h2.sim⟩
  have h1 := h1.core
  have h2 := h2.core
  rw [h2, h1]

theorem W (h : OptKeep o o') : o'.W = o.W := by rw [h.core]
theorem design (h : OptKeep o o') : o'.design_region = o.design_region := by rw [h.core]
theorem eps_m (h : OptKeep o o') : o'.eps_m = o.eps_m := by rw [h.core]
theorem eta (h : OptKeep o o') : o'.eta = o.eta := by rw [h.core]
theorem beta (h : OptKeep o o') : o'.beta = o.beta := by rw [h.core]
theorem objective (h : OptKeep o o') : o'.objective = o.objective := by rw [h.core]
theorem max_ind_shift (h : OptKeep o o') : o'.max_ind_shift = o.max_ind_shift := by rw [h.core]
theorem objfn_list (h : OptKeep o o') : o'.objfn_list = o.objfn_list := by rw [h.core]
theorem src_amplitudes (h : OptKeep o o') : o'.src_amplitudes = o.src_amplitudes := by rw [h.core]

/-- Solving for the fields the objective needs; an argument simulation other than `self.simulation` leaves `self.simulation` exactly as it was. -/
theorem solveArgFields (env : Env) (o : Opt Nx Ny) (other : Option (Sim Nx Ny)) :
    OptKeep o (Opt.solveArgFields env o other).2.1 ∧
    (other.isSome → (Opt.solveArgFields env o other).2.1.simulation = o.simulation) ∧
    (other.isSome ↔ (Opt.solveArgFields env o other).2.2.isSome) ∧
    (∀ s, other = some s → ∃ s', (Opt.solveArgFields env o other).2.2 = some s' ∧ SimKeep s s') := by
  unfold Opt.solveArgFields
  by_cases h : o.fields_current = false ∨ (o.field_arg_list.getD []).isEmpty
  · rw [if_pos h]
    have hk := SimKeep.solveAll env o.objective.isLinear (o.target other)
    generalize Opt.solveAll env o.objective.isLinear (o.target other) = R at hk ⊢
    obtain ⟨e | u, s1⟩ := R
    · cases other with
      | none => exact ⟨⟨rfl, hk⟩, fun h => absurd h (by simp), by simp [Opt.putTarget], fun s hs => absurd hs (by simp)⟩
      | some s => exact ⟨refl o, fun _ => rfl, by simp [Opt.putTarget], fun s hs => by cases hs; exact ⟨s1, rfl, hk⟩⟩
    · simp only
      rcases Opt.collect s1 o.objective.arg_list with e | fs
      · cases other with
        | none => exact ⟨⟨rfl, hk⟩, fun h => absurd h (by simp), by simp [Opt.putTarget], fun s hs => absurd hs (by simp)⟩
        | some s => exact ⟨refl o, fun _ => rfl, by simp [Opt.putTarget], fun s hs => by cases hs; exact ⟨s1, rfl, hk⟩⟩
      · cases other with
        | none => exact ⟨⟨rfl, hk⟩, fun h => absurd h (by simp), by simp [Opt.putTarget], fun s hs => absurd hs (by simp)⟩
        | some s => exact ⟨⟨rfl, rfl⟩, fun _ => rfl, by simp [Opt.putTarget], fun s hs => by cases hs; exact ⟨s1, rfl, hk⟩⟩
  · rw [if_neg h]
    exact ⟨refl o, fun _ => rfl, Iff.rfl, fun s hs => ⟨s, hs, rfl⟩⟩

theorem compute_J (env : Env) (o : Opt Nx Ny) (other : Option (Sim Nx Ny)) :
    OptKeep o (Opt.compute_J env o other).2.1 ∧ (other.isSome → (Opt.compute_J env o other).2.1.simulation = o.simulation) := by
  have h := solveArgFields env o other
  unfold Opt.compute_J
  generalize Opt.solveArgFields env o other = R at h ⊢
  obtain ⟨e | u, r⟩ := R <;> exact ⟨h.1, h.2.1⟩

theorem gradFn (env : Env) (o : Opt Nx Ny) (g : GradFn) (p F : Grid Nx Ny ℂ) : SimKeep o.simulation (Opt.gradFn env o g p F).2 := by
  cases g
  case kerr_Ez =>
    show SimKeep o.simulation (Opt.grad_kerr_Ez env o p F).2
    unfold Opt.grad_kerr_Ez
    rcases adjoint_kerr_Ez env o.simulation (fun i j => -p i j) with e | a
    · exact rfl
    · simp only
      rcases Opt.getRho (o.simulation.compute_nl F) with e | rho <;> exact SimKeep.compute_nl _ _
  all_goals exact rfl

theorem dJLoop (env : Env) {k : ℕ} (dJ : (d : Fin k) → Except PyErr (Grid Nx Ny ℂ)) (l : List (GradFn × Fin k × ObjArg)) :
    ∀ (o : Opt Nx Ny) (other : Option (Sim Nx Ny)) (acc : Grid Nx Ny ℝ), OptKeep o (Opt.dJLoop env l dJ o other acc).2.1 := by
  induction l with
  | nil => intro o other acc; exact refl o
  | cons x l ih =>
    intro o other acc
    obtain ⟨fn, d, a⟩ := x
    simp only [Opt.dJLoop]
    generalize (if a.nl = true then (o.target other).fields_nl (o.target other).pol.comp else (o.target other).fields (o.target other).pol.comp) = F
    rcases F with _ | F
    · exact refl o
    · rcases dJ d with e | p
      · exact refl o
      · simp only
        have hk := gradFn env o fn p F
        generalize Opt.gradFn env o fn p F = R at hk ⊢
        obtain ⟨e | gr, s1⟩ := R
        · exact ⟨rfl, hk⟩
        · exact trans ⟨rfl, hk⟩ (ih { o with simulation := s1 } other _)

theorem compute_dJ (env : Env) (o : Opt Nx Ny) (other : Option (Sim Nx Ny)) : OptKeep o (Opt.compute_dJ env o other).2.1 := by
  have h := (solveArgFields env o other).1
  unfold Opt.compute_dJ
  generalize Opt.solveArgFields env o other = R at h ⊢
  obtain ⟨e | u, o1, other1⟩ := R
  · exact h
  · exact h.trans (dJLoop env _ _ o1 other1 _)

theorem J_self (env : Env) (o : Opt Nx Ny) : OptKeep o (Opt.J_self env o).2 := (compute_J env o none).1

theorem dJ_self (env : Env) (o : Opt Nx Ny) : OptKeep o (Opt.dJ_self env o).2 := compute_dJ env o none

end OptKeep

theorem SimKeep.compute_index_shift (env : Env) (s : Sim Nx Ny) : SimKeep s (s.compute_index_shift env).2 := by
  unfold Sim.compute_index_shift
  have h1 := SimKeep.solve env s false false
  generalize s.solve_fields env = R at h1 ⊢
  obtain ⟨e | t, s1⟩ := R
  · exact h1
  · have h2 := SimKeep.solve_nl env s1 none .hybrid 1e-10 50
    simp only [pySeq]
    generalize solve_fields_nl env s1 = R at h2 ⊢
    obtain ⟨e | r, s2⟩ := R
    · exact h1.trans h2
    · simp only
      by_cases hc : ∃ i j, (s2.eps_r i j + s2.eps_nl i j).re < 0 ∨ (s2.eps_r i j).re < 0
      · rw [if_pos hc]; exact h1.trans h2
      · rw [if_neg hc]; exact h1.trans h2

/-- What `_set_source_amplitude` changes: the source, the caches, and one more entry in `src_amplitudes` (also when it raises). -/
theorem set_source_amplitude_keep (env : Env) (o : Opt Nx Ny) :
    let o' := (Opt.set_source_amplitude env o).2
    o' = { o with simulation := o'.simulation, fields_current := o'.fields_current, src_amplitudes := o.src_amplitudes ++ [gridMax fun i j => ‖o.simulation.src i j‖] } ∧
    SimKeep { o.simulation with src := o'.simulation.src } o'.simulation := by
  unfold Opt.set_source_amplitude
  cases o.max_ind_shift with
  | none => exact ⟨rfl, rfl⟩
  | some m =>
    have hk := SimKeep.compute_index_shift env o.simulation
    simp only
    generalize o.simulation.compute_index_shift env = R at hk ⊢
    obtain ⟨e | dn, s1⟩ := R
    · refine ⟨rfl, ?_⟩
      exact hk.withSelf
    · simp only
      by_cases hc : gridMax dn = 0 ∨ m / gridMax dn < 0
      · rw [if_pos hc]
        refine ⟨rfl, ?_⟩
        exact hk.withSelf
      · rw [if_neg hc]
        refine ⟨rfl, ?_⟩
        exact hk.withSrc _

end Angler
