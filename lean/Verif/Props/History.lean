import Verif.Props.Caching
import Verif.Props.NonlinearSolve

/-! # C71: what was solved before does not matter -/

namespace Angler

open Matrix

variable {Nx Ny : ℕ}

/-- The same device with nothing solved yet: no stored fields, no permittivity shift. -/
def Spec.pristine (s : Sim Nx Ny) : Sim Nx Ny :=
  { s with fields := fun _ => none, fields_nl := fun _ => none, eps_nl := fun _ _ => 0, dnl_de := fun _ _ => 0, dnl_deps := fun _ _ => 0, Anl := none }

theorem pristine_keep (s : Sim Nx Ny) : SimKeep s (Spec.pristine s) := rfl

/-- Two simulations that differ only in stored fields. -/
def SameButFields (s t : Sim Nx Ny) : Prop := t = { s with fields := t.fields, fields_nl := t.fields_nl }

theorem SimKeep.symm {s t : Sim Nx Ny} (h : SimKeep s t) : SimKeep t s := by
  unfold SimKeep at h ⊢
  rw [h]

theorem SameButFields.keep {s t : Sim Nx Ny} (h : SameButFields s t) : SimKeep s t := by
  unfold SameButFields at h
  unfold SimKeep
  rw [h]

theorem SimKeep.compute_nl_both {s t : Sim Nx Ny} (h : SimKeep s t) (F : Grid Nx Ny ℂ) : SameButFields (s.compute_nl F) (t.compute_nl F) := by
  unfold SimKeep at h
  unfold SameButFields
  rw [h]
  rfl

theorem bornStep_keep (env : Env) {s t : Sim Nx Ny} (h : SimKeep s t) (F : Grid Nx Ny ℂ) : bornStep env t F = bornStep env s F := by
  unfold SimKeep at h
  rw [h]
  rfl

theorem newton_jac_keep {s t : Sim Nx Ny} (h : SimKeep s t) (F : Grid Nx Ny ℂ) : (nl_eq_and_jac t F).1 = (nl_eq_and_jac s F).1 := by
  unfold SimKeep at h
  rw [h]
  rfl

theorem bornLoop_keep (env : Env) (thr : ℝ) (fuel istep : ℕ) {s t : Sim Nx Ny} (h : SimKeep s t) (F : Grid Nx Ny ℂ) (conv last) :
    (bornLoop env thr fuel istep t F conv last).1 = (bornLoop env thr fuel istep s F conv last).1 ∧
    (0 < fuel → SameButFields (bornLoop env thr fuel istep s F conv last).2 (bornLoop env thr fuel istep t F conv last).2) ∧
    SimKeep (bornLoop env thr fuel istep s F conv last).2 (bornLoop env thr fuel istep t F conv last).2 := by
  induction fuel generalizing istep s t F conv last with
  | zero => exact ⟨rfl, fun h => absurd h (lt_irrefl 0), h⟩
  | succ fuel ih =>
    have hc := h.compute_nl_both F
    unfold bornLoop
    simp only [solve_fields_nl_step, bornStep_keep env h]
    split
    · exact ⟨rfl, fun _ => hc, hc.keep⟩
    · have h2 := ih (istep + 1) hc.keep (bornStep env s F).2.2 (conv.set istep (convergence (bornStep env s F).2.2 F))
        (some ((bornStep env s F).1, (bornStep env s F).2.1, (bornStep env s F).2.2, convergence (bornStep env s F).2.2 F))
      refine ⟨h2.1, fun _ => ?_, h2.2.2⟩
      rcases Nat.eq_zero_or_pos fuel with rfl | hp
      · exact hc
      · exact h2.2.1 hp

theorem newtonLoop_keep (env : Env) (thr : ℝ) (fuel istep : ℕ) {s t : Sim Nx Ny} (h : SimKeep s t) (F : Grid Nx Ny ℂ) (conv last) :
    (newtonLoop env thr fuel istep t F conv last).1 = (newtonLoop env thr fuel istep s F conv last).1 ∧
    SimKeep (newtonLoop env thr fuel istep s F conv last).2 (newtonLoop env thr fuel istep t F conv last).2 := by
  induction fuel generalizing istep s t F conv last with
  | zero => exact ⟨rfl, h⟩
  | succ fuel ih =>
    have hc : SimKeep (nl_eq_and_jac s F).2 (nl_eq_and_jac t F).2 := (h.compute_nl_both F).keep
    unfold newtonLoop
    simp only [newton_jac_keep h]
    rcases solver_complex2real env (nl_eq_and_jac s F).1.2.1 (nl_eq_and_jac s F).1.2.2 (nl_eq_and_jac s F).1.1 with e | d
    · exact ⟨rfl, hc⟩
    · simp only
      split
      · exact ⟨rfl, hc⟩
      · exact ih (istep + 1) hc _ _ _

/-- The Born solver from the same field. -/
theorem born_keep (env : Env) (thr : ℝ) (n : ℕ) {s t : Sim Nx Ny} (h : SimKeep s t) (E E' : Option (Grid Nx Ny ℂ)) (F : Grid Nx Ny ℂ)
    (hs : (startField env s E).1 = .ok F) (ht : (startField env t E').1 = .ok F) :
    (born_solve env t E' thr n).1 = (born_solve env s E thr n).1 ∧
    ((born_solve env s E thr n).1.toOption.isSome → SameButFields (born_solve env s E thr n).2 (born_solve env t E' thr n).2) ∧
    SimKeep (born_solve env s E thr n).2 (born_solve env t E' thr n).2 := by
  have h1 := SimKeep.of_frame (Frame.startField env s E)
  have h2 := SimKeep.of_frame (Frame.startField env t E')
  unfold born_solve
  generalize startField env s E = R at *
  generalize startField env t E' = R' at *
  obtain ⟨r, s1⟩ := R
  obtain ⟨r', t1⟩ := R'
  simp only at hs ht h1 h2
  subst hs ht
  simp only
  have h3 := bornLoop_keep env thr n 0 ((h1.symm.trans h).trans h2) F (List.replicate n (.fin 0)) none
  have hn0 : n = 0 → (bornLoop env thr n 0 s1 F (List.replicate n (.fin 0)) none).1 = .ok (none, []) := by
    rintro rfl; rfl
  generalize bornLoop env thr n 0 s1 F (List.replicate n (.fin 0)) none = R at *
  generalize bornLoop env thr n 0 t1 F (List.replicate n (.fin 0)) none = R' at *
  obtain ⟨r, s2⟩ := R
  obtain ⟨r', t2⟩ := R'
  simp only at h3 hn0
  obtain ⟨h4, h5, h6⟩ := h3
  subst h4
  rcases r' with e | ⟨_ | ⟨Fx, Fy, Fz, c⟩, cv⟩
  · exact ⟨rfl, fun h => (by cases h), h6⟩
  · exact ⟨rfl, fun h => (by cases h), h6⟩
  · refine ⟨rfl, fun _ => h5 (Nat.pos_of_ne_zero fun h => ?_), h6⟩
    have := hn0 h
    simp at this

theorem newton_keep (env : Env) (thr : ℝ) (n : ℕ) {s t : Sim Nx Ny} (h : SimKeep s t) (E E' : Option (Grid Nx Ny ℂ)) (F : Grid Nx Ny ℂ)
    (hs : (startField env s E).1 = .ok F) (ht : (startField env t E').1 = .ok F) :
    (newton_solve env t E' thr n).1 = (newton_solve env s E thr n).1 ∧
    ((newton_solve env s E thr n).1.toOption.isSome → SameButFields (newton_solve env s E thr n).2 (newton_solve env t E' thr n).2) ∧
    SimKeep (newton_solve env s E thr n).2 (newton_solve env t E' thr n).2 := by
  have h1 := SimKeep.of_frame (Frame.startField env s E)
  have h2 := SimKeep.of_frame (Frame.startField env t E')
  unfold newton_solve
  rw [h.pol]
  cases s.pol with
  | Hz => exact ⟨rfl, fun h => (by cases h), h⟩
  | Ez =>
  simp only
  generalize startField env s E = R at *
  generalize startField env t E' = R' at *
  obtain ⟨r, s1⟩ := R
  obtain ⟨r', t1⟩ := R'
  simp only at hs ht h1 h2
  subst hs ht
  simp only
  have h3 := newtonLoop_keep env thr n 0 ((h1.symm.trans h).trans h2) F (List.replicate n (.fin 0)) none
  generalize newtonLoop env thr n 0 s1 F (List.replicate n (.fin 0)) none = R at *
  generalize newtonLoop env thr n 0 t1 F (List.replicate n (.fin 0)) none = R' at *
  obtain ⟨r, s2⟩ := R
  obtain ⟨r', t2⟩ := R'
  simp only at h3
  obtain ⟨h4, h6⟩ := h3
  subst h4
  rcases r' with e | ⟨Ez, last, cv⟩
  · exact ⟨rfl, fun h => (by cases h), h6⟩
  · simp only [solve_fields_nl_step, bornStep_keep env h6]
    have h7 := h6.compute_nl_both Ez
    rcases last with _ | l
    · exact ⟨rfl, fun h => (by cases h), h7.keep⟩
    · exact ⟨rfl, fun _ => h7, h7.keep⟩

theorem startField_some (env : Env) (s : Sim Nx Ny) (E : Grid Nx Ny ℂ) : (startField env s (some E)).1 = .ok E := rfl

/-- What the nonlinear solve leaves behind in the stored fields of an object it was called on. -/
theorem solve_nl_fields (env : Env) (s : Sim Nx Ny) (E : Option (Grid Nx Ny ℂ)) (solver : NlSolver) (thr : ℝ) (n : ℕ) (r : NlResult Nx Ny)
    (hr : (solve_fields_nl env s E solver thr n).1 = .ok r) :
    (solve_fields_nl env s E solver thr n).2.fields_nl = Sim.store s.pol s.fields_nl (r.Fx, r.Fy, r.Fz) := by
  obtain ⟨s1, hf, h | ⟨r', h, h2⟩⟩ := Frame.solve_fields_nl env s E solver thr n
  · obtain ⟨e, h, -⟩ := h
    rw [hr] at h; cases h
  · rw [hr] at h
    cases h
    rw [h2]
    have h3 := hf.core
    rw [h3]

/-- Nonlinear solves from the same starting field return the same and leave the same nonlinear state. -/
theorem solve_nl_keep (env : Env) (solver : NlSolver) (thr : ℝ) (n : ℕ) {s t : Sim Nx Ny} (h : SimKeep s t) (E E' : Option (Grid Nx Ny ℂ)) (F : Grid Nx Ny ℂ)
    (hs : (startField env s E).1 = .ok F) (ht : (startField env t E').1 = .ok F) :
    (solve_fields_nl env t E' solver thr n).1 = (solve_fields_nl env s E solver thr n).1 ∧
    ((solve_fields_nl env s E solver thr n).1.toOption.isSome →
      SameButFields (solve_fields_nl env s E solver thr n).2 (solve_fields_nl env t E' solver thr n).2) := by
  have fin : ∀ (R R' : Except PyErr (NlResult Nx Ny) × Sim Nx Ny), R'.1 = R.1 → (R.1.toOption.isSome → SameButFields R.2 R'.2) →
      (match R' with | (.error e, s1) => (.error e, s1) | (.ok r, s1) => (.ok r, { s1 with fields_nl := Sim.store s1.pol s1.fields_nl (r.Fx, r.Fy, r.Fz) }) :
        Except PyErr (NlResult Nx Ny) × Sim Nx Ny).1 =
      (match R with | (.error e, s1) => (.error e, s1) | (.ok r, s1) => (.ok r, { s1 with fields_nl := Sim.store s1.pol s1.fields_nl (r.Fx, r.Fy, r.Fz) }) :
        Except PyErr (NlResult Nx Ny) × Sim Nx Ny).1 ∧
      ((match R with | (.error e, s1) => (.error e, s1) | (.ok r, s1) => (.ok r, { s1 with fields_nl := Sim.store s1.pol s1.fields_nl (r.Fx, r.Fy, r.Fz) }) :
        Except PyErr (NlResult Nx Ny) × Sim Nx Ny).1.toOption.isSome →
        SameButFields (match R with | (.error e, s1) => (.error e, s1) | (.ok r, s1) => (.ok r, { s1 with fields_nl := Sim.store s1.pol s1.fields_nl (r.Fx, r.Fy, r.Fz) }) :
          Except PyErr (NlResult Nx Ny) × Sim Nx Ny).2
        (match R' with | (.error e, s1) => (.error e, s1) | (.ok r, s1) => (.ok r, { s1 with fields_nl := Sim.store s1.pol s1.fields_nl (r.Fx, r.Fy, r.Fz) }) :
          Except PyErr (NlResult Nx Ny) × Sim Nx Ny).2) := by
    rintro ⟨e | r, s1⟩ ⟨r', t1⟩ h1 h2
    · simp only at h1
      subst h1
      exact ⟨rfl, fun h => by cases h⟩
    · simp only at h1
      subst h1
      refine ⟨rfl, fun _ => ?_⟩
      have h3 := h2 rfl
      unfold SameButFields at h3 ⊢
      simp only at h3 ⊢
      rw [h3]
  unfold solve_fields_nl
  refine fin _ _ ?_ ?_
  all_goals cases solver
  all_goals simp only
  · exact (born_keep env thr n h E E' F hs ht).1
  · exact (newton_keep env thr n h E E' F hs ht).1
  · obtain ⟨h1, h2, h3⟩ := born_keep env thr 20 h E E' F hs ht
    generalize born_solve env s E thr 20 = R at *
    generalize born_solve env t E' thr 20 = R' at *
    obtain ⟨r, s1⟩ := R
    obtain ⟨r', t1⟩ := R'
    simp only at h1 h2 h3
    subst h1
    rcases r' with e | r
    · rfl
    · simp only
      split
      · exact (newton_keep env thr 20 h3 _ _ _ (startField_some env _ _) (startField_some env _ _)).1
      · rfl
  · exact (born_keep env thr n h E E' F hs ht).2.1
  · exact (newton_keep env thr n h E E' F hs ht).2.1
  · exact fun h => by cases h
  · obtain ⟨h1, h2, h3⟩ := born_keep env thr 20 h E E' F hs ht
    generalize born_solve env s E thr 20 = R at *
    generalize born_solve env t E' thr 20 = R' at *
    obtain ⟨r, s1⟩ := R
    obtain ⟨r', t1⟩ := R'
    simp only at h1 h2 h3
    subst h1
    rcases r' with e | r
    · exact fun h => by cases h
    · simp only
      split
      · exact (newton_keep env thr 20 h3 _ _ _ (startField_some env _ _) (startField_some env _ _)).2.1
      · exact h2
  · exact fun h => by cases h

/-- A nonlinear solve keeps the stored linear fields. -/
theorem solve_nl_linear_fields (env : Env) (s : Sim Nx Ny) (E : Option (Grid Nx Ny ℂ)) (solver : NlSolver) (thr : ℝ) (n : ℕ) (f : Grid Nx Ny ℂ) (hf : s.fields s.pol.comp = some f) :
    (solve_fields_nl env s E solver thr n).2.fields = s.fields := by
  obtain ⟨s1, hfr, h | ⟨r', -, h2⟩⟩ := Frame.solve_fields_nl env s E solver thr n
  all_goals
    have h1 : s1.fields = s.fields := by
      rcases hfr.fields with h | ⟨h, -⟩
      · exact h
      · rw [hf] at h; cases h
  · obtain ⟨e, -, h⟩ := h
    rw [h, h1]
  · rw [h2]
    exact h1

/-- Only components of the polarisation are stored (`C18`: true after every history). -/
def Spec.OnlyPol (s : Sim Nx Ny) : Prop := ∀ c, ¬ Spec.belongs s.pol c → s.fields c = none ∧ s.fields_nl c = none

theorem pristine_onlyPol (s : Sim Nx Ny) : Spec.OnlyPol (Spec.pristine s) := fun _ _ => ⟨rfl, rfl⟩

theorem store_eq_of_none (p : Pol) (f g : Fields Nx Ny) (t : Grid Nx Ny ℂ × Grid Nx Ny ℂ × Grid Nx Ny ℂ) (hf : ∀ c, ¬ Spec.belongs p c → f c = none)
    (hg : ∀ c, ¬ Spec.belongs p c → g c = none) : Sim.store p f t = Sim.store p g t := by
  funext c
  by_cases hb : Spec.belongs p c
  · cases p <;> cases c <;> first | rfl | exact absurd hb id
  · rw [store_other _ _ _ _ hb, store_other _ _ _ _ hb, hf c hb, hg c hb]

/-- A linear solve of the same device: the same triple. -/
theorem solve_keep (env : Env) {s t : Sim Nx Ny} (h : SimKeep s t) (avg : Bool) : (t.solve_fields env false avg).1 = (s.solve_fields env false avg).1 := by
  unfold SimKeep at h
  rw [h]
  rfl

theorem solve_keep_state (env : Env) {s t : Sim Nx Ny} (h : SimKeep s t) (hs : Spec.OnlyPol s) (ht : Spec.OnlyPol t) :
    SimKeep (s.solve_fields env).2 (t.solve_fields env).2 ∧ (t.solve_fields env).2.fields = (s.solve_fields env).2.fields := by
  refine ⟨((SimKeep.solve env s false false).symm.trans h).trans (SimKeep.solve env t false false), ?_⟩
  obtain ⟨u, hu⟩ := solve_fields_eq env s false
  obtain ⟨v, hv⟩ := solve_fields_eq env t false
  have huv : v = u := by
    have := solve_keep env h false
    rw [hu, hv] at this
    exact Except.ok.inj this
  rw [hu, hv, huv]
  show Sim.store t.pol t.fields u = Sim.store s.pol s.fields u
  rw [h.pol]
  exact store_eq_of_none _ _ _ _ (fun c hc => (ht c (by rw [h.pol]; exact hc)).1) fun c hc => (hs c hc).1

/-- The two solves of the objective's fields, for the same device. -/
theorem solveAll_keep (env : Env) (lin : Bool) {s t : Sim Nx Ny} (h : SimKeep s t) (hs : Spec.OnlyPol s) (ht : Spec.OnlyPol t) :
    (Opt.solveAll env lin t).1 = (Opt.solveAll env lin s).1 ∧
    ((Opt.solveAll env lin s).1 = .ok () → SimKeep (Opt.solveAll env lin s).2 (Opt.solveAll env lin t).2 ∧
      (Opt.solveAll env lin t).2.fields = (Opt.solveAll env lin s).2.fields ∧ (lin = false → (Opt.solveAll env lin t).2 = (Opt.solveAll env lin s).2)) := by
  obtain ⟨hk, hfl⟩ := solve_keep_state env h hs ht
  have hns : (s.solve_fields env).2.fields_nl = s.fields_nl := rfl
  have hnt : (t.solve_fields env).2.fields_nl = t.fields_nl := rfl
  obtain ⟨f, hf⟩ := Frame.solved_comp env s
  have hp : (s.solve_fields env).2.pol = s.pol := rfl
  have htp : (t.solve_fields env).2.pol = s.pol := h.pol
  obtain ⟨u, hu⟩ := solve_fields_eq env s false
  obtain ⟨v, hv⟩ := solve_fields_eq env t false
  unfold Opt.solveAll
  rw [hu] at hk hfl hns hf hp
  rw [hv] at hk hfl hnt htp
  rw [hu, hv]
  generalize ({ s with fields := Sim.store s.pol s.fields u } : Sim Nx Ny) = s1 at *
  generalize ({ t with fields := Sim.store t.pol t.fields v } : Sim Nx Ny) = t1 at *
  simp only at hk hfl hns hnt hf hp htp ⊢
  cases lin with
  | true => exact ⟨rfl, fun _ => ⟨hk, hfl, fun h => by cases h⟩⟩
  | false =>
    simp only [Bool.false_eq_true, if_false]
    have hss : (startField env s1 none).1 = .ok f := by
      unfold startField
      simp only [hp, hf]
    have hst : (startField env t1 none).1 = .ok f := by
      unfold startField
      simp only [htp, hfl, hf]
    have hl1 := solve_nl_linear_fields env s1 none .hybrid 1e-10 50 f (by rw [hp, hf])
    have hl2 := solve_nl_linear_fields env t1 none .hybrid 1e-10 50 f (by rw [htp, hfl, hf])
    have hr1 := solve_nl_fields env s1 none .hybrid 1e-10 50
    have hr2 := solve_nl_fields env t1 none .hybrid 1e-10 50
    obtain ⟨h1, h2⟩ := solve_nl_keep env .hybrid 1e-10 50 hk none none f hss hst
    generalize solve_fields_nl env s1 none .hybrid 1e-10 50 = R at *
    generalize solve_fields_nl env t1 none .hybrid 1e-10 50 = R' at *
    obtain ⟨r', s2⟩ := R
    obtain ⟨r, t2⟩ := R'
    simp only at h1 h2 hl1 hl2 hr1 hr2
    subst h1
    rcases r with e | r
    · exact ⟨rfl, fun h => by cases h⟩
    · have h3 := h2 rfl
      have h4 : t2 = s2 := by
        unfold SameButFields at h3
        rw [h3, hl2, hfl, ← hl1, hr2 r rfl, hnt, htp, ← store_eq_of_none s.pol s.fields_nl t.fields_nl _ (fun c hc => (hs c hc).2)
          (fun c hc => (ht c (by rw [h.pol]; exact hc)).2), ← hns, ← hp, ← hr1 r rfl]
      exact ⟨rfl, fun _ => ⟨by rw [h4]; exact rfl, by rw [h4], fun _ => h4⟩⟩

theorem collect_linear (s t : Sim Nx Ny) (h : t.fields = s.fields) (l : List ObjArg) (hl : ∀ a ∈ l, a.nl = false) : Opt.collect t l = Opt.collect s l := by
  induction l with
  | nil => rfl
  | cons a l ih =>
    unfold Opt.collect
    rw [hl a List.mem_cons_self, h, ih fun a ha => hl a (List.mem_cons_of_mem _ ha)]
    rfl

/-- The fields of an objective, for the same device: same outcome, and same arguments. -/
theorem solveArgFields_keep (env : Env) (o : Opt Nx Ny) {s t : Sim Nx Ny} (h : SimKeep s t) (hs : Spec.OnlyPol s) (ht : Spec.OnlyPol t) (hcur : o.fields_current = false) :
    ∃ (e : Except PyErr Unit) (s1 t1 : Sim Nx Ny) (fl : Option (List (Grid Nx Ny ℂ))) (b : Bool),
      Opt.solveArgFields env { o with simulation := s } none = (e, { o with simulation := s1, field_arg_list := fl, fields_current := b }, none) ∧
      Opt.solveArgFields env { o with simulation := t } none = (e, { o with simulation := t1, field_arg_list := fl, fields_current := b }, none) ∧
      (∃ s', Opt.solveArgFields env o (some s) = (e, { o with field_arg_list := fl, fields_current := b }, some s')) ∧
      (∃ t', Opt.solveArgFields env o (some t) = (e, { o with field_arg_list := fl, fields_current := b }, some t')) ∧
      (e = .ok () → SimKeep s1 t1 ∧ t1.fields = s1.fields ∧ (o.objective.isLinear = false → t1 = s1)) := by
  obtain ⟨h1, h2⟩ := solveAll_keep env o.objective.isLinear h hs ht
  unfold Opt.solveArgFields
  simp only [hcur, true_or, if_true, Opt.target, Option.getD_none, Option.getD_some, Opt.putTarget]
  generalize Opt.solveAll env o.objective.isLinear s = R at *
  generalize Opt.solveAll env o.objective.isLinear t = R' at *
  obtain ⟨r', s1⟩ := R
  obtain ⟨r, t1⟩ := R'
  simp only at h1 h2
  subst h1
  rcases r with e | _
  · exact ⟨.error e, s1, t1, o.field_arg_list, false, by rw [← hcur], by rw [← hcur], ⟨s1, by rw [← hcur]⟩, ⟨t1, by rw [← hcur]⟩, fun h => by cases h⟩
  · obtain ⟨h3, h4, h5⟩ := h2 rfl
    have hc : Opt.collect t1 o.objective.arg_list = Opt.collect s1 o.objective.arg_list := by
      rcases hl : o.objective.isLinear with _ | _
      · rw [h5 hl]
      · exact collect_linear s1 t1 h4 _ ((isLinear_iff _).1 hl)
    simp only [hc]
    rcases Opt.collect s1 o.objective.arg_list with e | fs
    · exact ⟨.error e, s1, t1, o.field_arg_list, false, by rw [← hcur], by rw [← hcur], ⟨s1, by rw [← hcur]⟩, ⟨t1, by rw [← hcur]⟩, fun h => by cases h⟩
    · exact ⟨.ok (), s1, t1, some fs, true, rfl, rfl, ⟨s1, rfl⟩, ⟨t1, rfl⟩, fun _ => ⟨h3, h4, h5⟩⟩

theorem mem_zip_map {α β γ : Type*} (f : α → γ) (l : List α) (k : List β) (x : γ × β × α) (hx : x ∈ (l.map f).zip (k.zip l)) : x.1 = f x.2.2 ∧ x.2.2 ∈ l := by
  induction l generalizing k with
  | nil => simp at hx
  | cons a l ih =>
    cases k with
    | nil => simp at hx
    | cons b k =>
      simp only [List.map_cons, List.zip_cons_cons, List.mem_cons] at hx
      rcases hx with rfl | hx
      · exact ⟨rfl, List.mem_cons_self⟩
      · exact ⟨(ih k hx).1, List.mem_cons_of_mem _ (ih k hx).2⟩

/-- The gradient of a linear argument does not look at the nonlinear state. -/
theorem gradFn_linear_keep (env : Env) (o : Opt Nx Ny) {s t : Sim Nx Ny} (h : SimKeep s t) (c : Comp) (p Fz : Grid Nx Ny ℂ) :
    (Opt.gradFn env { o with simulation := t } (gradientMap c false) p Fz).1 = (Opt.gradFn env { o with simulation := s } (gradientMap c false) p Fz).1 ∧
    (Opt.gradFn env { o with simulation := t } (gradientMap c false) p Fz).2 = t ∧ (Opt.gradFn env { o with simulation := s } (gradientMap c false) p Fz).2 = s := by
  unfold SimKeep at h
  refine ⟨?_, by cases c <;> rfl, by cases c <;> rfl⟩
  rw [h]
  cases c <;> rfl

theorem dJLoop_linear_keep (env : Env) {k : ℕ} (l : List (GradFn × Fin k × ObjArg)) (dJ : (d : Fin k) → Except PyErr (Grid Nx Ny ℂ)) (o : Opt Nx Ny) {s t : Sim Nx Ny}
    (h : SimKeep s t) (hf : t.fields = s.fields) (hl : ∀ x ∈ l, x.2.2.nl = false ∧ x.1 = gradientMap x.2.2.component x.2.2.nl) (acc : Grid Nx Ny ℝ) :
    (Opt.dJLoop env l dJ { o with simulation := t } none acc).1 = (Opt.dJLoop env l dJ { o with simulation := s } none acc).1 := by
  induction l generalizing acc with
  | nil => rfl
  | cons x l ih =>
    obtain ⟨g, d, a⟩ := x
    obtain ⟨hn, hg⟩ := hl _ List.mem_cons_self
    simp only at hn hg
    rw [hn] at hg
    unfold Opt.dJLoop
    simp only [Opt.target, Option.getD_none, hn, Bool.false_eq_true, if_false, h.pol, hf]
    rcases s.fields s.pol.comp with _ | Fz
    · rfl
    · simp only
      rcases dJ d with e | p
      · rfl
      · simp only [hg]
        obtain ⟨h1, h2, h3⟩ := gradFn_linear_keep env o h a.component p Fz
        generalize Opt.gradFn env { o with simulation := s } (gradientMap a.component false) p Fz = R at *
        generalize Opt.gradFn env { o with simulation := t } (gradientMap a.component false) p Fz = R' at *
        obtain ⟨r', s1⟩ := R
        obtain ⟨r, t1⟩ := R'
        simp only at h1 h2 h3
        subst h1 h2 h3
        rcases r with e | gr
        · rfl
        · exact ih (fun x hx => hl x (List.mem_cons_of_mem _ hx)) _

/-- **C71, objective.** With `fields_current = False`, `compute_J(sim)` — for any objective, linear or nonlinear, and either polarisation — gives the value (or exception) it gives for the
same device with nothing solved yet, whether `sim` is the optimisation's own simulation or another object. -/
theorem C71_compute_J (env : Env) (o : Opt Nx Ny) (hcur : o.fields_current = false) (s : Sim Nx Ny) (hs : Spec.OnlyPol s) :
    (Opt.compute_J env o (some s)).1 = (Opt.compute_J env o (some (Spec.pristine s))).1 ∧
    (Opt.compute_J env { o with simulation := s } none).1 = (Opt.compute_J env { o with simulation := Spec.pristine s } none).1 ∧
    (Opt.compute_J env { o with simulation := s } none).1 = (Opt.compute_J env o (some s)).1 := by
  obtain ⟨e, s1, t1, fl, b, h1, h2, ⟨s', h3⟩, ⟨t', h4⟩, -⟩ := solveArgFields_keep env o (pristine_keep s) hs (pristine_onlyPol s) hcur
  unfold Opt.compute_J
  rw [h1, h2, h3, h4]
  rcases e with e | _ <;> exact ⟨rfl, rfl, rfl⟩

/-- **C71, gradient.** The same for `compute_dJ` of the optimisation's own simulation, for an objective built by the constructors. -/
theorem C71_compute_dJ (env : Env) (o : Opt Nx Ny) (J : ObjFn Nx Ny) (args : List ObjArg) (hobj : Objective.init J args = .ok o.objective)
    (hargs : ∀ a ∈ args, ∃ c nl, ObjArg.init c nl = .ok a) (hcur : o.fields_current = false) (s : Sim Nx Ny) (hs : Spec.OnlyPol s) :
    (Opt.compute_dJ env { o with simulation := s } none).1 = (Opt.compute_dJ env { o with simulation := Spec.pristine s } none).1 := by
  obtain ⟨e, s1, t1, fl, b, h1, h2, -, -, h5⟩ := solveArgFields_keep env o (pristine_keep s) hs (pristine_onlyPol s) hcur
  unfold Opt.compute_dJ
  rw [h1, h2]
  rcases e with e | _
  · rfl
  · obtain ⟨h6, h7, h8⟩ := h5 rfl
    simp only
    rcases hl : o.objective.isLinear with _ | _
    · rw [h8 hl]
    · refine (dJLoop_linear_keep env _ _ { o with field_arg_list := fl, fields_current := b } h6 h7 (fun x hx => ?_) _).symm
      obtain ⟨-, hob⟩ := objective_init_ok hobj
      have hlin := (isLinear_iff _).1 hl
      have ha : o.objective.arg_list = args := by rw [hob]; rfl
      have hg : o.objective.grad_fn_list = o.objective.arg_list.map ObjArg.gradient := by rw [hob]; rfl
      rw [hg] at hx
      obtain ⟨hx1, hx2⟩ := mem_zip_map _ _ _ x hx
      refine ⟨hlin _ hx2, ?_⟩
      rw [ha] at hx2
      obtain ⟨c, nl, hin⟩ := hargs _ hx2
      rw [hx1]
      unfold ObjArg.init at hin
      generalize compOfString c = q at hin
      rcases q with _ | cc
      · cases hin
      · simp only [Except.ok.injEq] at hin
        rw [← hin]

/-- **C71 (partial), nonlinear solves.** Full claim: `solve_fields_nl()` without a starting field returns what it returns for the same device with nothing solved yet.
Proved when no linear field is stored, or the stored one belongs to the present source — e.g. directly after `solve_fields()`, after assigning `eps_r`, or if the source never changed after the
last solve.  Missing: a source assigned after the last linear solve, where it is false (`C71_stale_start_false`). -/
theorem C71_solve_nl_partial (env : Env) (s : Sim Nx Ny) (solver : NlSolver) (thr : ℝ) (n : ℕ)
    (h : s.fields s.pol.comp = none ∨ s.fields s.pol.comp = (s.solve_fields env).2.fields s.pol.comp) :
    (solve_fields_nl env s none solver thr n).1 = (solve_fields_nl env (Spec.pristine s) none solver thr n).1 := by
  obtain ⟨u, hu⟩ := solve_fields_eq env s false
  have hu' := solve_keep env (pristine_keep s) false
  rw [hu] at hu'
  have hstore : Sim.store s.pol s.fields u s.pol.comp = some u.2.2 := by cases s.pol <;> rfl
  have ht : (startField env (Spec.pristine s) none).1 = .ok u.2.2 := by
    unfold startField
    show ((Spec.pristine s).solve_fields env).1.map (fun t => t.2.2) = _
    rw [hu']
    rfl
  refine (solve_nl_keep env solver thr n (pristine_keep s) none none u.2.2 ?_ ht).1.symm
  unfold startField
  rcases h with h | h
  · simp only [h, hu]
    rfl
  · rw [hu] at h
    simp only [hstore] at h
    simp only [h]

/-- **C71**, where the hypotheses come from: after every history of operations on a constructed simulation, only components of its polarisation are stored, and
`Spec.pristine` of it is a newly constructed simulation with the present permittivity, given the present source, nonlinearities and density. -/
theorem C71_pristine_is_new (env : Env) (omega : ℝ) (eps : Grid Nx Ny ℂ) (dl : ℝ) (NPML : Sim.NPMLArg) (pol : String) (L0 : ℝ) (s0 : Sim Nx Ny)
    (h0 : Sim.init omega eps dl NPML pol L0 = .ok s0) (ops : List (Op Nx Ny)) :
    let s := runOps env s0 ops
    Spec.OnlyPol s ∧ ∃ t, Spec.fresh s s.src = .ok t ∧ Spec.pristine s = { t with nonlinearity := s.nonlinearity, rho := s.rho } := by
  intro s
  have h : Inv env s := (Inv.init h0).runOps ops
  refine ⟨(C18_only_pol_components env omega eps dl NPML pol L0 s0 h0 ops).1, ?_⟩
  have hc : Sim.check_inputs s.omega s.L0 (.list [(s.NPML.1 : ℝ), (s.NPML.2 : ℝ)]) (Spec.polName s.pol) = .ok (((s.NPML.1 : ℝ), (s.NPML.2 : ℝ)), s.pol) := by
    simp only [Sim.check_inputs, h.valid.L0_pos, h.valid.omega_pos, not_true_eq_false, if_false, Nat.cast_nonneg, and_self]
    cases s.pol <;> simp [Spec.polName]
  refine ⟨_, by simp only [Spec.fresh, Sim.init, hc]; rfl, ?_⟩
  have hA := h.valid.A_eq
  have hD : s.derivs = (construct_A s.omega s.xrange s.yrange s.eps_r s.NPML s.pol s.L0).2 := by rw [construct_A_derivs]; exact h.valid.derivs_eq
  rw [h.valid.xr, h.valid.yr] at hA hD
  have hx := h.valid.xr
  have hy := h.valid.yr
  unfold Spec.pristine Sim.set_eps_r
  simp only [Nat.floor_natCast]
  generalize s = s' at *
  cases s'
  simp only at hA hD hx hy ⊢
  subst hA hD hx hy
  rfl

/-! ## A stale start -/

/-- `2 × 2` periodic grid, `ε = 10`, `3χ = -1` (defocusing): on uniform fields the Kerr equation is `(10 - |f|²) f = i S`, with several solutions. -/
noncomputable def qsim (src : Grid 2 2 ℂ) : Sim 2 2 := { wsim .Ez (fun _ _ => 10) src with nonlinearity := [⟨-1 / 3, fun _ _ => 1, none⟩] }

theorem qsim_sum (src : Grid 2 2 ℂ) (i j : Fin 2) : Spec.kerrSum (qsim src).nonlinearity (qsim src).eps_r i j = -1 := by
  simp [Spec.kerrSum, Spec.kerrCoef, qsim]
  norm_num

theorem qsim_bornMat (src F f : Grid 2 2 ℂ) : bornMat (qsim src) F *ᵥ flatten f = flatten fun i j =>
    2 * (f (1 - i) j - f i j) + 2 * (f i (1 - j) - f i j) + (10 - ((‖F i j‖ ^ 2 : ℝ) : ℂ)) * f i j := by
  have hA : (qsim src).A = (wsim .Ez (fun _ _ => 10) src).A := rfl
  rw [bornMat, Matrix.add_mulVec, kerrMat_mulVec, hA, wsim_Ez_apply]
  refine flat_ext fun i j => ?_
  simp only [Pi.add_apply, flatten_pair, qsim_sum, unit_coef (qsim src) rfl rfl]
  ring

theorem qsim_det (src : Grid 2 2 ℂ) (c : ℂ) (h1 : ‖c‖ ^ 2 ≠ 10) (h2 : ‖c‖ ^ 2 ≠ 6) (h3 : ‖c‖ ^ 2 ≠ 2) : (bornMat (qsim src) fun _ _ => c).det ≠ 0 := by
  refine det_ne_zero_of_inj fun v hv => ?_
  rw [← flatten_unflatten (Nx := 2) (Ny := 2) v] at hv ⊢
  generalize (unflatten v : Grid 2 2 ℂ) = f at hv ⊢
  rw [qsim_bornMat, flatten_eq_zero] at hv
  rw [flatten_eq_zero]
  have nz : ∀ r : ℝ, ‖c‖ ^ 2 ≠ r → ((r - ‖c‖ ^ 2 : ℝ) : ℂ) ≠ 0 := fun r hr => by
    have : r - ‖c‖ ^ 2 ≠ 0 := fun h => hr (by linarith)
    exact_mod_cast this
  refine torus_inj (a := ((6 - ‖c‖ ^ 2 : ℝ) : ℂ)) (b := 2) ?_ (nz _ h2) ?_ f fun i j => ?_
  · have := nz 10 h1
    intro h; apply this; rw [← h]; push_cast; ring
  · have := nz 2 h3
    intro h; apply this; rw [← h]; push_cast; ring
  · have := congrFun (congrFun hv i) j
    simp only [Pi.zero_apply] at this
    rw [← this]
    push_cast
    ring

theorem qsim_bornStep (env : Env) (he : env.Exact) (S c d : ℂ) (h1 : ‖c‖ ^ 2 ≠ 10) (h2 : ‖c‖ ^ 2 ≠ 6) (h3 : ‖c‖ ^ 2 ≠ 2) (h : (10 - ((‖c‖ ^ 2 : ℝ) : ℂ)) * d = S * Complex.I) :
    (bornStep env (qsim fun _ _ => S) fun _ _ => c).2.2 = fun _ _ => d := by
  rw [bornStep_third]
  apply flatten_injective
  rw [flatten_unflatten]
  refine solver_direct_unique he (qsim_det _ c h1 h2 h3) ?_
  rw [qsim_bornMat]
  refine flat_ext fun i j => ?_
  have e : (qsim fun _ _ => S).rhs (finProdFinEquiv (i, j)) = S * Complex.I * ((1 : ℝ) : ℂ) := rfl
  rw [e]
  simp only [flatten_pair, sub_self, mul_zero, zero_add]
  rw [h]; simp

theorem qsim_A (src : Grid 2 2 ℂ) : bornMat (qsim src) (fun _ _ => 0) = (qsim src).A := by
  have : kerrMat (qsim src) (fun _ _ => 0) = 0 := by
    unfold kerrMat
    have h : (flatten fun i j => (((qsim src).omega ^ 2 * EPSILON_0 * (qsim src).L0 : ℝ) : ℂ) *
        (Spec.kerrSum (qsim src).nonlinearity (qsim src).eps_r i j * ((‖(0 : ℂ)‖ ^ 2 : ℝ) : ℂ))) = 0 :=
      flat_ext fun i j => by rw [flatten_pair]; simp
    rw [h]
    ext a b
    simp [spdiag]
  rw [bornMat, this, add_zero]

/-- The linear field of the witness. -/
theorem qsim_linear (env : Env) (he : env.Exact) (S d : ℂ) (h : 10 * d = S * Complex.I) : solver_direct env (qsim fun _ _ => S).A (qsim fun _ _ => S).rhs = flatten fun _ _ => d := by
  rw [← qsim_A]
  refine (solver_direct_unique he (qsim_det _ 0 (by simp) (by simp) (by simp)) ?_)
  rw [qsim_bornMat]
  refine flat_ext fun i j => ?_
  have e : (qsim fun _ _ => S).rhs (finProdFinEquiv (i, j)) = S * Complex.I * ((1 : ℝ) : ℂ) := rfl
  rw [e]
  simp only [flatten_pair, sub_self, mul_zero, zero_add, norm_zero, ne_eq, OfNat.ofNat_ne_zero, not_false_eq_true, zero_pow, Complex.ofReal_zero, sub_zero]
  rw [h]; simp

/-- Uniform Born iterates from the linear field `3/10`. -/
noncomputable def qseq : ℕ → ℝ
  | 0 => 3 / 10
  | k + 1 => 3 / (10 - qseq k ^ 2)

theorem qseq_mem (k : ℕ) : 3 / 10 ≤ qseq k ∧ qseq k ≤ 1 / 3 := by
  induction k with
  | zero => norm_num [qseq]
  | succ k ih =>
    obtain ⟨h1, h2⟩ := ih
    have hp : (0 : ℝ) < 10 - qseq k ^ 2 := by nlinarith
    simp only [qseq]
    constructor
    · rw [le_div_iff₀ hp]; nlinarith
    · rw [div_le_iff₀ hp]; nlinarith

theorem qseq_step (k : ℕ) : |qseq (k + 1) - qseq k| ≤ (1 / 10) ^ k * (1 / 30) := by
  induction k with
  | zero =>
    have h := qseq_mem 1
    rw [abs_of_nonneg (by have := h.1; simp only [qseq] at this ⊢; linarith)]
    have := h.2
    simp only [qseq] at this ⊢
    linarith
  | succ k ih =>
    obtain ⟨a1, a2⟩ := qseq_mem k
    obtain ⟨b1, b2⟩ := qseq_mem (k + 1)
    have hp : (0 : ℝ) < 10 - qseq k ^ 2 := by nlinarith
    have hq : (0 : ℝ) < 10 - qseq (k + 1) ^ 2 := by nlinarith
    have e : qseq (k + 2) - qseq (k + 1) = (qseq (k + 1) - qseq k) * (3 * (qseq (k + 1) + qseq k) / ((10 - qseq (k + 1) ^ 2) * (10 - qseq k ^ 2))) := by
      have e1 : qseq (k + 2) = 3 / (10 - qseq (k + 1) ^ 2) := rfl
      have e2 : qseq (k + 1) - qseq k = 3 / (10 - qseq k ^ 2) - qseq k := rfl
      have e3 : qseq (k + 1) = 3 / (10 - qseq k ^ 2) := rfl
      have : qseq (k + 2) - qseq (k + 1) = 3 / (10 - qseq (k + 1) ^ 2) - 3 / (10 - qseq k ^ 2) := by rw [e1, ← e3]
      rw [this]
      clear e1 e2 e3 this
      field_simp
      ring
    have hb : 3 * (qseq (k + 1) + qseq k) / ((10 - qseq (k + 1) ^ 2) * (10 - qseq k ^ 2)) ≤ 1 / 10 := by
      rw [div_le_iff₀ (by positivity)]
      have h9 : (9 : ℝ) ≤ 10 - qseq k ^ 2 := by nlinarith
      have h9' : (9 : ℝ) ≤ 10 - qseq (k + 1) ^ 2 := by nlinarith
      nlinarith
    have hb0 : 0 ≤ 3 * (qseq (k + 1) + qseq k) / ((10 - qseq (k + 1) ^ 2) * (10 - qseq k ^ 2)) := by positivity
    rw [e, abs_mul, abs_of_nonneg hb0, pow_succ]
    calc _ ≤ ((1 / 10) ^ k * (1 / 30)) * (1 / 10 : ℝ) := mul_le_mul ih hb hb0 (by positivity)
      _ = _ := by ring

theorem norm_ofReal_sq (x : ℝ) : ‖(x : ℂ)‖ ^ 2 = x ^ 2 := by rw [Complex.norm_real, Real.norm_eq_abs, sq_abs]

theorem qsim_iter (env : Env) (he : env.Exact) (k : ℕ) : bornIter env (qsim fun _ _ => -3 * Complex.I) (fun _ _ => ((3 / 10 : ℝ) : ℂ)) k = fun _ _ => (qseq k : ℂ) := by
  induction k with
  | zero => rfl
  | succ k ih =>
    obtain ⟨a1, a2⟩ := qseq_mem k
    rw [bornIter_succ, ih]
    have hs : ‖(qseq k : ℂ)‖ ^ 2 ≤ 1 := by rw [norm_ofReal_sq]; nlinarith
    refine qsim_bornStep env he _ _ _ (by linarith) (by linarith) (by linarith) ?_
    have hp : (10 - qseq k ^ 2 : ℝ) ≠ 0 := by nlinarith
    have : (10 - ((‖(qseq k : ℂ)‖ ^ 2 : ℝ) : ℂ)) * ((qseq (k + 1) : ℝ) : ℂ) = 3 := by
      rw [norm_ofReal_sq]
      have : (10 - qseq k ^ 2) * qseq (k + 1) = 3 := by simp only [qseq]; field_simp
      exact_mod_cast this
    rw [this]
    linear_combination (3 : ℂ) * Complex.I_mul_I

/-- The default nonlinear solve of the witness from a converging start returns the Born field. -/
theorem hybrid_of_born (env : Env) (s : Sim Nx Ny) (E0 : Grid Nx Ny ℂ) (hE : ∀ E1, Spec.StartsAt env s none E1 → E1 = E0) (k : ℕ) (hk : k < 19)
    (hc : (bornConv env s E0 k).Lt 1e-10) : ∃ r m, (solve_fields_nl env s).1 = .ok r ∧ m ≤ k ∧ r.Fz = bornIter env s E0 (m + 1) := by
  obtain ⟨E1, fl, m, conv, hst, hm, heq, hnot, hstop, hlen, hrow, hzero⟩ := born_solve_spec env s none 1e-10 19
  have := hE _ hst
  subst this
  have hmk : m ≤ k := by
    by_contra h
    exact hnot k (by omega) hc
  obtain ⟨r, s1, m', c, Fprev, h1, h2, h3, h4, h5, h6, h7, h8⟩ := C27_hybrid_exact env s none 1e-10 100
  rw [heq] at h1
  cases h1
  refine ⟨_, m, h8 ?_, hmk, rfl⟩
  rintro ⟨rfl, hgt⟩
  have h9 := hzero 19 (by omega) (by omega)
  rw [h3] at h9
  cases h9
  simp only [PyFloat.Gt] at hgt
  norm_num at hgt

/-- The witness is what the constructor and `add_nl` make. -/
theorem wsim_made (e : Grid 2 2 ℂ) : Sim.init 1 e (1 / ETA_0) (.list [0, 0]) "Ez" (1 / EPSILON_0) = .ok (wsim .Ez e fun _ _ => 0) := by
  have h1 : (0 : ℝ) < 1 / EPSILON_0 := one_div_pos.2 EPSILON_0_pos
  have hc : Sim.check_inputs 1 (1 / EPSILON_0) (.list [0, 0]) "Ez" = .ok (((0 : ℝ), (0 : ℝ)), .Ez) := by
    simp [Sim.check_inputs, EPSILON_0_pos]
  simp only [Sim.init, hc, bind, Except.bind, Nat.floor_zero]
  rfl

theorem qsim_made (env : Env) (f : Grid 2 2 ℂ) (ops : List (Op 2 2)) :
    runOps env (wsim .Ez (fun _ _ => 10) fun _ _ => 0) (.addNl (-(1 / EPSILON_0) ^ 2 / 3) (fun _ _ => 1) "kerr" false none :: .setSrc f :: ops) = runOps env (qsim f) ops := by
  have hL : (1 / EPSILON_0 : ℝ) ≠ 0 := (one_div_pos.2 EPSILON_0_pos).ne'
  have hn : Nonlinearity.init (-(1 / EPSILON_0) ^ 2 / 3 / (1 / EPSILON_0) ^ 2) (fun (_ _ : Fin 2) => 1) "kerr" false none = .ok ⟨-1 / 3, fun _ _ => 1, none⟩ := by
    rw [show -(1 / EPSILON_0) ^ 2 / 3 / (1 / EPSILON_0) ^ 2 = -1 / 3 by rw [div_div, mul_comm, ← div_div, neg_div, div_self (pow_ne_zero 2 hL)]]
    rfl
  have h : (wsim .Ez (fun _ _ => 10) fun _ _ => 0).add_nl (-(1 / EPSILON_0) ^ 2 / 3) (fun _ _ => 1) "kerr" false none = (.ok (), qsim fun _ _ => 0) := by
    unfold Sim.add_nl
    rw [show (wsim .Ez (fun _ _ => 10) fun _ _ => 0).L0 = 1 / EPSILON_0 from rfl, hn]
    rfl
  simp only [runOps, List.foldl_cons, Op.run, h]
  rfl

/-- **C71**, the default start is not always harmless: with a stale linear field in store (solve, change the source, then `solve_fields_nl()`), the default solve returns
another solution than the one returned when nothing had been solved before. -/
theorem C71_stale_start_false (env : Env) (he : env.Exact) : ∃ (s0 : Sim 2 2) (f1 f2 : Grid 2 2 ℂ) (nl : Op 2 2) (r r' : NlResult 2 2),
    Sim.init 1 (fun _ _ => 10) (1 / ETA_0) (.list [0, 0]) "Ez" (1 / EPSILON_0) = .ok s0 ∧
    nl = .addNl (-(1 / EPSILON_0) ^ 2 / 3) (fun _ _ => 1) "kerr" false none ∧
    (solve_fields_nl env (runOps env s0 [nl, .setSrc f1, .solve false, .setSrc f2])).1 = .ok r ∧
    (solve_fields_nl env (runOps env s0 [nl, .setSrc f2])).1 = .ok r' ∧
    (∀ i j, r.Fz i j = 3) ∧ ∀ i j, ‖r'.Fz i j‖ < 1 := by
  set S : ℂ := -3 * Complex.I with hS
  have hSI : S * Complex.I = 3 := by rw [hS]; linear_combination (-3 : ℂ) * Complex.I_mul_I
  -- after the history with a solve
  obtain ⟨t, ht⟩ := solve_fields_eq env (qsim fun _ _ => 10 * S) false
  have htz : t.2.2 = fun _ _ => 3 := by
    have h1 : ((qsim fun _ _ => 10 * S).solve_fields env false false).1 = .ok t := by rw [ht]
    have h2 : ((qsim fun _ _ => 10 * S).solve_fields env false false).1 =
        .ok ((qsim fun _ _ => 10 * S).in_plane false (qsim fun _ _ => 10 * S).eps_r (solver_direct env (qsim fun _ _ => 10 * S).A (qsim fun _ _ => 10 * S).rhs)) := rfl
    rw [h1] at h2
    cases h2
    rw [qsim_linear env he (10 * S) 3 (by rw [mul_assoc, hSI])]
    exact (show _ = unflatten (flatten fun _ _ => (3 : ℂ)) from rfl).trans (unflatten_flatten _)
  have hrun : runOps env (qsim fun _ _ => 10 * S) [.solve false, .setSrc fun _ _ => S] =
      { qsim (fun _ _ => S) with fields := Sim.store .Ez (fun _ => none) t } := by
    simp only [runOps, List.foldl_cons, List.foldl_nil, Op.run]
    rw [ht]
    rfl
  have hk : SimKeep (qsim fun _ _ => S) ({ qsim (fun _ _ => S) with fields := Sim.store .Ez (fun _ => none) t } : Sim 2 2) := rfl
  generalize hu : ({ qsim (fun _ _ => S) with fields := Sim.store .Ez (fun _ => none) t } : Sim 2 2) = u at hrun hk
  have hub : ∀ k, bornIter env u (fun _ _ => 3) k = fun _ _ => 3 := by
    intro k
    induction k with
    | zero => rfl
    | succ k ih =>
      rw [bornIter_succ, ih, bornStep_keep env hk]
      refine qsim_bornStep env he S 3 3 ?_ ?_ ?_ ?_
      all_goals norm_num
      rw [hSI]
  obtain ⟨r, m, hr, -, hrz⟩ := hybrid_of_born env u (fun _ _ => 3) (fun E1 h => h.2.1 rfl _ (by
    subst hu
    change Sim.store .Ez (fun _ => none) t .Ez = _
    simp only [Sim.store, htz])) 0 (by norm_num) (by
      rw [bornConv, hub, hub, convergence_uniform _ _ (by norm_num)]
      simp only [PyFloat.Lt]
      norm_num)
  obtain ⟨r', m', hr', -, hrz'⟩ := hybrid_of_born env (qsim fun _ _ => S) (fun _ _ => ((3 / 10 : ℝ) : ℂ)) (fun E1 h => by
    obtain ⟨Fx, Fy, h2⟩ := h.2.2 rfl rfl
    have h3 : ((qsim fun _ _ => S).solve_fields env).1 =
        .ok ((qsim fun _ _ => S).in_plane false (qsim fun _ _ => S).eps_r (solver_direct env (qsim fun _ _ => S).A (qsim fun _ _ => S).rhs)) := rfl
    rw [h3, qsim_linear env he S ((3 / 10 : ℝ) : ℂ) (by rw [hSI]; push_cast; norm_num)] at h2
    have h4 := congrArg (fun p => p.2.2) (Except.ok.inj h2)
    exact h4.symm.trans ((show _ = unflatten (flatten fun _ _ => ((3 / 10 : ℝ) : ℂ)) from rfl).trans (unflatten_flatten _))) 10 (by norm_num) (by
      obtain ⟨b1, b2⟩ := qseq_mem 11
      have hs := qseq_step 10
      rw [bornConv, qsim_iter env he, qsim_iter env he, convergence_uniform _ _ (by norm_cast; intro h; rw [h] at b1; norm_num at b1)]
      simp only [PyFloat.Lt]
      rw [← Complex.ofReal_sub, Complex.norm_real, Complex.norm_real, Real.norm_eq_abs, Real.norm_eq_abs, abs_of_nonneg (show (0 : ℝ) ≤ qseq (10 + 1) by linarith)]
      rw [div_lt_iff₀ (by linarith)]
      norm_num at hs ⊢
      nlinarith)
  refine ⟨_, fun _ _ => 10 * S, fun _ _ => S, _, r, r', wsim_made _, rfl, ?_, ?_, ?_, ?_⟩
  · rw [qsim_made, hrun, hr]
  · rw [qsim_made]
    exact hr'
  · intro i j
    rw [hrz, hub]
  · intro i j
    rw [hrz', qsim_iter env he]
    obtain ⟨b1, b2⟩ := qseq_mem (m' + 1)
    rw [Complex.norm_real, Real.norm_eq_abs, abs_of_nonneg (by linarith)]
    linarith

/-- Directly after a linear solve a (nonzero) field is stored and belongs to the present source. -/
example (env : Env) (he : env.Exact) : let s := ((qsim fun _ _ => -30 * Complex.I).solve_fields env).2
    s.fields s.pol.comp = some (fun _ _ => 3) ∧ s.fields s.pol.comp = (s.solve_fields env).2.fields s.pol.comp := by
  intro s
  refine ⟨?_, rfl⟩
  have h := qsim_linear env he (-30 * Complex.I) 3 (by linear_combination (30 : ℂ) * Complex.I_mul_I)
  change some (unflatten (solver_direct env (qsim fun _ _ => -30 * Complex.I).A (qsim fun _ _ => -30 * Complex.I).rhs)) = _
  rw [h, unflatten_flatten]

/-- A history with linear and nonlinear solves after which only `Ez` components are stored. -/
example (env : Env) : Spec.OnlyPol (runOps env (wsim .Ez (fun _ _ => 10) fun _ _ => 0)
    [.addNl 1 (fun _ _ => 1) "kerr" false none, .setSrc fun _ _ => 1, .solve false, .solveNl none .hybrid 1e-10 50]) :=
  (C71_pristine_is_new env _ _ _ _ _ _ _ (wsim_made _) _).1

end Angler
