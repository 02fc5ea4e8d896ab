import Verif.Props.SimState
import Verif.Lemmas.Gradient
import Verif.Lemmas.GradientEz

/-! # What the solves behind `compute_J` leave in the simulation -/

namespace Angler

variable {Nx Ny : ℕ}

theorem store_belongs (pol : Pol) (f : Fields Nx Ny) (t : Grid Nx Ny ℂ × Grid Nx Ny ℂ × Grid Nx Ny ℂ) (c : Comp) (h : Spec.belongs pol c) :
    (Sim.store pol f t c).isSome := by
  revert h
  cases pol <;> cases c <;> simp [Sim.store, Spec.belongs]

theorem store_other (pol : Pol) (f : Fields Nx Ny) (t : Grid Nx Ny ℂ × Grid Nx Ny ℂ × Grid Nx Ny ℂ) (c : Comp) (h : ¬ Spec.belongs pol c) :
    Sim.store pol f t c = f c := by
  revert h
  cases pol <;> cases c <;> simp [Sim.store, Spec.belongs]

theorem belongs_comp (pol : Pol) : Spec.belongs pol pol.comp := by cases pol <;> trivial

/-- A finished Born iteration leaves the matrix `Anl` set. -/
theorem bornLoop_Anl (env : Env) (thr : ℝ) (fuel istep : ℕ) (s s2 : Sim Nx Ny) (Fz conv last x cv)
    (h : bornLoop env thr fuel istep s Fz conv last = (.ok (some x, cv), s2)) (hl : last = none ∨ s.Anl.isSome) : s2.Anl.isSome := by
  induction fuel generalizing istep s Fz conv last with
  | zero =>
    simp only [bornLoop, Prod.mk.injEq, Except.ok.injEq] at h
    rcases hl with hl | hl
    · rw [hl] at h; exact absurd h.1.1 (by simp)
    · rw [← h.2]; exact hl
  | succ n ih =>
    have hs := Frame.solve_incl env (s.compute_nl Fz) false
    unfold bornLoop at h
    rcases hr : (s.compute_nl Fz).solve_fields env true with ⟨r, s3⟩
    rw [hr] at hs
    simp only at hs
    subst hs
    rcases r with e | ⟨Fx, Fy, Fz'⟩
    · simp only [hr] at h; cases h
    · simp only [hr] at h
      by_cases hc : (convergence Fz' Fz).Lt thr
      · rw [if_pos hc] at h
        have h2 := (Prod.mk.inj h).2
        rw [← h2]; rfl
      · rw [if_neg hc] at h
        exact ih _ _ _ _ _ h (Or.inr rfl)

theorem born_solve_Anl (env : Env) (s : Sim Nx Ny) (E : Option (Grid Nx Ny ℂ)) (thr : ℝ) (n : ℕ) (r : NlResult Nx Ny) (s2 : Sim Nx Ny)
    (h : born_solve env s E thr n = (.ok r, s2)) : s2.Anl.isSome := by
  unfold born_solve at h
  generalize startField env s E = R at h
  rcases R with ⟨e | Fz, s1⟩
  · cases h
  · simp only at h
    rcases hb : bornLoop env thr n 0 s1 Fz (List.replicate n (.fin 0)) none with ⟨e | ⟨_ | x, cv⟩, s3⟩
    · rw [hb] at h; cases h
    · rw [hb] at h; cases h
    · rw [hb] at h
      have h2 := (Prod.mk.inj h).2
      rw [← h2]
      exact bornLoop_Anl env thr n 0 s1 s3 Fz _ none x cv hb (Or.inl rfl)

theorem newton_solve_Anl (env : Env) (s : Sim Nx Ny) (E : Option (Grid Nx Ny ℂ)) (thr : ℝ) (n : ℕ) (r : NlResult Nx Ny) (s2 : Sim Nx Ny)
    (h : newton_solve env s E thr n = (.ok r, s2)) : s2.Anl.isSome := by
  unfold newton_solve at h
  cases hp : s.pol with
  | Hz => rw [hp] at h; cases h
  | Ez =>
    rw [hp] at h
    simp only at h
    generalize startField env s E = R at h
    rcases R with ⟨e | E0, s1⟩
    · cases h
    · simp only at h
      generalize newtonLoop env thr n 0 s1 E0 (List.replicate n (.fin 0)) none = R at h
      rcases R with ⟨e | ⟨Ez, last, cv⟩, s3⟩
      · cases h
      · simp only at h
        have hs := Frame.solve_incl env (s3.compute_nl Ez) false
        rcases hr : (s3.compute_nl Ez).solve_fields env true with ⟨e | ⟨a, b, c⟩, s4⟩
        · rw [hr] at h; cases h
        · rw [hr] at h hs
          simp only at h hs
          subst hs
          rcases last with _ | l
          · cases h
          · have h2 := (Prod.mk.inj h).2
            rw [← h2]; rfl

/-- After a successful nonlinear solve (default arguments) the matrix `Anl` is set. -/
theorem solve_fields_nl_Anl (env : Env) (s : Sim Nx Ny) (r : NlResult Nx Ny) (s2 : Sim Nx Ny) (h : solve_fields_nl env s = (.ok r, s2)) : s2.Anl.isSome := by
  unfold solve_fields_nl at h
  simp only at h
  rcases hb : born_solve env s none 1e-10 20 with ⟨e | r0, s1⟩
  · rw [hb] at h; cases h
  · rw [hb] at h
    simp only at h
    by_cases hc : ((r0.conv.getLast?).getD (.fin 0)).Gt 1e-10
    · rw [if_pos hc] at h
      rcases hn : newton_solve env s1 (some r0.Fz) 1e-10 20 with ⟨e | r1, s3⟩
      · rw [hn] at h; cases h
      · rw [hn] at h
        have h2 := (Prod.mk.inj h).2
        rw [← h2]
        exact newton_solve_Anl env s1 _ _ _ r1 s3 hn
    · rw [if_neg hc] at h
      have h2 := (Prod.mk.inj h).2
      rw [← h2]
      exact born_solve_Anl env s none _ _ r0 s1 hb

/-- What holds after the solves of `_solve_objfn_arg_fields` succeeded. -/
structure Solved (lin : Bool) (s s1 : Sim Nx Ny) : Prop where
  pol : s1.pol = s.pol
  rho : s1.rho = s.rho
  fields : ∀ c, Spec.belongs s.pol c → (s1.fields c).isSome
  fields_nl : lin = false → ∀ c, Spec.belongs s.pol c → (s1.fields_nl c).isSome
  Anl : lin = false → s1.Anl.isSome
  other : ∀ c, ¬ Spec.belongs s.pol c → s1.fields c = s.fields c ∧ s1.fields_nl c = s.fields_nl c

theorem solve_fields_eq (env : Env) (s : Sim Nx Ny) (avg : Bool) :
    ∃ t, s.solve_fields env false avg = (.ok t, { s with fields := Sim.store s.pol s.fields t }) := ⟨_, rfl⟩

theorem solveAll_ok (env : Env) (lin : Bool) (s s1 : Sim Nx Ny) (h : Opt.solveAll env lin s = (.ok (), s1)) : Solved lin s s1 := by
  obtain ⟨t, ht⟩ := solve_fields_eq env s false
  simp only [Opt.solveAll, ht] at h
  cases lin with
  | true =>
    simp only [if_true] at h
    have h2 := (Prod.mk.inj h).2
    subst h2
    exact ⟨rfl, rfl, fun c hc => store_belongs _ _ _ c hc, fun h => absurd h (by decide), fun h => absurd h (by decide), fun c hc => ⟨store_other _ _ _ c hc, rfl⟩⟩
  | false =>
    simp only [Bool.false_eq_true, if_false] at h
    obtain ⟨s3, hf, hcase⟩ := Frame.solve_fields_nl env { s with fields := Sim.store s.pol s.fields t } none .hybrid 1e-10 50
    rcases hn : solve_fields_nl env { s with fields := Sim.store s.pol s.fields t } with ⟨e | r, s4⟩
    · rw [hn] at h; cases h
    · rw [hn] at h hcase
      simp only [Prod.mk.injEq, true_and] at h
      subst h
      rcases hcase with ⟨e, he, -⟩ | ⟨r', he, hs⟩
      · cases he
      · simp only at hs
        have hfl : s3.fields = Sim.store s.pol s.fields t := by
          rcases hf.fields with h1 | ⟨h1, -⟩
          · exact h1
          · have := store_belongs s.pol s.fields t s.pol.comp (belongs_comp _)
            simp only at h1
            rw [h1] at this
            cases this
        have hpol : s3.pol = s.pol := by rw [hf.core]
        have hrho : s3.rho = s.rho := by rw [hf.core]
        have hnl : s3.fields_nl = s.fields_nl := by rw [hf.core]
        refine ⟨by rw [hs, ← hpol], by rw [hs, ← hrho], fun c hc => ?_, fun _ c hc => ?_, fun _ => ?_, fun c hc => ⟨?_, ?_⟩⟩
        · rw [hs]
          simp only [hfl]
          exact store_belongs _ _ _ c hc
        · rw [hs]
          simp only [hpol]
          exact store_belongs _ _ _ c hc
        · exact solve_fields_nl_Anl env _ r _ hn
        · rw [hs]
          simp only [hfl]
          exact store_other _ _ _ c hc
        · rw [hs]
          simp only [hpol, hnl]
          exact store_other _ _ _ c hc

/-- For linear objectives the solves never raise. -/
theorem solveAll_linear (env : Env) (s : Sim Nx Ny) : ∃ s1, Opt.solveAll env true s = (.ok (), s1) := by
  obtain ⟨t, ht⟩ := solve_fields_eq env s false
  exact ⟨{ s with fields := Sim.store s.pol s.fields t }, by simp only [Opt.solveAll, ht, if_true]⟩

/-- `collect` succeeds exactly when each requested field is stored; otherwise `ValueError`. -/
theorem collect_iff (s : Sim Nx Ny) (l : List ObjArg) :
    ((∀ a ∈ l, (if a.nl then s.fields_nl a.component else s.fields a.component).isSome) → ∃ fs, Opt.collect s l = .ok fs ∧ fs.length = l.length) ∧
    ((∃ a ∈ l, (if a.nl then s.fields_nl a.component else s.fields a.component) = none) → Opt.collect s l = .error .valueError) := by
  induction l with
  | nil => exact ⟨fun _ => ⟨[], rfl, rfl⟩, fun ⟨a, ha, _⟩ => absurd ha List.not_mem_nil⟩
  | cons a l ih =>
    constructor
    · intro h
      obtain ⟨f, hf⟩ := Option.isSome_iff_exists.1 (h a List.mem_cons_self)
      obtain ⟨fs, hfs, hlen⟩ := ih.1 fun b hb => h b (List.mem_cons_of_mem _ hb)
      exact ⟨f :: fs, by simp only [Opt.collect, hf, hfs]; rfl, by simp [hlen]⟩
    · rintro ⟨b, hb, hn⟩
      rcases hfa : (if a.nl then s.fields_nl a.component else s.fields a.component) with _ | f
      · simp only [Opt.collect, hfa]
      · rcases List.mem_cons.1 hb with hb | hb
        · rw [hb, hfa] at hn; cases hn
        · simp only [Opt.collect, hfa, ih.2 ⟨b, hb, hn⟩]; rfl

end Angler
