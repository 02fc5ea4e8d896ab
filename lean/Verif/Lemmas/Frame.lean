import Verif.Lemmas.Sim
import Verif.Model.NonlinearSolvers
import Verif.Model.DesignRegion

/-! # What the solvers may change in a simulation object -/

namespace Angler

variable {Nx Ny : ℕ}

/-- `s'` differs from `s` at most in the nonlinear caches and in linear fields that were absent and are now those of `solve_fields()`. -/
structure Frame (env : Env) (s s' : Sim Nx Ny) : Prop where
  core : s' = { s with eps_nl := s'.eps_nl, dnl_de := s'.dnl_de, dnl_deps := s'.dnl_deps, Anl := s'.Anl, fields := s'.fields }
  fields : s'.fields = s.fields ∨ (s.fields s.pol.comp = none ∧ s'.fields = (s.solve_fields env).2.fields)

namespace Frame
variable {env : Env} {s s' s'' : Sim Nx Ny}

theorem refl (env : Env) (s : Sim Nx Ny) : Frame env s s := ⟨rfl, Or.inl rfl⟩

theorem solved_comp (env : Env) (s : Sim Nx Ny) : ∃ f, (s.solve_fields env).2.fields s.pol.comp = some f := by
  simp only [Sim.solve_fields, if_true]
  cases s.pol <;> exact ⟨_, rfl⟩

theorem trans (h1 : Frame env s s') (h2 : Frame env s' s'') : Frame env s s'' := by
  obtain ⟨c1, f1⟩ := h1
  obtain ⟨c2, f2⟩ := h2
  have hpol : s'.pol = s.pol := by rw [c1]
  refine ⟨by rw [c2, c1], ?_⟩
  rcases f2 with f2 | ⟨n2, f2⟩
  · rw [f2]; exact f1
  · rcases f1 with f1 | ⟨n1, f1⟩
    · right
      rw [hpol, f1] at n2
      refine ⟨n2, ?_⟩
      rw [f2, c1, f1]
      rfl
    · rw [hpol, f1] at n2
      obtain ⟨f, hf⟩ := solved_comp env s
      rw [hf] at n2
      cases n2

theorem compute_nl (env : Env) (s : Sim Nx Ny) (e : Grid Nx Ny ℂ) : Frame env s (s.compute_nl e) := ⟨rfl, Or.inl rfl⟩

theorem solve_incl (env : Env) (s : Sim Nx Ny) (avg : Bool) : (s.solve_fields env true avg).2 = s := by
  simp only [Sim.solve_fields, Bool.true_eq_false, if_false]
  cases s.Anl <;> rfl

theorem startField (env : Env) (s : Sim Nx Ny) (E : Option (Grid Nx Ny ℂ)) : Frame env s (startField env s E).2 := by
  unfold Angler.startField
  cases E with
  | some e => exact refl env s
  | none =>
    cases h : s.fields s.pol.comp with
    | some f => exact refl env s
    | none => exact ⟨rfl, Or.inr ⟨h, rfl⟩⟩

theorem bornLoop (env : Env) (thr : ℝ) (fuel istep : ℕ) (s : Sim Nx Ny) (Fz conv last) :
    Frame env s (bornLoop env thr fuel istep s Fz conv last).2 := by
  induction fuel generalizing istep s Fz conv last with
  | zero => exact refl env s
  | succ n ih =>
    have hs := solve_incl env (s.compute_nl Fz) false
    unfold Angler.bornLoop
    rcases hr : (s.compute_nl Fz).solve_fields env true with ⟨r, s2⟩
    rw [hr] at hs
    simp only at hs
    subst hs
    cases r with
    | error e => simp only [hr]; exact compute_nl env s Fz
    | ok t =>
      obtain ⟨Fx, Fy, Fz'⟩ := t
      simp only [hr]
      split
      · exact compute_nl env s Fz
      · exact (compute_nl env s Fz).trans (ih _ _ _ _ _)

theorem born_solve (env : Env) (s : Sim Nx Ny) (E : Option (Grid Nx Ny ℂ)) (thr : ℝ) (n : ℕ) :
    Frame env s (born_solve env s E thr n).2 := by
  have h0 := startField env s E
  unfold Angler.born_solve
  generalize Angler.startField env s E = R at h0 ⊢
  obtain ⟨r, s1⟩ := R
  cases r with
  | error e => exact h0
  | ok Fz =>
    have h1 := bornLoop env thr n 0 s1 Fz (List.replicate n (.fin 0)) none
    simp only
    generalize Angler.bornLoop env thr n 0 s1 Fz (List.replicate n (.fin 0)) none = R at h1 ⊢
    obtain ⟨r2, s2⟩ := R
    rcases r2 with e | ⟨_ | ⟨a, b, c, d⟩, cv⟩ <;> exact h0.trans h1

theorem newtonLoop (env : Env) (thr : ℝ) (fuel istep : ℕ) (s : Sim Nx Ny) (Ez conv last) :
    Frame env s (newtonLoop env thr fuel istep s Ez conv last).2 := by
  induction fuel generalizing istep s Ez conv last with
  | zero => exact refl env s
  | succ n ih =>
    unfold Angler.newtonLoop
    simp only
    cases solver_complex2real env (nl_eq_and_jac s Ez).1.2.1 (nl_eq_and_jac s Ez).1.2.2 (nl_eq_and_jac s Ez).1.1 with
    | error e => exact compute_nl env s Ez
    | ok d =>
      simp only
      split
      · exact compute_nl env s Ez
      · exact (compute_nl env s Ez).trans (ih _ _ _ _ _)

theorem newton_solve (env : Env) (s : Sim Nx Ny) (E : Option (Grid Nx Ny ℂ)) (thr : ℝ) (n : ℕ) :
    Frame env s (newton_solve env s E thr n).2 := by
  have h0 := startField env s E
  unfold Angler.newton_solve
  cases s.pol with
  | Hz => exact refl env s
  | Ez =>
    simp only
    generalize Angler.startField env s E = R at h0 ⊢
    obtain ⟨r, s1⟩ := R
    cases r with
    | error e => exact h0
    | ok E0 =>
      have h1 := newtonLoop env thr n 0 s1 E0 (List.replicate n (.fin 0)) none
      simp only
      generalize Angler.newtonLoop env thr n 0 s1 E0 (List.replicate n (.fin 0)) none = R at h1 ⊢
      obtain ⟨r2, s2⟩ := R
      rcases r2 with e | ⟨Ez, last, cv⟩
      · exact h0.trans h1
      · have h2 := compute_nl env s2 Ez
        have hs := solve_incl env (s2.compute_nl Ez) false
        simp only
        rcases hr : (s2.compute_nl Ez).solve_fields env true with ⟨r3, s3⟩
        rw [hr] at hs
        simp only at hs
        subst hs
        rcases r3 with e | ⟨a, b, c⟩
        · exact (h0.trans h1).trans h2
        · cases last <;> exact (h0.trans h1).trans h2

/-- The whole nonlinear solve: a frame step followed, on success, by storing the nonlinear triple. -/
theorem solve_fields_nl (env : Env) (s : Sim Nx Ny) (E : Option (Grid Nx Ny ℂ)) (solver : NlSolver) (thr : ℝ) (n : ℕ) :
    ∃ s1, Frame env s s1 ∧
      ((∃ e, (solve_fields_nl env s E solver thr n).1 = .error e ∧ (solve_fields_nl env s E solver thr n).2 = s1) ∨
       ∃ r, (solve_fields_nl env s E solver thr n).1 = .ok r ∧
        (solve_fields_nl env s E solver thr n).2 = { s1 with fields_nl := Sim.store s1.pol s1.fields_nl (r.Fx, r.Fy, r.Fz) }) := by
  have fin : ∀ (res : Except PyErr (NlResult Nx Ny) × Sim Nx Ny), Frame env s res.2 → ∃ s1, Frame env s s1 ∧
      ((∃ e, (match res with
        | (.error e, s1) => (.error e, s1)
        | (.ok r, s1) => (.ok r, { s1 with fields_nl := Sim.store s1.pol s1.fields_nl (r.Fx, r.Fy, r.Fz) }) : Except PyErr (NlResult Nx Ny) × Sim Nx Ny).1 = .error e ∧
         (match res with
        | (.error e, s1) => (.error e, s1)
        | (.ok r, s1) => (.ok r, { s1 with fields_nl := Sim.store s1.pol s1.fields_nl (r.Fx, r.Fy, r.Fz) }) : Except PyErr (NlResult Nx Ny) × Sim Nx Ny).2 = s1) ∨
       ∃ r, (match res with
        | (.error e, s1) => (.error e, s1)
        | (.ok r, s1) => (.ok r, { s1 with fields_nl := Sim.store s1.pol s1.fields_nl (r.Fx, r.Fy, r.Fz) }) : Except PyErr (NlResult Nx Ny) × Sim Nx Ny).1 = .ok r ∧
        (match res with
        | (.error e, s1) => (.error e, s1)
        | (.ok r, s1) => (.ok r, { s1 with fields_nl := Sim.store s1.pol s1.fields_nl (r.Fx, r.Fy, r.Fz) }) : Except PyErr (NlResult Nx Ny) × Sim Nx Ny).2 =
          { s1 with fields_nl := Sim.store s1.pol s1.fields_nl (r.Fx, r.Fy, r.Fz) }) := by
    rintro ⟨r, s1⟩ h
    refine ⟨s1, h, ?_⟩
    cases r with
    | error e => exact Or.inl ⟨e, rfl, rfl⟩
    | ok r => exact Or.inr ⟨r, rfl, rfl⟩
  unfold Angler.solve_fields_nl
  refine fin _ ?_
  cases solver with
  | born => exact born_solve env s E thr n
  | newton => exact newton_solve env s E thr n
  | LM => exact refl env s
  | other => exact refl env s
  | hybrid =>
    have h0 := born_solve env s E thr 20
    simp only
    generalize Angler.born_solve env s E thr 20 = R at h0 ⊢
    obtain ⟨r, s1⟩ := R
    cases r with
    | error e => exact h0
    | ok r =>
      simp only
      split
      · exact h0.trans (newton_solve env s1 (some r.Fz) thr 20)
      · exact h0

end Frame

end Angler
