import Verif.Model.UnitTests
import Verif.Props.Spectrum
import Verif.Props.History
import Verif.Lemmas.NlSolve

/-! # C118: what the unit tests can find -/

namespace Angler
variable {Nx Ny : ℕ}

/-- A method that returns some nonlinear fields, keeps the device and leaves in `fields["Ez"]` the stored linear field, or, if there is none, the linear field of the present source. -/
def Spec.KeepsLinear (env : Env) (f : NlMethod Nx Ny) : Prop :=
  ∀ s : Sim Nx Ny, s.pol = .Ez → ∃ r, (f s).1 = .ok r ∧ (f s).2.pol = .Ez ∧
    ∀ t, (s.solve_fields env).1 = .ok t → (f s).2.fields .Ez = some ((s.fields .Ez).getD t.2.2)

theorem allclose_refl (E : Grid Nx Ny ℂ) : allclose E E 1e-3 := by
  intro i j
  rw [sub_self, norm_zero]
  positivity

/-- **C118, the comparison is empty.** Whatever two methods the test is run with, right or wrong, as long as they return, and keep or compute the linear field: the test passes, and every pair of
arrays it compares consists of twice the same array: the linear field of the *first* source (or the field stored before). -/
theorem C118_empty (env : Env) (newton born : NlMethod Nx Ny) (hn : Spec.KeepsLinear env newton) (hb : Spec.KeepsLinear env born) (srcs : List (Grid Nx Ny ℂ)) (s : Sim Nx Ny) (hp : s.pol = .Ez) :
    ∃ E : Grid Nx Ny ℂ, (testBornNewtonWith newton born srcs s).1 = .ok (List.replicate srcs.length (E, E)) ∧ (∀ f, s.fields .Ez = some f → E = f) ∧
      (s.fields .Ez = none → ∀ src l, srcs = src :: l → ∀ t, (({ s with src := src } : Sim Nx Ny).solve_fields env).1 = .ok t → E = t.2.2) := by
  -- with a stored field
  have stored : ∀ (srcs : List (Grid Nx Ny ℂ)) (s : Sim Nx Ny) (f : Grid Nx Ny ℂ), s.pol = .Ez → s.fields .Ez = some f →
      (testBornNewtonWith newton born srcs s).1 = .ok (List.replicate srcs.length (f, f)) := by
    intro srcs
    induction srcs with
    | nil => intro s f _ _; rfl
    | cons src srcs ih =>
      intro s f hp hf
      obtain ⟨r, h1, h2, h3⟩ := hn { s with src := src } hp
      have h3' := h3 _ rfl
      rw [show ({ s with src := src } : Sim Nx Ny).fields .Ez = some f from hf, Option.getD_some] at h3'
      rw [testBornNewtonWith]
      generalize newton { s with src := src } = R1 at h1 h2 h3' ⊢
      obtain ⟨a1, s1⟩ := R1
      simp only at h1 h2 h3'
      subst h1
      dsimp only
      obtain ⟨r', g1, g2, g3⟩ := hb s1 h2
      have g3' := g3 _ rfl
      rw [h3', Option.getD_some] at g3'
      generalize born s1 = R2 at g1 g2 g3' ⊢
      obtain ⟨a2, s2⟩ := R2
      simp only at g1 g2 g3'
      subst g1
      simp only [h3', g3']
      rw [if_pos (allclose_refl f)]
      have := ih s2 f g2 g3'
      generalize testBornNewtonWith newton born srcs s2 = R3 at this ⊢
      obtain ⟨a3, s3⟩ := R3
      simp only at this
      subst this
      rfl
  cases hs : s.fields .Ez with
  | some f =>
    refine ⟨f, stored srcs s f hp hs, fun f' h => ?_, fun h => ?_⟩
    · rw [Option.some.injEq] at h; exact h
    · cases h
  | none =>
    cases srcs with
    | nil => exact ⟨0, rfl, fun f h => (by cases h), fun _ src l h => (by cases h)⟩
    | cons src srcs =>
      obtain ⟨t, ht⟩ : ∃ t, (({ s with src := src } : Sim Nx Ny).solve_fields env).1 = .ok t := ⟨_, rfl⟩
      obtain ⟨r, h1, h2, h3⟩ := hn { s with src := src } hp
      have h3' := h3 _ ht
      rw [show ({ s with src := src } : Sim Nx Ny).fields .Ez = none from hs, Option.getD_none] at h3'
      refine ⟨t.2.2, ?_, fun f h => (by cases h), ?_⟩
      · rw [testBornNewtonWith]
        generalize newton { s with src := src } = R1 at h1 h2 h3' ⊢
        obtain ⟨a1, s1⟩ := R1
        simp only at h1 h2 h3'
        subst h1
        dsimp only
        obtain ⟨r', g1, g2, g3⟩ := hb s1 h2
        have g3' := g3 _ rfl
        rw [h3', Option.getD_some] at g3'
        generalize born s1 = R2 at g1 g2 g3' ⊢
        obtain ⟨a2, s2⟩ := R2
        simp only at g1 g2 g3'
        subst g1
        simp only [h3', g3']
        rw [if_pos (allclose_refl _)]
        have := stored srcs s2 _ g2 g3'
        generalize testBornNewtonWith newton born srcs s2 = R3 at this ⊢
        obtain ⟨a3, s3⟩ := R3
        simp only at this
        subst this
        rfl
      · intro _ src' l hl t' ht'
        rw [List.cons.injEq] at hl
        rw [← hl.1, ht] at ht'
        rw [Except.ok.inj ht']

/-- With no stored field a nonlinear solve is a linear one followed by a nonlinear solve from its field. -/
theorem solve_nl_of_none (env : Env) (s : Sim Nx Ny) (hp : s.pol = .Ez) (hf : s.fields .Ez = none) (solver : NlSolver) (t : Triple Nx Ny) (ht : (s.solve_fields env).1 = .ok t)
    (hs : solver = .newton ∨ solver = .born) : solve_fields_nl env s none solver = solve_fields_nl env (s.solve_fields env).2 (some t.2.2) solver := by
  have e : startField env s none = startField env (s.solve_fields env).2 (some t.2.2) := by
    unfold startField
    rw [show s.fields s.pol.comp = none by rw [hp]; exact hf]
    simp only
    rw [ht]
    rfl
  have hp2 : (s.solve_fields env).2.pol = s.pol := rfl
  rcases hs with rfl | rfl
  · unfold solve_fields_nl newton_solve
    simp only
    rw [e, hp2, hp]
  · unfold solve_fields_nl born_solve
    simp only
    rw [e]

theorem solve_fields_nl_pol (env : Env) (s : Sim Nx Ny) (E : Option (Grid Nx Ny ℂ)) (solver : NlSolver) (thr : ℝ) (n : ℕ) : (solve_fields_nl env s E solver thr n).2.pol = s.pol := by
  obtain ⟨s1, hfr, ⟨e, -, h⟩ | ⟨r', -, h2⟩⟩ := Frame.solve_fields_nl env s E solver thr n
  · rw [h, hfr.core]
  · rw [h2]
    show s1.pol = s.pol
    rw [hfr.core]

/-- The two methods of the code are of this kind, whatever the linear solver returns. -/
theorem solve_nl_keeps (env : Env) (hb : env.backend = .pardiso) (solver : NlSolver) (hs : solver = .newton ∨ solver = .born) :
    Spec.KeepsLinear (Nx := Nx) (Ny := Ny) env fun s => solve_fields_nl env s none solver := by
  intro s hp
  have hret : ∃ r, (solve_fields_nl env s none solver).1 = .ok r := by
    rcases hs with rfl | rfl
    · obtain ⟨r, s', h⟩ := newton_solve_ok env hb s hp none 1e-10 49
      refine ⟨r, ?_⟩
      unfold solve_fields_nl
      simp only
      rw [h]
    · obtain ⟨E0, fl, m, conv, -, -, h, -⟩ := born_solve_spec env s none 1e-10 49
      unfold solve_fields_nl
      simp only
      rw [h]
      exact ⟨_, rfl⟩
  obtain ⟨r, hr⟩ := hret
  refine ⟨r, hr, (solve_fields_nl_pol env s none solver _ _).trans hp, fun t ht => ?_⟩
  cases hf : s.fields .Ez with
  | some f =>
    have := solve_nl_linear_fields env s none solver 1e-10 50 f (by rw [hp]; exact hf)
    beta_reduce
    rw [this, hf]
    rfl
  | none =>
    beta_reduce
    rw [solve_nl_of_none env s hp hf solver t ht hs, nl_some_fields]
    have : (s.solve_fields env).2.fields = Sim.store s.pol s.fields t := by
      have h2 : (s.solve_fields env).1 = .ok (s.in_plane false s.eps_r (solver_direct env s.A s.rhs)) := rfl
      rw [h2] at ht
      rw [← Except.ok.inj ht]
      rfl
    rw [this, hp]
    rfl

/-- **C118, `test_born_newton`.** The test passes on every Ez device with every list of sources, whatever fields the linear solver returns and whether or not the two nonlinear solvers agree: all the
arrays it compares are the linear field of the first source. -/
theorem C118_born_newton (env : Env) (hb : env.backend = .pardiso) (src : Grid Nx Ny ℂ) (srcs : List (Grid Nx Ny ℂ)) (s : Sim Nx Ny) (hp : s.pol = .Ez) (hf : s.fields .Ez = none) :
    ∃ t, (({ s with src := src } : Sim Nx Ny).solve_fields env).1 = .ok t ∧ (testBornNewton env (src :: srcs) s).1 = .ok (List.replicate (srcs.length + 1) (t.2.2, t.2.2)) := by
  obtain ⟨E, h1, -, h3⟩ := C118_empty env _ _ (solve_nl_keeps env hb .newton (Or.inl rfl)) (solve_nl_keeps env hb .born (Or.inr rfl)) (src :: srcs) s hp
  obtain ⟨t, ht⟩ : ∃ t, (({ s with src := src } : Sim Nx Ny).solve_fields env).1 = .ok t := ⟨_, rfl⟩
  refine ⟨t, ht, ?_⟩
  rw [testBornNewton, h1, h3 hf src srcs rfl t ht]
  rfl

/-- The method that returns zero fields and solves the linear problem if need be. -/
noncomputable def zeroMethod (env : Env) : NlMethod Nx Ny := fun s =>
  (.ok ⟨0, 0, 0, []⟩, match s.fields .Ez with
    | some _ => s
    | none => (s.solve_fields env).2)

/-- A wrong method that the test accepts in place of Newton's: zero fields. -/
example (env : Env) (hb : env.backend = .pardiso) (srcs : List (Grid Nx Ny ℂ)) (s : Sim Nx Ny) (hp : s.pol = .Ez) :
    ∃ l, (testBornNewtonWith (zeroMethod env) (fun s => solve_fields_nl env s none .born) srcs s).1 = .ok l := by
  have hz : Spec.KeepsLinear (Nx := Nx) (Ny := Ny) env (zeroMethod env) := by
    intro s hp
    refine ⟨_, rfl, ?_, fun t ht => ?_⟩
    · unfold zeroMethod
      cases s.fields .Ez <;> exact hp
    · unfold zeroMethod
      cases hf : s.fields .Ez with
      | some f => simp only [hf, Option.getD_some]
      | none =>
        simp only [Option.getD_none]
        have : (s.solve_fields env).2.fields = Sim.store s.pol s.fields t := by
          have h2 : (s.solve_fields env).1 = .ok (s.in_plane false s.eps_r (solver_direct env s.A s.rhs)) := rfl
          rw [h2] at ht
          rw [← Except.ok.inj ht]
          rfl
        rw [this, hp]
        rfl
  obtain ⟨E, h, -⟩ := C118_empty env _ _ hz (solve_nl_keeps env hb .born (Or.inr rfl)) srcs s hp
  exact ⟨_, h⟩

/-- **C118, `test_gradient_selector`** fails: the gradient selected for a linear Hz argument is not that of Ez. -/
theorem C118_selector : testSelector = .error .assertionError := rfl

/-- **C118, `test_J`** passes exactly for the draws whose sums differ. -/
theorem C118_J (F1 F3 : Grid Nx Ny ℝ) (h1 : ∀ i j, 0 ≤ F1 i j) (h3 : ∀ i j, 0 ≤ F3 i j) : testJ F1 F3 = .ok () ↔ ∑ i, ∑ j, F1 i j ≠ ∑ i, ∑ j, F3 i j := by
  have e : testObjective (fun i j => (F1 i j : ℂ)) (fun _ _ => 1) (fun i j => (F3 i j : ℂ)) = -|(∑ i, ∑ j, F1 i j) - ∑ i, ∑ j, F3 i j| := by
    unfold testObjective
    simp only [mul_one, one_mul, Complex.norm_real, Real.norm_eq_abs, abs_of_nonneg (h1 _ _), abs_of_nonneg (h3 _ _)]
  unfold testJ
  rw [e]
  by_cases hc : ∑ i, ∑ j, F1 i j = ∑ i, ∑ j, F3 i j
  · rw [hc, sub_self, abs_zero, neg_zero, if_neg (lt_irrefl _)]
    simp
  · have : 0 < |(∑ i, ∑ j, F1 i j) - ∑ i, ∑ j, F3 i j| := abs_pos.2 (sub_ne_zero.2 hc)
    rw [if_pos (by linarith)]
    simp [hc]

/-- Draws for which `test_J` passes, and draws for which it fails. -/
example : testJ (Nx := 1) (Ny := 1) (fun _ _ => 1) (fun _ _ => 0) = .ok () ∧ testJ (Nx := 1) (Ny := 2) (fun _ j => if j = 0 then 1 else 0) (fun _ j => if j = 0 then 0 else 1) ≠ .ok () := by
  refine ⟨(C118_J _ _ (fun _ _ => zero_le_one) fun _ _ => le_refl _).2 (by simp), fun h => ?_⟩
  exact (C118_J _ _ (fun _ j => by split_ifs <;> norm_num) fun _ j => by split_ifs <;> norm_num).1 h (by simp [Fin.sum_univ_two])

end Angler
