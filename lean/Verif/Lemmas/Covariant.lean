import Verif.Lemmas.NlSolve
import Verif.Lemmas.Solvers

/-! # Symmetries of the solver

If a map of fields is respected by the two kinds of step the nonlinear solvers take (a solve with frozen Kerr index, a Newton correction), it is respected by whole runs. -/

namespace Angler

open Matrix

variable {Nx Ny Mx My : ℕ}

/-- The three components a solve returns. -/
abbrev Triple (Nx Ny : ℕ) := Grid Nx Ny ℂ × Grid Nx Ny ℂ × Grid Nx Ny ℂ

/-- A nonlinear result under a map of the three components; the convergence history is kept. -/
def NlResult.via (G : Triple Nx Ny → Triple Mx My) (r : NlResult Nx Ny) : NlResult Mx My :=
  ⟨(G (r.Fx, r.Fy, r.Fz)).1, (G (r.Fx, r.Fy, r.Fz)).2.1, (G (r.Fx, r.Fy, r.Fz)).2.2, r.conv⟩

/-- A relation `R` between simulations that single steps respect: the out-of-plane field is mapped by `φ`, the triple by `G`. -/
structure Covariant (env : Env) (φ : Grid Nx Ny ℂ → Grid Mx My ℂ) (G : Triple Nx Ny → Triple Mx My) (R : Sim Nx Ny → Sim Mx My → Prop) : Prop where
  third : ∀ t, (G t).2.2 = φ t.2.2
  sub : ∀ F D : Grid Nx Ny ℂ, φ (fun i j => F i j - D i j) = fun i j => φ F i j - φ D i j
  conv : ∀ F F' : Grid Nx Ny ℂ, convergence (φ F) (φ F') = convergence F F'
  pol : ∀ {s s'}, R s s' → s'.pol = s.pol
  start : ∀ {s s'}, R s s' → s'.fields s'.pol.comp = (s.fields s.pol.comp).map φ
  linear : ∀ {s s'}, R s s' → s'.in_plane false s'.eps_r (solver_direct env s'.A s'.rhs) = G (s.in_plane false s.eps_r (solver_direct env s.A s.rhs))
  step : ∀ {s s'}, R s s' → ∀ F, bornStep env s' (φ F) = G (bornStep env s F)
  newton : ∀ {s s'}, R s s' → s.pol = .Ez → ∀ F, solver_complex2real env (nl_eq_and_jac s' (φ F)).1.2.1 (nl_eq_and_jac s' (φ F)).1.2.2 (nl_eq_and_jac s' (φ F)).1.1 =
    (solver_complex2real env (nl_eq_and_jac s F).1.2.1 (nl_eq_and_jac s F).1.2.2 (nl_eq_and_jac s F).1.1).map fun d => flatten (φ (unflatten d))
  nl : ∀ {s s'}, R s s' → ∀ F, R (s.compute_nl F) (s'.compute_nl (φ F))
  stored : ∀ {s s'}, R s s' → ∀ t, R { s with fields := Sim.store s.pol s.fields t } { s' with fields := Sim.store s'.pol s'.fields (G t) }
  stored_nl : ∀ {s s'}, R s s' → ∀ t, R { s with fields_nl := Sim.store s.pol s.fields_nl t } { s' with fields_nl := Sim.store s'.pol s'.fields_nl (G t) }

namespace Covariant
variable {env : Env} {φ : Grid Nx Ny ℂ → Grid Mx My ℂ} {G : Triple Nx Ny → Triple Mx My} {R : Sim Nx Ny → Sim Mx My → Prop}

theorem solve (h : Covariant env φ G R) {s : Sim Nx Ny} {s' : Sim Mx My} (hR : R s s') :
    (s'.solve_fields env).1 = (s.solve_fields env).1.map G ∧ R (s.solve_fields env).2 (s'.solve_fields env).2 := by
  simp only [Sim.solve_fields, if_true, h.linear hR]
  exact ⟨rfl, h.stored hR _⟩

theorem startField (h : Covariant env φ G R) {s : Sim Nx Ny} {s' : Sim Mx My} (hR : R s s') (E : Option (Grid Nx Ny ℂ)) :
    (Angler.startField env s' (E.map φ)).1 = (Angler.startField env s E).1.map φ ∧ R (Angler.startField env s E).2 (Angler.startField env s' (E.map φ)).2 := by
  cases E with
  | some e => exact ⟨rfl, hR⟩
  | none =>
    unfold Angler.startField
    simp only [Option.map_none]
    rw [h.start hR]
    cases s.fields s.pol.comp with
    | some f => exact ⟨rfl, hR⟩
    | none =>
      obtain ⟨h1, h2⟩ := h.solve hR
      simp only [Option.map_none]
      refine ⟨?_, h2⟩
      rw [h1]
      simp only [Sim.solve_fields, if_true, Except.map, h.third]

/-- The loop variables under the map. -/
def viaLast (G : Triple Nx Ny → Triple Mx My) (t : Grid Nx Ny ℂ × Grid Nx Ny ℂ × Grid Nx Ny ℂ × PyFloat) : Grid Mx My ℂ × Grid Mx My ℂ × Grid Mx My ℂ × PyFloat :=
  ((G (t.1, t.2.1, t.2.2.1)).1, (G (t.1, t.2.1, t.2.2.1)).2.1, (G (t.1, t.2.1, t.2.2.1)).2.2, t.2.2.2)

theorem bornLoop (h : Covariant env φ G R) (thr : ℝ) (fuel istep : ℕ) {s : Sim Nx Ny} {s' : Sim Mx My} (hR : R s s') (F : Grid Nx Ny ℂ) (conv : List PyFloat) (last) :
    (Angler.bornLoop env thr fuel istep s' (φ F) conv (last.map (viaLast G))).1 = (Angler.bornLoop env thr fuel istep s F conv last).1.map (fun r => (r.1.map (viaLast G), r.2)) ∧
      R (Angler.bornLoop env thr fuel istep s F conv last).2 (Angler.bornLoop env thr fuel istep s' (φ F) conv (last.map (viaLast G))).2 := by
  induction fuel generalizing istep s s' F conv last with
  | zero => exact ⟨rfl, hR⟩
  | succ fuel ih =>
    have hb := h.step hR F
    have h3 : (G (bornStep env s F)).2.2 = φ (bornStep env s F).2.2 := h.third _
    have hc : convergence (bornStep env s' (φ F)).2.2 (φ F) = convergence (bornStep env s F).2.2 F := by
      rw [hb, h3]; exact h.conv _ _
    rw [Angler.bornLoop, Angler.bornLoop]
    simp only [solve_fields_nl_step]
    by_cases hlt : (convergence (bornStep env s F).2.2 F).Lt thr
    · rw [if_pos hlt, if_pos (by rw [hc]; exact hlt), hc, hb]
      exact ⟨rfl, h.nl hR F⟩
    · rw [if_neg hlt, if_neg (by rw [hc]; exact hlt), hc, hb]
      have := ih (istep + 1) (h.nl hR F) (bornStep env s F).2.2 (conv.set istep (convergence (bornStep env s F).2.2 F))
        (some ((bornStep env s F).1, (bornStep env s F).2.1, (bornStep env s F).2.2, convergence (bornStep env s F).2.2 F))
      rw [← h3] at this
      exact this

theorem born_solve (h : Covariant env φ G R) {s : Sim Nx Ny} {s' : Sim Mx My} (hR : R s s') (E : Option (Grid Nx Ny ℂ)) (thr : ℝ) (n : ℕ) :
    (Angler.born_solve env s' (E.map φ) thr n).1 = (Angler.born_solve env s E thr n).1.map (NlResult.via G) ∧
      R (Angler.born_solve env s E thr n).2 (Angler.born_solve env s' (E.map φ) thr n).2 := by
  obtain ⟨h1, h2⟩ := h.startField hR E
  unfold Angler.born_solve
  generalize Angler.startField env s' (E.map φ) = A at h1 h2 ⊢
  generalize Angler.startField env s E = B at h1 h2 ⊢
  obtain ⟨A1, sA⟩ := A
  obtain ⟨e | E0, sB⟩ := B
  · simp only [Except.map] at h1
    subst h1
    exact ⟨rfl, h2⟩
  simp only [Except.map] at h1 h2
  subst h1
  simp only
  obtain ⟨h3, h4⟩ := h.bornLoop thr n 0 h2 E0 (List.replicate n (.fin 0)) none
  simp only [Option.map_none] at h3 h4
  generalize Angler.bornLoop env thr n 0 sA (φ E0) (List.replicate n (.fin 0)) none = P at h3 h4 ⊢
  generalize Angler.bornLoop env thr n 0 sB E0 (List.replicate n (.fin 0)) none = Q at h3 h4 ⊢
  obtain ⟨Q1, sQ⟩ := Q
  obtain ⟨P1, sP⟩ := P
  simp only at h3 h4
  subst h3
  rcases Q1 with e | ⟨_ | l, c⟩
  · exact ⟨rfl, h4⟩
  · exact ⟨rfl, h4⟩
  · exact ⟨rfl, h4⟩

theorem newtonLoop (h : Covariant env φ G R) (thr : ℝ) (fuel istep : ℕ) {s : Sim Nx Ny} {s' : Sim Mx My} (hR : R s s') (hp : s.pol = .Ez) (F : Grid Nx Ny ℂ) (conv : List PyFloat) (last) :
    (Angler.newtonLoop env thr fuel istep s' (φ F) conv last).1 = (Angler.newtonLoop env thr fuel istep s F conv last).1.map (fun r => (φ r.1, r.2)) ∧
      R (Angler.newtonLoop env thr fuel istep s F conv last).2 (Angler.newtonLoop env thr fuel istep s' (φ F) conv last).2 := by
  induction fuel generalizing istep s s' F conv last with
  | zero => exact ⟨rfl, hR⟩
  | succ fuel ih =>
    have hs := h.newton hR hp F
    have hq : R (nl_eq_and_jac s F).2 (nl_eq_and_jac s' (φ F)).2 := h.nl hR F
    rw [Angler.newtonLoop, Angler.newtonLoop]
    simp only [hs]
    generalize solver_complex2real env (nl_eq_and_jac s F).1.2.1 (nl_eq_and_jac s F).1.2.2 (nl_eq_and_jac s F).1.1 = Z
    rcases Z with e | d
    · exact ⟨rfl, hq⟩
    · simp only [Except.map]
      have hE : (fun i j => φ F i j - unflatten (flatten (φ (unflatten d))) i j : Grid Mx My ℂ) = φ (fun i j => F i j - unflatten d i j) := by
        rw [unflatten_flatten, h.sub F (unflatten d)]
      have hc : convergence (φ (fun i j => F i j - unflatten d i j)) (φ F) = convergence (fun i j => F i j - unflatten d i j) F := h.conv _ _
      rw [hE, hc]
      by_cases hlt : (convergence (fun i j => F i j - unflatten d i j) F).Lt thr
      · rw [if_pos hlt, if_pos hlt]
        exact ⟨rfl, hq⟩
      · rw [if_neg hlt, if_neg hlt]
        exact ih (istep + 1) hq hp _ _ _

theorem newton_solve (h : Covariant env φ G R) {s : Sim Nx Ny} {s' : Sim Mx My} (hR : R s s') (E : Option (Grid Nx Ny ℂ)) (thr : ℝ) (n : ℕ) :
    (Angler.newton_solve env s' (E.map φ) thr n).1 = (Angler.newton_solve env s E thr n).1.map (NlResult.via G) ∧
      R (Angler.newton_solve env s E thr n).2 (Angler.newton_solve env s' (E.map φ) thr n).2 := by
  obtain ⟨h1, h2⟩ := h.startField hR E
  obtain ⟨E0, fl, hs, -⟩ := startField_spec env s E
  rw [hs] at h1 h2
  unfold Angler.newton_solve
  rw [h.pol hR]
  cases hp : s.pol with
  | Hz => exact ⟨rfl, hR⟩
  | Ez =>
    simp only [hs]
    generalize Angler.startField env s' (E.map φ) = A at h1 h2 ⊢
    obtain ⟨A1, sA⟩ := A
    simp only [Except.map] at h1 h2
    subst h1
    simp only
    obtain ⟨h3, h4⟩ := h.newtonLoop thr n 0 h2 hp E0 (List.replicate n (.fin 0)) none
    generalize Angler.newtonLoop env thr n 0 sA (φ E0) (List.replicate n (.fin 0)) none = P at h3 h4 ⊢
    generalize Angler.newtonLoop env thr n 0 { s with fields := fl } E0 (List.replicate n (.fin 0)) none = Q at h3 h4 ⊢
    obtain ⟨Q1, sQ⟩ := Q
    obtain ⟨P1, sP⟩ := P
    simp only at h3 h4
    subst h3
    rcases Q1 with e | ⟨Ez, last, c⟩
    · exact ⟨rfl, h4⟩
    · simp only [Except.map, solve_fields_nl_step, h.step h4 Ez]
      cases last with
      | none => exact ⟨rfl, h.nl h4 Ez⟩
      | some _ => exact ⟨rfl, h.nl h4 Ez⟩

theorem solve_nl (h : Covariant env φ G R) {s : Sim Nx Ny} {s' : Sim Mx My} (hR : R s s') (E : Option (Grid Nx Ny ℂ)) (solver : NlSolver) (thr : ℝ) (n : ℕ) :
    (solve_fields_nl env s' (E.map φ) solver thr n).1 = (solve_fields_nl env s E solver thr n).1.map (NlResult.via G) ∧
      R (solve_fields_nl env s E solver thr n).2 (solve_fields_nl env s' (E.map φ) solver thr n).2 := by
  have fin : ∀ (A : Except PyErr (NlResult Nx Ny) × Sim Nx Ny) (A' : Except PyErr (NlResult Mx My) × Sim Mx My), (A'.1 = A.1.map (NlResult.via G) ∧ R A.2 A'.2) →
      (match A' with
        | (.error e, s1) => (.error e, s1)
        | (.ok r, s1) => (.ok r, { s1 with fields_nl := Sim.store s1.pol s1.fields_nl (r.Fx, r.Fy, r.Fz) }) : Except PyErr (NlResult Mx My) × Sim Mx My).1 =
        (match A with
        | (.error e, s1) => (.error e, s1)
        | (.ok r, s1) => (.ok r, { s1 with fields_nl := Sim.store s1.pol s1.fields_nl (r.Fx, r.Fy, r.Fz) }) : Except PyErr (NlResult Nx Ny) × Sim Nx Ny).1.map (NlResult.via G) ∧
      R (match A with
        | (.error e, s1) => (.error e, s1)
        | (.ok r, s1) => (.ok r, { s1 with fields_nl := Sim.store s1.pol s1.fields_nl (r.Fx, r.Fy, r.Fz) }) : Except PyErr (NlResult Nx Ny) × Sim Nx Ny).2
        (match A' with
        | (.error e, s1) => (.error e, s1)
        | (.ok r, s1) => (.ok r, { s1 with fields_nl := Sim.store s1.pol s1.fields_nl (r.Fx, r.Fy, r.Fz) }) : Except PyErr (NlResult Mx My) × Sim Mx My).2 := by
    rintro ⟨e | r, s1⟩ ⟨A1, s1'⟩ ⟨hA, hs⟩
    · simp only [Except.map] at hA
      subst hA
      exact ⟨rfl, hs⟩
    · simp only [Except.map] at hA
      subst hA
      exact ⟨rfl, h.stored_nl hs (r.Fx, r.Fy, r.Fz)⟩
  unfold solve_fields_nl
  refine fin _ _ ?_
  cases solver with
  | born => exact h.born_solve hR E thr n
  | newton => exact h.newton_solve hR E thr n
  | LM => exact ⟨rfl, hR⟩
  | other => exact ⟨rfl, hR⟩
  | hybrid =>
    obtain ⟨h1, h2⟩ := h.born_solve hR E thr 20
    simp only
    generalize Angler.born_solve env s' (E.map φ) thr 20 = A' at h1 h2 ⊢
    generalize Angler.born_solve env s E thr 20 = A at h1 h2 ⊢
    obtain ⟨A1', s1'⟩ := A'
    obtain ⟨e | r, s1⟩ := A
    · simp only [Except.map] at h1
      subst h1
      exact ⟨rfl, h2⟩
    · simp only [Except.map] at h1 h2
      subst h1
      simp only
      by_cases hg : ((r.conv.getLast?).getD (.fin 0)).Gt 1e-10
      · rw [if_pos hg, if_pos (show (((NlResult.via G r).conv.getLast?).getD (.fin 0)).Gt 1e-10 from hg)]
        have := h.newton_solve h2 (some r.Fz) thr 20
        rw [Option.map_some, ← h.third (r.Fx, r.Fy, r.Fz)] at this
        exact this
      · rw [if_neg hg, if_neg (show ¬ (((NlResult.via G r).conv.getLast?).getD (.fin 0)).Gt 1e-10 from hg)]
        exact ⟨rfl, h2⟩

end Covariant

end Angler
