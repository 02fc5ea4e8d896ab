import Verif.Props.NonlinearSolve
import Verif.Props.Mode

/-! # Inputs that raise, and the run without a source -/

namespace Angler

variable {Nx Ny : ℕ}

/-- **C26, no source.** Without a source every Born pass gives `0/0` (the first one `x/0` if it starts from a nonzero field); neither counts as converged, so all passes are made and the
convergence array is `nan` from its second entry on. -/
theorem C26_zero_source (env : Env) (s : Sim Nx Ny) (hsrc : s.src = 0) (E : Option (Grid Nx Ny ℂ)) (thr : ℝ) (n : ℕ) :
    ∃ r s1, born_solve env s E thr (n + 1) = (.ok r, s1) ∧ r.Fz = 0 ∧ r.conv.length = n + 1 ∧ (r.conv[0]? = some .nan ∨ r.conv[0]? = some .inf) ∧
      ∀ k, 0 < k → k ≤ n → r.conv[k]? = some .nan := by
  obtain ⟨E0, fl, m, conv, hst, hm, heq, hnot, hstop, hlen, hrow, hzero⟩ := born_solve_spec env s E thr n
  have hrhs : s.rhs = 0 := by funext k; simp [Sim.rhs, hsrc, flatten]
  have hz : ∀ F, (bornStep env s F).2.2 = 0 := by
    intro F
    rw [bornStep_third, hrhs]
    funext i j
    simp [solver_direct, unflatten]
  have hc : ∀ k, bornConv env s E0 (k + 1) = .nan := by
    intro k
    refine (convergence_spec _ _).2.2 ?_ ?_
    · rw [bornIter_succ, hz]
    · rw [bornIter_succ, hz]
  have hc0 : bornConv env s E0 0 = .nan ∨ bornConv env s E0 0 = .inf := by
    by_cases h : E0 = 0
    · exact Or.inl ((convergence_spec _ _).2.2 (by rw [bornIter_succ, hz]) h)
    · exact Or.inr ((convergence_spec _ _).2.1 (by rw [bornIter_succ, hz]) h)
  have hmn : m = n := by
    rcases hstop with h | h
    · exfalso
      rcases m with _ | m
      · rcases hc0 with h0 | h0 <;> rw [h0] at h <;> exact h
      · rw [hc] at h; exact h
    · exact h
  subst hmn
  refine ⟨_, _, heq, ?_, hlen, ?_, fun k h0 hk => ?_⟩
  · show bornIter env s E0 (m + 1) = 0
    rw [bornIter_succ, hz]
  · have := hrow 0 (Nat.zero_le _)
    rcases hc0 with h0 | h0 <;> rw [h0] at this
    · exact Or.inl this
    · exact Or.inr this
  · obtain ⟨k, rfl⟩ := Nat.exists_eq_succ_of_ne_zero h0.ne'
    rw [← hc k]
    exact hrow _ hk

/-- A constructed simulation has no source yet, so this is what `solve_fields_nl(solver_nl='born', max_num_iter=3)` does on it. -/
example (env : Env) : ∃ r s1, born_solve env (wsim .Ez (fun _ _ => 10) fun _ _ => 0) none 1e-10 3 = (.ok r, s1) ∧ r.conv[2]? = some .nan := by
  obtain ⟨r, s1, h, -, -, -, h2⟩ := C26_zero_source env (wsim .Ez (fun _ _ => 10) fun _ _ => 0) rfl none 1e-10 2
  exact ⟨r, s1, h, h2 2 (by norm_num) (by norm_num)⟩

/-- **C51, exceptions.** A direction other than `"x"` and `"y"` raises `ValueError`; probing before the fields were solved for raises `TypeError`. -/
theorem C51_raises (s : Sim Nx Ny) (dir : String) (center : ℤ × ℤ) (w : ℝ) (nl : Bool) :
    (dir ≠ "x" → dir ≠ "y" → s.flux_probe dir center w nl = .error .valueError) ∧
    ((dir = "x" ∨ dir = "y") → (if nl then s.fields_nl else s.fields) s.pol.comp = none → s.flux_probe dir center w nl = .error .typeError) := by
  constructor
  · intro h1 h2
    unfold Sim.flux_probe Sim.probeInds
    rw [if_neg h1, if_neg h2]
    rfl
  · intro h hn
    have hxy : ¬ ("y" = "x") := by decide
    unfold Sim.flux_probe Sim.probeInds
    generalize (if nl then s.fields_nl else s.fields) = f at *
    rcases h with rfl | rfl
    · rw [if_pos rfl]
      rcases hp : s.pol with _ | _ <;> rw [hp] at hn <;> simp only [Pol.comp] at hn <;> simp [Sim.getField, hn, bind, Except.bind]
    · rw [if_neg hxy, if_pos rfl]
      rcases hp : s.pol with _ | _ <;> rw [hp] at hn <;> simp only [Pol.comp] at hn <;> simp [Sim.getField, hn, bind, Except.bind]

example : (wsim .Ez (fun _ _ => 1) fun _ _ => 0).flux_probe "x" (0, 1) 1 = .error .typeError ∧ (wsim .Ez (fun _ _ => 1) fun _ _ => 0).flux_probe "z" (0, 1) 1 = .error .valueError :=
  ⟨(C51_raises _ _ _ _ _).2 (Or.inl rfl) rfl, (C51_raises _ _ _ _ _).1 (by decide) (by decide)⟩

/-- **C53, exceptions.** A mode with a direction other than `"x"` and `"y"` raises `ValueError` and leaves the simulation and its stored input power as they were. -/
theorem C53_raises (env : Env) (eg : Eigs) (md : Mode) (s : Sim Nx Ny) (W : Option ℝ) (h1 : md.direction_normal ≠ "x") (h2 : md.direction_normal ≠ "y") :
    md.setup_src env eg (s, W) = (.error .valueError, (s, W)) := by
  have h : md.compute_normalization env eg s = .error .valueError := by
    unfold Mode.compute_normalization Mode.straight
    simp only [if_neg h1, if_neg h2, ite_self]
    rfl
  unfold Mode.setup_src
  simp only [h]

example (env : Env) (eg : Eigs) (s : Sim 3 3) : (⟨1, "z", (1, 1), 2, 1, 1⟩ : Mode).setup_src env eg (s, none) = (.error .valueError, (s, none)) :=
  C53_raises env eg _ s none (show "z" ≠ "x" by decide) (show "z" ≠ "y" by decide)

end Angler
