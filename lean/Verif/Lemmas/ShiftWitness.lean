import Verif.Lemmas.NewtonWitness
import Verif.Lemmas.NlSolve
import Verif.Lemmas.OptFrame

/-! # The index shift of the Kerr witness at small sources -/

namespace Angler

open Matrix

theorem gridMax_uniform (c : ℝ) (hc : 0 ≤ c) : gridMax (fun (_ : Fin 2) (_ : Fin 2) => c) = c := by
  unfold gridMax
  refine le_antisymm ((Finset.fold_max_le _).2 ⟨hc, fun _ _ => le_rfl⟩) ((Finset.le_fold_max _).2 (Or.inr ⟨(0, 0), Finset.mem_univ _, le_rfl⟩))

theorem psim_linear (env : Env) (he : env.Exact) (S t : ℂ) (h : 10 * t = S * Complex.I) :
    solver_direct env (psim fun _ _ => S).A (psim fun _ _ => S).rhs = flatten (fun (_ : Fin 2) (_ : Fin 2) => t) := by
  have h0 : kerrMat (psim fun _ _ => S) (fun _ _ => 0) = 0 := by
    ext a b
    simp [kerrMat, spdiag, flatten, Matrix.diagonal]
  have hb : bornMat (psim fun _ _ => S) (fun _ _ => 0) = (psim fun _ _ => S).A := by
    rw [bornMat, h0, add_zero]
  have := psim_bornStep env he S 0 t (by simpa using h)
  rw [bornStep_third, hb] at this
  rw [← this, flatten_unflatten]

/-- At a small uniform source the hybrid solver stops after one Born pass and the index shift is that of the linear field. -/
theorem psim_index_shift (env : Env) (he : env.Exact) (S : ℂ) (t : ℝ) (ht : t ≠ 0) (ht2 : t ^ 2 < 1e-10) (hS : 10 * (t : ℂ) = S * Complex.I) (s : Sim 2 2)
    (hk : SimKeep (psim fun _ _ => S) s) : ∃ s', s.compute_index_shift env = (.ok (fun _ _ => Real.sqrt (10 + 10 * t ^ 2) - Real.sqrt 10), s') ∧ SimKeep s s' := by
  obtain ⟨tr, htr⟩ := solve_fields_eq env s false
  have hthird : tr.2.2 = fun _ _ => (t : ℂ) := by
    have h1 : (s.solve_fields env).1 = .ok tr := by rw [htr]
    have h2 : (s.solve_fields env).1 = .ok (s.in_plane false s.eps_r (solver_direct env s.A s.rhs)) := rfl
    rw [h2] at h1
    rw [← Except.ok.inj h1, in_plane_third]
    have h3 : solver_direct env s.A s.rhs = solver_direct env (psim fun _ _ => S).A (psim fun _ _ => S).rhs := by
      rw [hk]
      rfl
    rw [h3, psim_linear env he S t hS, unflatten_flatten]
  set s1 : Sim 2 2 := { s with fields := Sim.store s.pol s.fields tr } with hs1
  have hk1 : SimKeep (psim fun _ _ => S) s1 := hk.trans rfl
  have hf1 : s1.fields s1.pol.comp = some fun _ _ => (t : ℂ) := by
    have hp : s1.pol = .Ez := hk1.pol
    have hp' : s.pol = .Ez := hp
    rw [hp]
    show Sim.store s.pol s.fields tr .Ez = _
    rw [hp']
    exact congrArg some hthird
  have hstep : (bornStep env s1 fun _ _ => (t : ℂ)).2.2 = fun _ _ => ((t / (1 + t ^ 2) : ℝ) : ℂ) := by
    have : bornStep env s1 (fun _ _ => (t : ℂ)) = bornStep env (psim fun _ _ => S) (fun _ _ => (t : ℂ)) := by
      rw [hk1]
      rfl
    rw [this]
    refine psim_bornStep env he S t _ ?_
    rw [← hS]
    have hne : (1 + t ^ 2 : ℝ) ≠ 0 := by positivity
    rw [Complex.norm_real, Real.norm_eq_abs, sq_abs]
    have : (10 + 10 * ((t ^ 2 : ℝ) : ℂ)) * ((t / (1 + t ^ 2) : ℝ) : ℂ) = (((10 + 10 * t ^ 2) * (t / (1 + t ^ 2)) : ℝ) : ℂ) := by push_cast; ring
    rw [this, show (10 + 10 * t ^ 2) * (t / (1 + t ^ 2)) = 10 * t by field_simp]
    push_cast
    ring
  obtain ⟨E0, fl, m, conv, hst, hm, hborn, hnot, hstop, hlen, hconv, hrest⟩ := born_solve_spec env s1 none 1e-10 19
  have hE0 : E0 = fun _ _ => (t : ℂ) := hst.2.1 rfl _ hf1
  subst hE0
  have hlt : (bornConv env s1 (fun _ _ => (t : ℂ)) 0).Lt 1e-10 := by
    show (convergence (bornStep env s1 fun _ _ => (t : ℂ)).2.2 fun _ _ => (t : ℂ)).Lt 1e-10
    rw [hstep, convergence_uniform _ _ (by
      have : t / (1 + t ^ 2) ≠ 0 := by positivity
      exact_mod_cast this)]
    show _ < _
    rw [← Complex.ofReal_sub, Complex.norm_real, Complex.norm_real, Real.norm_eq_abs, Real.norm_eq_abs]
    have h1 : t / (1 + t ^ 2) - t = -(t ^ 2 * (t / (1 + t ^ 2))) := by
      field_simp
      ring
    have hp : t / (1 + t ^ 2) ≠ 0 := by positivity
    rw [h1, abs_neg, abs_mul, mul_div_assoc, div_self (abs_ne_zero.2 hp), mul_one, abs_of_nonneg (sq_nonneg t)]
    exact ht2
  have hm0 : m = 0 := by
    rcases Nat.eq_zero_or_pos m with h | h
    · exact h
    · exact absurd hlt (hnot 0 h)
  subst hm0
  have hlast : conv.getLast? = some (.fin 0) := by
    rw [List.getLast?_eq_getElem?, hlen]
    exact hrest 19 (by norm_num) (by norm_num)
  have hgt : ¬ ((conv.getLast?).getD (.fin 0)).Gt 1e-10 := by
    rw [hlast]
    show ¬ ((1e-10 : ℝ) < 0)
    norm_num
  unfold Sim.compute_index_shift
  rw [htr]
  simp only [pySeq]
  unfold solve_fields_nl
  simp only
  rw [hborn]
  simp only
  rw [if_neg hgt]
  simp only
  have hit : bornIter env s1 (fun _ _ => (t : ℂ)) 0 = fun _ _ => (t : ℂ) := rfl
  rw [hit]
  have hnl : ∀ i j, (({ s1 with fields := fl } : Sim 2 2).compute_nl fun _ _ => (t : ℂ)).eps_nl i j = ((10 * t ^ 2 : ℝ) : ℂ) := by
    intro i j
    rw [compute_nl_eps_nl]
    have hsum : Spec.kerrSum s1.nonlinearity s1.eps_r i j = 10 := by
      rw [hk1.eps_r, show s1.nonlinearity = (psim fun _ _ => S).nonlinearity by rw [hk1]]
      exact psim_sum _ i j
    show Spec.kerrSum s1.nonlinearity s1.eps_r i j * _ = _
    rw [hsum, Complex.norm_real, Real.norm_eq_abs, sq_abs]
    push_cast
    ring
  have heps : ∀ i j, s1.eps_r i j = ((10 : ℝ) : ℂ) := by
    intro i j
    rw [hk1.eps_r]
    show (10 : ℂ) = ((10 : ℝ) : ℂ)
    norm_num
  have heps' : ∀ i j, (({ s1 with fields := fl } : Sim 2 2).compute_nl fun _ _ => (t : ℂ)).eps_r i j = ((10 : ℝ) : ℂ) := heps
  simp only [hnl, heps', ← Complex.ofReal_add, Complex.ofReal_re]
  have hno : ¬ ∃ (i j : Fin 2), 10 + 10 * t ^ 2 < 0 ∨ (10 : ℝ) < 0 := by
    rintro ⟨-, -, h | h⟩
    · nlinarith [sq_nonneg t]
    · norm_num at h
  rw [if_neg hno]
  have habs : |Real.sqrt (10 + 10 * t ^ 2) - Real.sqrt 10| = Real.sqrt (10 + 10 * t ^ 2) - Real.sqrt 10 :=
    abs_of_nonneg (sub_nonneg.2 (Real.sqrt_le_sqrt (by nlinarith [sq_nonneg t])))
  rw [habs]
  exact ⟨_, rfl, rfl⟩

end Angler
