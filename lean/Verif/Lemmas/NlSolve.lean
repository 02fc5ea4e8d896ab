import Verif.Lemmas.Solvers
import Verif.Props.Complex2Real

/-! # `born_solve`, `newton_solve` and `solve_fields_nl` in terms of iterates -/

namespace Angler

open Matrix

variable {Nx Ny : ℕ}

/-- The starting field of the nonlinear solvers: the given one, else the stored linear one, else a fresh linear solve. -/
def Spec.StartsAt (env : Env) (s : Sim Nx Ny) (E : Option (Grid Nx Ny ℂ)) (E0 : Grid Nx Ny ℂ) : Prop :=
  (∀ e, E = some e → E0 = e) ∧
  (E = none → ∀ f, s.fields s.pol.comp = some f → E0 = f) ∧
  (E = none → s.fields s.pol.comp = none → ∃ Fx Fy, (s.solve_fields env).1 = .ok (Fx, Fy, E0))

/-- `c` is the relative change `‖F - G‖ / ‖F‖` (2-norms), with the IEEE values `inf`, `nan` when `F = 0`. -/
def Spec.RelChange (c : PyFloat) (F G : Grid Nx Ny ℂ) : Prop :=
  (F ≠ 0 → c = .fin (Real.sqrt (∑ i, ∑ j, ‖F i j - G i j‖ ^ 2) / Real.sqrt (∑ i, ∑ j, ‖F i j‖ ^ 2))) ∧
  (F = 0 → G ≠ 0 → c = .inf) ∧ (F = 0 → G = 0 → c = .nan)

theorem sumsq_eq_zero {f : Grid Nx Ny ℂ} : ∑ i, ∑ j, ‖f i j‖ ^ 2 = 0 ↔ f = 0 := by
  constructor
  · intro h
    funext i j
    have h1 := (Finset.sum_eq_zero_iff_of_nonneg (fun i _ => Finset.sum_nonneg fun j _ => by positivity)).1 h i (Finset.mem_univ i)
    have h2 := (Finset.sum_eq_zero_iff_of_nonneg (fun j _ => by positivity)).1 h1 j (Finset.mem_univ j)
    simpa using h2
  · rintro rfl; simp

theorem sumsq_nonneg (f : Grid Nx Ny ℂ) : 0 ≤ ∑ i, ∑ j, ‖f i j‖ ^ 2 := Finset.sum_nonneg fun i _ => Finset.sum_nonneg fun j _ => by positivity

theorem laNorm_eq_zero {f : Grid Nx Ny ℂ} : laNorm f = 0 ↔ f = 0 := by
  rw [laNorm, Real.sqrt_eq_zero (sumsq_nonneg f), sumsq_eq_zero]

theorem laNorm_nonneg (f : Grid Nx Ny ℂ) : 0 ≤ laNorm f := Real.sqrt_nonneg _

theorem norm_le_laNorm (f : Grid Nx Ny ℂ) (i : Fin Nx) (j : Fin Ny) : ‖f i j‖ ≤ laNorm f := by
  rw [laNorm]
  refine Real.le_sqrt_of_sq_le ?_
  refine le_trans ?_ (Finset.single_le_sum (f := fun i => ∑ j, ‖f i j‖ ^ 2) (fun i _ => Finset.sum_nonneg fun j _ => by positivity) (Finset.mem_univ i))
  exact Finset.single_le_sum (f := fun j => ‖f i j‖ ^ 2) (fun j _ => by positivity) (Finset.mem_univ j)

theorem convergence_spec (F G : Grid Nx Ny ℂ) : Spec.RelChange (convergence F G) F G := by
  refine ⟨fun h => ?_, fun h hG => ?_, fun h hG => ?_⟩
  · unfold convergence PyFloat.div
    rw [if_pos (fun h0 => h (laNorm_eq_zero.1 h0))]
    rfl
  · unfold convergence PyFloat.div
    have hpos : 0 < laNorm fun i j => F i j - G i j := by
      refine lt_of_le_of_ne (laNorm_nonneg _) fun h0 => hG ?_
      have := laNorm_eq_zero.1 h0.symm
      subst h
      funext i j
      simpa using congrFun (congrFun this i) j
    rw [if_neg (by simpa using laNorm_eq_zero.2 h), if_pos hpos]
  · subst h; subst hG
    unfold convergence PyFloat.div
    have h0 : laNorm (0 : Grid Nx Ny ℂ) = 0 := laNorm_eq_zero.2 rfl
    have h1 : (laNorm fun (i : Fin Nx) (j : Fin Ny) => (0 : Grid Nx Ny ℂ) i j - (0 : Grid Nx Ny ℂ) i j) = 0 := by
      rw [laNorm_eq_zero]; funext i j; simp
    rw [h0, h1]; simp

theorem startField_spec (env : Env) (s : Sim Nx Ny) (E : Option (Grid Nx Ny ℂ)) :
    ∃ E0 fl, startField env s E = (.ok E0, { s with fields := fl }) ∧ Spec.StartsAt env s E E0 := by
  unfold startField
  cases E with
  | some e => exact ⟨e, s.fields, rfl, fun e' h => by cases h; rfl, fun h => by simp at h, fun h => by simp at h⟩
  | none =>
    cases h : s.fields s.pol.comp with
    | some f =>
      refine ⟨f, s.fields, rfl, fun e' h => by simp at h, fun _ f' h' => ?_, fun _ h' => ?_⟩
      · rw [h] at h'; cases h'; rfl
      · rw [h] at h'; cases h'
    | none =>
      refine ⟨_, _, rfl, fun e' h => by simp at h, fun _ f' h' => ?_, fun _ _ => ⟨_, _, rfl⟩⟩
      rw [h] at h'; cases h'

/-- One pass of the Born loop through the public methods. -/
theorem born_pass (env : Env) (s : Sim Nx Ny) (F : Grid Nx Ny ℂ) : ((s.compute_nl F).solve_fields env true).1 = .ok (bornStep env s F) := by
  rw [solve_fields_nl_step]

/-- `born_solve` with at least one iteration. -/
theorem born_solve_spec (env : Env) (s : Sim Nx Ny) (E : Option (Grid Nx Ny ℂ)) (thr : ℝ) (n : ℕ) :
    ∃ (E0 : Grid Nx Ny ℂ) (fl : Fields Nx Ny) (m : ℕ) (conv : List PyFloat), Spec.StartsAt env s E E0 ∧ m ≤ n ∧
      born_solve env s E thr (n + 1) = (.ok ⟨(bornStep env s (bornIter env s E0 m)).1, (bornStep env s (bornIter env s E0 m)).2.1, bornIter env s E0 (m + 1), conv⟩,
        ({ s with fields := fl } : Sim Nx Ny).compute_nl (bornIter env s E0 m)) ∧
      (∀ k < m, ¬ (bornConv env s E0 k).Lt thr) ∧ ((bornConv env s E0 m).Lt thr ∨ m = n) ∧ conv.length = n + 1 ∧
      (∀ k ≤ m, conv[k]? = some (bornConv env s E0 k)) ∧ ∀ k, m < k → k < n + 1 → conv[k]? = some (.fin 0) := by
  obtain ⟨E0, fl, hs, hst⟩ := startField_spec env s E
  obtain ⟨m, conv, hm, heq, hnot, hstop, hlen, hget⟩ := bornLoop_spec env thr n 0 ({ s with fields := fl } : Sim Nx Ny) E0 (List.replicate (n + 1) (.fin 0)) none
  rw [List.length_replicate] at hlen
  simp only [List.length_replicate] at hget
  refine ⟨E0, fl, m, conv, hst, hm, ?_, hnot, hstop, hlen, ?_, ?_⟩
  · unfold born_solve
    rw [hs]
    simp only
    rw [heq]
    rfl
  · intro k hk
    rw [hget k, if_pos (by omega)]
    rfl
  · intro k h1 h2
    rw [hget k, if_neg (by omega), List.getElem?_replicate, if_pos h2]

theorem born_solve_zero (env : Env) (s : Sim Nx Ny) (E : Option (Grid Nx Ny ℂ)) (thr : ℝ) : (born_solve env s E thr 0).1 = .error .unboundLocalError := by
  obtain ⟨E0, fl, hs, -⟩ := startField_spec env s E
  unfold born_solve
  rw [hs]
  rfl

theorem newton_solve_zero (env : Env) (s : Sim Nx Ny) (hp : s.pol = .Ez) (E : Option (Grid Nx Ny ℂ)) (thr : ℝ) :
    (newton_solve env s E thr 0).1 = .error .unboundLocalError := by
  obtain ⟨E0, fl, hs, -⟩ := startField_spec env s E
  unfold newton_solve
  rw [hp, hs]
  simp only [newtonLoop]
  rw [solve_fields_nl_step]

/-- `newton_solve`, when it returns. -/
theorem newton_solve_spec (env : Env) (s : Sim Nx Ny) (E : Option (Grid Nx Ny ℂ)) (thr : ℝ) (n : ℕ) (r : NlResult Nx Ny) (s' : Sim Nx Ny)
    (h : newton_solve env s E thr (n + 1) = (.ok r, s')) :
    ∃ (E0 : Grid Nx Ny ℂ) (fl : Fields Nx Ny) (m : ℕ) (it : ℕ → Grid Nx Ny ℂ), s.pol = .Ez ∧ Spec.StartsAt env s E E0 ∧ m ≤ n ∧ it 0 = E0 ∧
      (∀ k ≤ m, newtonStep env s (it k) = .ok (it (k + 1))) ∧
      (r.Fx, r.Fy, r.Fz) = bornStep env s (it (m + 1)) ∧ s' = ({ s with fields := fl } : Sim Nx Ny).compute_nl (it (m + 1)) ∧
      (∀ k < m, ¬ (convergence (it (k + 1)) (it k)).Lt thr) ∧ ((convergence (it (m + 1)) (it m)).Lt thr ∨ m = n) ∧ r.conv.length = n + 1 ∧
      (∀ k ≤ m, r.conv[k]? = some (convergence (it (k + 1)) (it k))) ∧ ∀ k, m < k → k < n + 1 → r.conv[k]? = some (.fin 0) := by
  obtain ⟨E0, fl, hs, hst⟩ := startField_spec env s E
  unfold newton_solve at h
  have hp : s.pol = .Ez := by
    cases hp : s.pol with
    | Ez => rfl
    | Hz => rw [hp] at h; cases h
  rw [hp, hs] at h
  simp only at h
  rcases hl : newtonLoop env thr (n + 1) 0 ({ s with fields := fl } : Sim Nx Ny) E0 (List.replicate (n + 1) (.fin 0)) none with ⟨e | ⟨Ez, last, conv⟩, s2⟩
  · rw [hl] at h; cases h
  · rw [hl] at h
    simp only [solve_fields_nl_step] at h
    obtain ⟨m, it, hm, h0, h1, hstep, hlast, hs2, hnot, hstop, hlen, hget⟩ := newtonLoop_spec env thr n 0 _ _ _ _ _ _ _ _ hl
    rw [hlast] at h
    simp only [Prod.mk.injEq, Except.ok.injEq] at h
    obtain ⟨hr, hs'⟩ := h
    subst hr
    rw [List.length_replicate] at hlen
    simp only [List.length_replicate] at hget
    refine ⟨E0, fl, m, it, hp, hst, hm, h0, hstep, ?_, ?_, hnot, hstop, hlen, ?_, ?_⟩
    · rw [hs2, h1]; rfl
    · rw [← hs', hs2, h1]; rfl
    · intro k hk
      simp only
      rw [hget k, if_pos (by omega)]
      rfl
    · intro k h1 h2
      simp only
      rw [hget k, if_neg (by omega), List.getElem?_replicate, if_pos h2]

/-- With Pardiso the Newton loop never raises. -/
theorem newtonLoop_ok (env : Env) (hb : env.backend = .pardiso) (thr : ℝ) (fuel istep : ℕ) (s : Sim Nx Ny) (E : Grid Nx Ny ℂ) (conv : List PyFloat) (last) :
    ∃ r s', newtonLoop env thr fuel istep s E conv last = (.ok r, s') ∧ (0 < fuel ∨ last.isSome → r.2.1.isSome) := by
  induction fuel generalizing istep s E conv last with
  | zero => exact ⟨_, _, rfl, fun h => by simpa using h⟩
  | succ fuel ih =>
    have hok : ∃ d, solver_complex2real env (nl_eq_and_jac s E).1.2.1 (nl_eq_and_jac s E).1.2.2 (nl_eq_and_jac s E).1.1 = .ok d := by
      unfold solver_complex2real
      rw [hb]
      by_cases h : (nl_eq_and_jac s E).1.1 = 0
      · exact ⟨_, if_pos h⟩
      · exact ⟨_, if_neg h⟩
    obtain ⟨d, hd⟩ := hok
    rw [newtonLoop]
    simp only [hd]
    by_cases hlt : (convergence (fun i j => E i j - unflatten d i j) E).Lt thr
    · rw [if_pos hlt]
      exact ⟨_, _, rfl, fun _ => rfl⟩
    · rw [if_neg hlt]
      obtain ⟨r, s', h1, h2⟩ := ih (istep + 1) (nl_eq_and_jac s E).2 (fun i j => E i j - unflatten d i j) (conv.set istep (convergence (fun i j => E i j - unflatten d i j) E))
        (some (convergence (fun i j => E i j - unflatten d i j) E))
      exact ⟨r, s', h1, fun _ => h2 (Or.inr rfl)⟩

theorem newton_solve_ok (env : Env) (hb : env.backend = .pardiso) (s : Sim Nx Ny) (hp : s.pol = .Ez) (E : Option (Grid Nx Ny ℂ)) (thr : ℝ) (n : ℕ) :
    ∃ r s', newton_solve env s E thr (n + 1) = (.ok r, s') := by
  obtain ⟨E0, fl, hs, hst⟩ := startField_spec env s E
  unfold newton_solve
  rw [hp, hs]
  simp only
  obtain ⟨⟨Ez, last, conv⟩, s', h1, h2⟩ := newtonLoop_ok env hb thr (n + 1) 0 ({ s with fields := fl } : Sim Nx Ny) E0 (List.replicate (n + 1) (.fin 0)) none
  rw [h1]
  simp only [solve_fields_nl_step]
  have h3 := h2 (Or.inl (Nat.succ_pos n))
  cases last with
  | none => simp at h3
  | some c => exact ⟨_, _, rfl⟩

end Angler
