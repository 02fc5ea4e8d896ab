import Verif.Lemmas.Kerr
import Verif.Lemmas.Frame

/-! # The Born and Newton loops in closed form -/

namespace Angler

open Matrix

variable {Nx Ny : ℕ}

/-- The matrix of one Born step at the field `F`. -/
noncomputable def bornMat (s : Sim Nx Ny) (F : Grid Nx Ny ℂ) : Mat (Nx * Ny) ℂ := s.A + kerrMat s F

/-- The triple computed by one pass of the Born loop from the field `F`. -/
noncomputable def bornStep (env : Env) (s : Sim Nx Ny) (F : Grid Nx Ny ℂ) : Grid Nx Ny ℂ × Grid Nx Ny ℂ × Grid Nx Ny ℂ :=
  s.in_plane false (fun i j => s.eps_r i j + (s.compute_nl F).eps_nl i j) (solver_direct env (bornMat s F) s.rhs)

theorem in_plane_third (s : Sim Nx Ny) (avg : Bool) (eps : Grid Nx Ny ℂ) (X : Vec (Nx * Ny) ℂ) : (s.in_plane avg eps X).2.2 = unflatten X := by
  unfold Sim.in_plane
  cases s.pol <;> rfl

theorem bornStep_third (env : Env) (s : Sim Nx Ny) (F : Grid Nx Ny ℂ) : (bornStep env s F).2.2 = unflatten (solver_direct env (bornMat s F) s.rhs) :=
  in_plane_third _ _ _ _

theorem solve_fields_nl_step (env : Env) (s : Sim Nx Ny) (F : Grid Nx Ny ℂ) :
    (s.compute_nl F).solve_fields env true = (.ok (bornStep env s F), s.compute_nl F) := by
  simp only [Sim.solve_fields, Bool.true_eq_false, if_false, compute_nl_Anl]
  rfl

theorem bornStep_compute_nl (env : Env) (s : Sim Nx Ny) (G F : Grid Nx Ny ℂ) : bornStep env (s.compute_nl G) F = bornStep env s F := rfl

theorem compute_nl_compute_nl (s : Sim Nx Ny) (G F : Grid Nx Ny ℂ) : (s.compute_nl G).compute_nl F = s.compute_nl F := rfl

/-- The field after `k` Born steps. -/
noncomputable def bornIter (env : Env) (s : Sim Nx Ny) (F : Grid Nx Ny ℂ) (k : ℕ) : Grid Nx Ny ℂ := (fun G => (bornStep env s G).2.2)^[k] F

theorem bornIter_zero (env : Env) (s : Sim Nx Ny) (F : Grid Nx Ny ℂ) : bornIter env s F 0 = F := rfl

theorem bornIter_succ (env : Env) (s : Sim Nx Ny) (F : Grid Nx Ny ℂ) (k : ℕ) : bornIter env s F (k + 1) = (bornStep env s (bornIter env s F k)).2.2 :=
  Function.iterate_succ_apply' _ _ _

theorem bornIter_shift (env : Env) (s : Sim Nx Ny) (F : Grid Nx Ny ℂ) (k : ℕ) : bornIter env s F (k + 1) = bornIter env s (bornStep env s F).2.2 k := rfl

/-- Relative change of Born step `k` (counted from 0). -/
noncomputable def bornConv (env : Env) (s : Sim Nx Ny) (F : Grid Nx Ny ℂ) (k : ℕ) : PyFloat :=
  convergence (bornIter env s F (k + 1)) (bornIter env s F k)

/-- The Born loop with at least one pass makes `n+1` steps, where `n` is the first step below the threshold or the last one allowed. -/
theorem bornLoop_spec (env : Env) (thr : ℝ) (fuel istep : ℕ) (s : Sim Nx Ny) (F : Grid Nx Ny ℂ) (conv : List PyFloat) (last) :
    ∃ n conv', n ≤ fuel ∧
      bornLoop env thr (fuel + 1) istep s F conv last =
        (.ok (some ((bornStep env s (bornIter env s F n)).1, (bornStep env s (bornIter env s F n)).2.1, bornIter env s F (n + 1), bornConv env s F n), conv'),
          s.compute_nl (bornIter env s F n)) ∧
      (∀ k < n, ¬ (bornConv env s F k).Lt thr) ∧ ((bornConv env s F n).Lt thr ∨ n = fuel) ∧
      conv'.length = conv.length ∧
      ∀ idx, conv'[idx]? = if istep ≤ idx ∧ idx ≤ istep + n ∧ idx < conv.length then some (bornConv env s F (idx - istep)) else conv[idx]? := by
  induction fuel generalizing istep s F conv last with
  | zero =>
    refine ⟨0, conv.set istep (bornConv env s F 0), le_refl _, ?_, fun k hk => absurd hk (Nat.not_lt_zero k), Or.inr rfl, by simp, ?_⟩
    · unfold bornLoop
      simp only [solve_fields_nl_step]
      split
      · rfl
      · rfl
    · intro idx
      rw [List.getElem?_set]
      by_cases h : istep = idx
      · subst h
        by_cases hl : istep < conv.length
        · simp [hl]
        · simp [hl, not_lt.1 hl]
      · rw [if_neg h, if_neg (by omega)]
  | succ fuel ih =>
    by_cases hlt : (bornConv env s F 0).Lt thr
    · refine ⟨0, conv.set istep (bornConv env s F 0), Nat.zero_le _, ?_, fun k hk => absurd hk (Nat.not_lt_zero k), Or.inl hlt, by simp, ?_⟩
      · unfold bornLoop
        simp only [solve_fields_nl_step]
        rw [if_pos (show (convergence (bornStep env s F).2.2 F).Lt thr from hlt)]
        rfl
      · intro idx
        rw [List.getElem?_set]
        by_cases h : istep = idx
        · subst h
          by_cases hl : istep < conv.length
          · simp [hl]
          · simp [hl, not_lt.1 hl]
        · rw [if_neg h, if_neg (by omega)]
    · obtain ⟨n, conv', hn, heq, hnot, hstop, hlen, hget⟩ := ih (istep + 1) (s.compute_nl F) (bornStep env s F).2.2
        (conv.set istep (bornConv env s F 0)) (some ((bornStep env s F).1, (bornStep env s F).2.1, (bornStep env s F).2.2, bornConv env s F 0))
      refine ⟨n + 1, conv', by omega, ?_, ?_, ?_, by rw [hlen]; simp, ?_⟩
      · rw [bornLoop]
        simp only [solve_fields_nl_step]
        rw [if_neg (show ¬ (convergence (bornStep env s F).2.2 F).Lt thr from hlt)]
        exact heq
      · intro k hk
        cases k with
        | zero => exact hlt
        | succ k => exact hnot k (by omega)
      · rcases hstop with h | h
        · exact Or.inl h
        · exact Or.inr (by omega)
      · intro idx
        rw [hget idx, List.getElem?_set, List.length_set]
        by_cases h : istep = idx
        · subst h
          rw [if_neg (by omega)]
          by_cases hl : istep < conv.length
          · simp [hl]
          · simp [hl, not_lt.1 hl]
        · by_cases h2 : istep + 1 ≤ idx ∧ idx ≤ istep + 1 + n ∧ idx < conv.length
          · rw [if_pos h2, if_pos (by omega)]
            have : idx - istep = (idx - (istep + 1)) + 1 := by omega
            rw [this]
            rfl
          · rw [if_neg h2, if_neg h, if_neg (by omega)]

theorem set_getElem_range (conv : List PyFloat) (istep : ℕ) (c : PyFloat) (idx : ℕ) :
    (conv.set istep c)[idx]? = if istep ≤ idx ∧ idx ≤ istep + 0 ∧ idx < conv.length then some c else conv[idx]? := by
  rw [List.getElem?_set]
  by_cases h : istep = idx
  · subst h
    by_cases hl : istep < conv.length
    · simp [hl]
    · simp [hl]
  · rw [if_neg h, if_neg (by omega)]

/-- One Newton update from the field `E`. -/
noncomputable def newtonStep (env : Env) (s : Sim Nx Ny) (E : Grid Nx Ny ℂ) : Except PyErr (Grid Nx Ny ℂ) :=
  (solver_complex2real env (nl_eq_and_jac s E).1.2.1 (nl_eq_and_jac s E).1.2.2 (nl_eq_and_jac s E).1.1).map
    fun d => fun i j => E i j - unflatten d i j

theorem newtonStep_compute_nl (env : Env) (s : Sim Nx Ny) (G E : Grid Nx Ny ℂ) : newtonStep env (s.compute_nl G) E = newtonStep env s E := rfl

/-- The Newton loop, when it does not raise: a sequence of Newton updates, stopped by the threshold or the limit. -/
theorem newtonLoop_spec (env : Env) (thr : ℝ) (fuel istep : ℕ) (s : Sim Nx Ny) (E : Grid Nx Ny ℂ) (conv : List PyFloat) (last)
    (Ez : Grid Nx Ny ℂ) (last' : Option PyFloat) (conv' : List PyFloat) (s' : Sim Nx Ny)
    (h : newtonLoop env thr (fuel + 1) istep s E conv last = (.ok (Ez, last', conv'), s')) :
    ∃ (n : ℕ) (it : ℕ → Grid Nx Ny ℂ), n ≤ fuel ∧ it 0 = E ∧ it (n + 1) = Ez ∧ (∀ k ≤ n, newtonStep env s (it k) = .ok (it (k + 1))) ∧
      last' = some (convergence (it (n + 1)) (it n)) ∧ s' = s.compute_nl (it n) ∧
      (∀ k < n, ¬ (convergence (it (k + 1)) (it k)).Lt thr) ∧ ((convergence (it (n + 1)) (it n)).Lt thr ∨ n = fuel) ∧
      conv'.length = conv.length ∧
      ∀ idx, conv'[idx]? = if istep ≤ idx ∧ idx ≤ istep + n ∧ idx < conv.length then some (convergence (it (idx - istep + 1)) (it (idx - istep))) else conv[idx]? := by
  induction fuel generalizing istep s E conv last with
  | zero =>
    rw [newtonLoop] at h
    simp only at h
    rcases hd : solver_complex2real env (nl_eq_and_jac s E).1.2.1 (nl_eq_and_jac s E).1.2.2 (nl_eq_and_jac s E).1.1 with e | d
    · rw [hd] at h; simp at h
    · rw [hd] at h
      simp only at h
      have hs : newtonStep env s E = .ok fun i j => E i j - unflatten d i j := by unfold newtonStep; rw [hd]; rfl
      have key : (Except.ok ((fun i j => E i j - unflatten d i j : Grid Nx Ny ℂ), some (convergence (fun i j => E i j - unflatten d i j) E),
          conv.set istep (convergence (fun i j => E i j - unflatten d i j) E)), (nl_eq_and_jac s E).2) = (Except.ok (ε := PyErr) (Ez, last', conv'), s') := by
        split at h
        · exact h
        · exact h
      simp only [Prod.mk.injEq, Except.ok.injEq] at key
      obtain ⟨⟨k1, k2, k3⟩, k4⟩ := key
      refine ⟨0, fun k => if k = 0 then E else Ez, le_refl _, by simp, by simp, ?_, ?_, ?_, fun k hk => absurd hk (Nat.not_lt_zero k), Or.inr rfl, ?_, ?_⟩
      · intro k hk
        obtain rfl : k = 0 := by omega
        simp only [if_true]
        rw [hs, k1]; simp
      · rw [← k2, k1]; simp
      · rw [← k4]; rfl
      · rw [← k3]; simp
      · intro idx
        rw [← k3, set_getElem_range]
        by_cases hh : istep ≤ idx ∧ idx ≤ istep + 0 ∧ idx < conv.length
        · rw [if_pos hh, if_pos hh]
          obtain rfl : idx = istep := by omega
          simp [k1]
        · rw [if_neg hh, if_neg hh]
  | succ fuel ih =>
    rw [newtonLoop] at h
    simp only at h
    rcases hd : solver_complex2real env (nl_eq_and_jac s E).1.2.1 (nl_eq_and_jac s E).1.2.2 (nl_eq_and_jac s E).1.1 with e | d
    · rw [hd] at h; simp at h
    · rw [hd] at h
      simp only at h
      have hs : newtonStep env s E = .ok fun i j => E i j - unflatten d i j := by unfold newtonStep; rw [hd]; rfl
      by_cases hlt : (convergence (fun i j => E i j - unflatten d i j) E).Lt thr
      · rw [if_pos hlt] at h
        simp only [Prod.mk.injEq, Except.ok.injEq] at h
        obtain ⟨⟨k1, k2, k3⟩, k4⟩ := h
        refine ⟨0, fun k => if k = 0 then E else Ez, Nat.zero_le _, by simp, by simp, ?_, ?_, ?_, fun k hk => absurd hk (Nat.not_lt_zero k), Or.inl ?_, ?_, ?_⟩
        · intro k hk
          obtain rfl : k = 0 := by omega
          simp only [if_true]
          rw [hs, k1]; simp
        · rw [← k2, k1]; simp
        · rw [← k4]; rfl
        · simpa [← k1] using hlt
        · rw [← k3]; simp
        · intro idx
          rw [← k3, set_getElem_range]
          by_cases hh : istep ≤ idx ∧ idx ≤ istep + 0 ∧ idx < conv.length
          · rw [if_pos hh, if_pos hh]
            obtain rfl : idx = istep := by omega
            simp [k1]
          · rw [if_neg hh, if_neg hh]
      · rw [if_neg hlt] at h
        obtain ⟨n, it, hn, h0, h1, hstep, hlast, hs', hnot, hstop, hlen, hget⟩ := ih (istep + 1) _ _ _ _ h
        refine ⟨n + 1, fun k => if k = 0 then E else it (k - 1), by omega, by simp, by simpa using h1, ?_, ?_, ?_, ?_, ?_, ?_, ?_⟩
        · intro k hk
          cases k with
          | zero => simp only [if_true]; rw [hs]; simp [h0]
          | succ k =>
            have := hstep k (by omega)
            rw [show newtonStep env (nl_eq_and_jac s E).2 (it k) = newtonStep env s (it k) from rfl] at this
            simpa using this
        · simpa using hlast
        · rw [hs']; simp; rfl
        · intro k hk
          cases k with
          | zero => simpa [h0] using hlt
          | succ k => simpa using hnot k (by omega)
        · rcases hstop with h | h
          · left; simpa using h
          · right; omega
        · rw [hlen]; simp
        · intro idx
          rw [hget idx, List.length_set, List.getElem?_set]
          by_cases h : istep = idx
          · subst h
            rw [if_neg (by omega)]
            by_cases hl : istep < conv.length
            · simp [hl, h0]
            · simp [hl, not_lt.1 hl]
          · by_cases h2 : istep + 1 ≤ idx ∧ idx ≤ istep + 1 + n ∧ idx < conv.length
            · rw [if_pos h2, if_pos (by omega)]
              have e1 : idx - istep = (idx - (istep + 1)) + 1 := by omega
              have e2 : idx - istep ≠ 0 := by omega
              simp [e1]
            · rw [if_neg h2, if_neg h, if_neg (by omega)]

end Angler
