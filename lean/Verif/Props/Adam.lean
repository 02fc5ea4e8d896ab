import Verif.Props.OptRun
import Mathlib.Algebra.Field.GeomSum

/-! # C39: the moments of Adam -/

namespace Angler

variable {Nx Ny : ℕ}

/-- The weight of the `k`-th of `n + 1` values in the average: decaying into the past, normalised. -/
noncomputable def Spec.weight (b : ℝ) (n k : ℕ) : ℝ := (1 - b) * b ^ (n - k) / (1 - b ^ (n + 1))

/-- The weighted average of `f 0, …, f n`. -/
noncomputable def Spec.average (b : ℝ) (f : ℕ → ℝ) (n : ℕ) : ℝ := ∑ k ∈ Finset.range (n + 1), Spec.weight b n k * f k

theorem one_sub_pow_pos {b : ℝ} (h0 : 0 ≤ b) (h1 : b < 1) (n : ℕ) : 0 < 1 - b ^ (n + 1) := by
  have : b ^ (n + 1) < 1 := pow_lt_one₀ h0 h1 (Nat.succ_ne_zero n)
  linarith

/-- **C39, weights.** They are non-negative and sum to 1. -/
theorem C39_weights (b : ℝ) (h0 : 0 ≤ b) (h1 : b < 1) (n : ℕ) : (∀ k, 0 ≤ Spec.weight b n k) ∧ ∑ k ∈ Finset.range (n + 1), Spec.weight b n k = 1 := by
  have hp := one_sub_pow_pos h0 h1 n
  refine ⟨fun k => div_nonneg (mul_nonneg (by linarith) (pow_nonneg h0 _)) hp.le, ?_⟩
  unfold Spec.weight
  rw [← Finset.sum_div, ← Finset.mul_sum, div_eq_one_iff_eq hp.ne']
  have hr : ∑ k ∈ Finset.range (n + 1), b ^ (n - k) = ∑ k ∈ Finset.range (n + 1), b ^ k := by
    rw [← Finset.sum_range_reflect]
    exact Finset.sum_congr rfl fun k hk => by
      rw [Finset.mem_range] at hk
      congr 1
      omega
  rw [hr, mul_neg_geom_sum]

/-- The uncorrected moment. -/
noncomputable def rawMoment (b : ℝ) (f : ℕ → ℝ) : ℕ → ℝ
  | 0 => 0
  | n + 1 => b * rawMoment b f n + (1 - b) * f n

theorem rawMoment_congr (b : ℝ) {f f' : ℕ → ℝ} (n : ℕ) (h : ∀ k < n, f' k = f k) : rawMoment b f' n = rawMoment b f n := by
  induction n with
  | zero => rfl
  | succ n ih => rw [rawMoment, rawMoment, ih fun k hk => h k (by omega), h n (by omega)]

theorem rawMoment_eq (b : ℝ) (f : ℕ → ℝ) (n : ℕ) : rawMoment b f (n + 1) = ∑ k ∈ Finset.range (n + 1), (1 - b) * b ^ (n - k) * f k := by
  induction n with
  | zero => simp [rawMoment]
  | succ n ih =>
    rw [rawMoment, ih, Finset.sum_range_succ _ (n + 1), Finset.mul_sum]
    congr 1
    · refine Finset.sum_congr rfl fun k hk => ?_
      rw [Finset.mem_range] at hk
      rw [show n + 1 - k = (n - k) + 1 by omega, pow_succ]
      ring
    · simp

theorem rawMoment_average (b : ℝ) (f : ℕ → ℝ) (n : ℕ) : rawMoment b f (n + 1) / (1 - b ^ (n + 1)) = Spec.average b f n := by
  rw [rawMoment_eq, Finset.sum_div]
  exact Finset.sum_congr rfl fun k _ => by unfold Spec.weight; ring

theorem average_sq_nonneg {b : ℝ} (h0 : 0 ≤ b) (h1 : b < 1) (f : ℕ → ℝ) (n : ℕ) : 0 ≤ Spec.average b (fun k => f k ^ 2) n :=
  Finset.sum_nonneg fun k _ => mul_nonneg ((C39_weights b h0 h1 n).1 k) (sq_nonneg _)

/-- The step that Adam should take after the gradients `g 0, …, g n`. -/
noncomputable def Spec.adamStep (b1 b2 : ℝ) (g : ℕ → Grid Nx Ny ℝ) (n : ℕ) : Grid Nx Ny ℝ := fun i j =>
  Spec.average b1 (fun k => g k i j) n / (Real.sqrt (Spec.average b2 (fun k => g k i j ^ 2) n) + 1e-8)

/-- The moments after `n` gradients. -/
def MomentsOf (b1 b2 : ℝ) (g : ℕ → Grid Nx Ny ℝ) (n : ℕ) (mv : Opt.Moments Nx Ny) : Prop :=
  ∀ i j, mv.1 i j = rawMoment b1 (fun k => g k i j) n ∧ mv.2 i j = rawMoment b2 (fun k => g k i j ^ 2) n

theorem step_adam_spec {b1 b2 : ℝ} (h1 : 0 ≤ b1 ∧ b1 < 1) (h2 : 0 ≤ b2 ∧ b2 < 1) (g : ℕ → Grid Nx Ny ℝ) (n : ℕ) (mv : Opt.Moments Nx Ny) (h : MomentsOf b1 b2 g n mv) :
    ∃ mv', Opt.step_adam (g n) mv n b1 b2 = .ok (Spec.adamStep b1 b2 g n, mv') ∧ MomentsOf b1 b2 g (n + 1) mv' := by
  have c1 := one_sub_pow_pos h1.1 h1.2 n
  have c2 := one_sub_pow_pos h2.1 h2.2 n
  have hm : ∀ i j, b1 * mv.1 i j + (1 - b1) * g n i j = rawMoment b1 (fun k => g k i j) (n + 1) := fun i j => by rw [(h i j).1]; rfl
  have hv : ∀ i j, b2 * mv.2 i j + (1 - b2) * g n i j ^ 2 = rawMoment b2 (fun k => g k i j ^ 2) (n + 1) := fun i j => by rw [(h i j).2]; rfl
  refine ⟨(fun i j => b1 * mv.1 i j + (1 - b1) * g n i j, fun i j => b2 * mv.2 i j + (1 - b2) * g n i j ^ 2), ?_, fun i j => ⟨hm i j, hv i j⟩⟩
  unfold Opt.step_adam
  simp only
  rw [if_neg]
  · congr 2
    funext i j
    rw [hm, hv, rawMoment_average, rawMoment_average]
    rfl
  · rintro (h | h | ⟨i, j, h⟩)
    · exact c1.ne' h
    · exact c2.ne' h
    · rw [hv, rawMoment_average] at h
      exact absurd h (not_lt.2 (average_sq_nonneg h2.1 h2.2 _ n))

/-- What iteration `k` of Adam has to do, from state `o` with gradients `g` so far, to state `o'`. -/
def Spec.AdamIteration (env : Env) (st b1 b2 : ℝ) (g : ℕ → Grid Nx Ny ℝ) (k : ℕ) (o o' : Opt Nx Ny) : Prop :=
  ∃ v o1 o2 o3, Opt.J_self env o = (.ok v, o1) ∧ Opt.set_source_amplitude env { o1 with objfn_list := o1.objfn_list ++ [v] } = (.ok (), o2) ∧
    Opt.dJ_self env o2 = (.ok (g k), o3) ∧ Opt.update_rho o3 (Spec.adamStep b1 b2 g k) st = (.ok (), o')

theorem average_congr {b : ℝ} {f f' : ℕ → ℝ} {n : ℕ} (h : ∀ k ≤ n, f' k = f k) : Spec.average b f' n = Spec.average b f n :=
  Finset.sum_congr rfl fun k hk => by
    rw [Finset.mem_range] at hk
    rw [h k (by omega)]

theorem adamStep_congr {b1 b2 : ℝ} {g g' : ℕ → Grid Nx Ny ℝ} {n : ℕ} (h : ∀ k ≤ n, g' k = g k) : Spec.adamStep b1 b2 g' n = Spec.adamStep b1 b2 g n := by
  funext i j
  unfold Spec.adamStep
  rw [average_congr fun k hk => by rw [h k hk], average_congr (f' := fun k => g' k i j ^ 2) fun k hk => by rw [h k hk]]

theorem loopADAM_spec (env : Env) {st b1 b2 : ℝ} (h1 : 0 ≤ b1 ∧ b1 < 1) (h2 : 0 ≤ b2 ∧ b2 < 1) (n it : ℕ) (mv : Opt.Moments Nx Ny) (o o' : Opt Nx Ny) (g : ℕ → Grid Nx Ny ℝ)
    (hmv : it = 0 ∨ MomentsOf b1 b2 g it mv) (hok : Opt.loopADAM env st b1 b2 n it mv o = (.ok (), o')) :
    ∃ (s : ℕ → Opt Nx Ny) (g' : ℕ → Grid Nx Ny ℝ), (∀ k < it, g' k = g k) ∧ s it = o ∧ s (it + n) = o' ∧
      ∀ k, it ≤ k → k < it + n → Spec.AdamIteration env st b1 b2 g' k (s k) (s (k + 1)) := by
  induction n generalizing it mv o g with
  | zero =>
    have ho : o = o' := congrArg Prod.snd hok
    exact ⟨fun _ => o, g, fun _ _ => rfl, rfl, ho, fun k h h' => absurd h' (by omega)⟩
  | succ n ih =>
    obtain ⟨mv', o1, hs, hrest⟩ := pySeq_ok hok
    obtain ⟨v, p1, hJ, hs⟩ := pySeq_ok hs
    obtain ⟨_, p2, hS, hs⟩ := pySeq_ok hs
    obtain ⟨grad, p3, hG, hs⟩ := pySeq_ok hs
    let g1 : ℕ → Grid Nx Ny ℝ := Function.update g it grad
    have hg1 : g1 it = grad := Function.update_self ..
    have hlt : ∀ k < it, g1 k = g k := fun k hk => Function.update_of_ne (by omega) _ _
    have hmv1 : MomentsOf b1 b2 g1 it (if it = 0 then (fun _ _ => 0, fun _ _ => 0) else mv) := by
      intro i j
      by_cases h0 : it = 0
      · rw [if_pos h0, h0]
        exact ⟨rfl, rfl⟩
      · rw [if_neg h0]
        have := (hmv.resolve_left h0) i j
        rw [this.1, this.2]
        exact ⟨(rawMoment_congr _ _ fun k hk => by rw [hlt k hk]).symm, (rawMoment_congr _ _ fun k hk => by rw [hlt k hk]).symm⟩
    obtain ⟨mv2, hstep, hmv2⟩ := step_adam_spec h1 h2 g1 it _ hmv1
    rw [hg1] at hstep
    rw [hstep] at hs
    obtain ⟨_, o4, hU, h4⟩ := pySeq_ok hs
    cases h4
    obtain ⟨s, g', hg', hs0, hsn, hit⟩ := ih (it + 1) mv' o1 g1 (Or.inr hmv2) hrest
    refine ⟨fun k => if k = it then o else s k, g', fun k hk => (hg' k (by omega)).trans (hlt k hk), if_pos rfl, ?_, fun k hk hk' => ?_⟩
    · show (if it + (n + 1) = it then o else s (it + (n + 1))) = o'
      rw [if_neg (by omega), show it + (n + 1) = it + 1 + n by omega, hsn]
    · by_cases hki : k = it
      · subst hki
        show Spec.AdamIteration env st b1 b2 g' k (if k = k then o else s k) (if k + 1 = k then o else s (k + 1))
        rw [if_pos rfl, if_neg (by omega), hs0]
        refine ⟨v, p1, p2, p3, hJ, hS, ?_, ?_⟩
        · rw [hg' k (by omega), hg1]; exact hG
        · rw [adamStep_congr (g := g1) fun l hl => hg' l (by omega)]
          exact hU
      · show Spec.AdamIteration env st b1 b2 g' k (if k = it then o else s k) (if k + 1 = it then o else s (k + 1))
        rw [if_neg hki, if_neg (by omega)]
        exact hit k (by omega) (by omega)

/-- **C39.** A finished run of Adam of any length, for any decay rates in `[0, 1)`, objective and start: at each iteration the density is updated with the quotient of the
weighted averages of all gradients (and squared gradients) that the run has computed so far. -/
theorem C39_adam_run (env : Env) (st b1 b2 : ℝ) (h1 : 0 ≤ b1 ∧ b1 < 1) (h2 : 0 ≤ b2 ∧ b2 < 1) (n : ℕ) (o o' : Opt Nx Ny) (hok : Opt.run_ADAM env st b1 b2 n o = (.ok (), o')) :
    ∃ (s : ℕ → Opt Nx Ny) (g : ℕ → Grid Nx Ny ℝ), s 0 = o ∧ s n = o' ∧ ∀ k < n, Spec.AdamIteration env st b1 b2 g k (s k) (s (k + 1)) := by
  obtain ⟨s, g, -, h0, hn, h⟩ := loopADAM_spec env h1 h2 n 0 _ o o' (fun _ _ _ => 0) (Or.inl rfl) hok
  exact ⟨s, g, h0, by rw [← hn, Nat.zero_add], fun k hk => h k (Nat.zero_le k) (by omega)⟩

/-- **C39, constant gradient.** The step is `g / (|g| + 1e-8)` at each iteration. -/
theorem C39_constant_gradient (b1 b2 : ℝ) (h1 : 0 ≤ b1 ∧ b1 < 1) (h2 : 0 ≤ b2 ∧ b2 < 1) (g : ℕ → Grid Nx Ny ℝ) (n : ℕ) (i : Fin Nx) (j : Fin Ny) (c : ℝ)
    (hc : ∀ k ≤ n, g k i j = c) : Spec.adamStep b1 b2 g n i j = c / (|c| + 1e-8) := by
  have avg : ∀ (b : ℝ), 0 ≤ b → b < 1 → ∀ (f : ℕ → ℝ) (a : ℝ), (∀ k ≤ n, f k = a) → Spec.average b f n = a := by
    intro b h0 h1 f a ha
    rw [average_congr (f := fun _ => a) fun k hk => ha k hk]
    unfold Spec.average
    rw [← Finset.sum_mul, (C39_weights b h0 h1 n).2, one_mul]
  unfold Spec.adamStep
  rw [avg b1 h1.1 h1.2 _ c hc, avg b2 h2.1 h2.2 _ (c ^ 2) (fun k hk => by rw [hc k hk]), Real.sqrt_sq_eq_abs]

/-- Adam on the witness runs to the end, for any number of steps, step size and decay rates in `[0, 1)`. -/
theorem Runnable.run_ADAM (env : Env) {o : Opt Nx Ny} {J : ObjFn Nx Ny} {args : List ObjArg} (h : Runnable o J args) {rho : Grid Nx Ny ℝ}
    (hr : o.simulation.rho = some (some rho)) (st b1 b2 : ℝ) (h1 : 0 ≤ b1 ∧ b1 < 1) (h2 : 0 ≤ b2 ∧ b2 < 1) (n : ℕ) : (Opt.run_ADAM env st b1 b2 n o).1 = .ok () := by
  have loop : ∀ (n it : ℕ) (mv : Opt.Moments Nx Ny) (g : ℕ → Grid Nx Ny ℝ) (o : Opt Nx Ny) (rho : Grid Nx Ny ℝ), Runnable o J args → o.simulation.rho = some (some rho) →
      (it = 0 ∨ MomentsOf b1 b2 g it mv) → (Opt.loopADAM env st b1 b2 n it mv o).1 = .ok () := by
    intro n
    induction n with
    | zero => intros; rfl
    | succ n ih =>
      intro it mv g o rho h hr hmv
      obtain ⟨v, o1, o2, o3, grad, hq1, hq2, hq3, hup⟩ := h.iteration env hr
      let g1 : ℕ → Grid Nx Ny ℝ := Function.update g it grad
      have hg1 : g1 it = grad := Function.update_self ..
      have hlt : ∀ k < it, g1 k = g k := fun k hk => Function.update_of_ne (by omega) _ _
      have hmv1 : MomentsOf b1 b2 g1 it (if it = 0 then (fun _ _ => 0, fun _ _ => 0) else mv) := by
        intro i j
        by_cases h0 : it = 0
        · rw [if_pos h0, h0]
          exact ⟨rfl, rfl⟩
        · rw [if_neg h0]
          have := (hmv.resolve_left h0) i j
          rw [this.1, this.2]
          exact ⟨(rawMoment_congr _ _ fun k hk => by rw [hlt k hk]).symm, (rawMoment_congr _ _ fun k hk => by rw [hlt k hk]).symm⟩
      obtain ⟨mv2, hstep, hmv2⟩ := step_adam_spec h1 h2 g1 it _ hmv1
      rw [hg1] at hstep
      obtain ⟨o', hu, h', hr', -⟩ := hup (Spec.adamStep b1 b2 g1 it) st
      have hs : Opt.stepADAM env st b1 b2 it mv o = (.ok mv2, o') := by
        unfold Opt.stepADAM
        rw [hq1]
        simp only [pySeq]
        rw [hq2]
        simp only
        rw [hq3]
        simp only
        rw [hstep]
        simp only
        rw [hu]
      unfold Opt.loopADAM
      rw [hs]
      exact ih (it + 1) mv2 g1 o' _ h' hr' (Or.inr hmv2)
  exact loop n 0 _ (fun _ _ _ => 0) o rho h hr (Or.inl rfl)

/-- The hypotheses of `C39_adam_run` are met with the default decay rates. -/
example (env : Env) (st : ℝ) (n : ℕ) : ∃ (o o' : Opt 9 9), Opt.run_ADAM env st 0.9 0.999 n o = (.ok (), o') ∧ ∃ (s : ℕ → Opt 9 9) (g : ℕ → Grid 9 9 ℝ), s 0 = o ∧ s n = o' ∧
    ∀ k < n, Spec.AdamIteration env st 0.9 0.999 g k (s k) (s (k + 1)) := by
  have h := (ropt_runnable (Nx := 9) (Ny := 9) (fun _ _ => 1) (fun _ _ => 3) (fun _ _ => 1 / 2) (fun _ _ => 1) 1).run_ADAM env rfl st 0.9 0.999 (by norm_num) (by norm_num) n
  refine ⟨_, (Opt.run_ADAM env st 0.9 0.999 n (ropt (fun _ _ => 1) (fun _ _ => 3) (fun _ _ => 1 / 2) (fun _ _ => 1) 1)).2, Prod.ext h rfl, ?_⟩
  exact C39_adam_run env st 0.9 0.999 (by norm_num) (by norm_num) n _ _ (Prod.ext h rfl)

end Angler
