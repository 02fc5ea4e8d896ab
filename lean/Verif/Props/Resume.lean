import Verif.Props.Ascent
import Verif.Props.GradientKerr
import Verif.Lemmas.Runnable
import Verif.Lemmas.CoarseSim

/-! # C80: continuing an optimisation with a second call of `run` -/

namespace Angler

open Matrix

variable {Nx Ny : ℕ}

/-- After an update the cached fields count as stale and a density is present. -/
theorem update_rho_after {o o' : Opt Nx Ny} {g : Grid Nx Ny ℝ} {st : ℝ} {u : Unit} (h : Opt.update_rho o g st = (.ok u, o')) :
    o'.fields_current = false ∧ ∃ rho, o'.simulation.rho = some (some rho) := by
  unfold Opt.update_rho at h
  split at h
  · cases h
  · cases h
  · cases h
    exact ⟨rfl, _, rfl⟩

theorem stepGD_after {env : Env} {o o' : Opt Nx Ny} {st : ℝ} {u : Unit} (h : Opt.stepGD env st o = (.ok u, o')) :
    o'.fields_current = false ∧ ∃ rho, o'.simulation.rho = some (some rho) := by
  unfold Opt.stepGD at h
  obtain ⟨_, o1, -, h⟩ := pySeq_ok h
  obtain ⟨_, o2, -, h⟩ := pySeq_ok h
  obtain ⟨_, o3, -, h⟩ := pySeq_ok h
  exact update_rho_after h

theorem run_GD_after {env : Env} {st : ℝ} (n : ℕ) {o o' : Opt Nx Ny} {u : Unit} (h : Opt.run_GD env st n o = (.ok u, o')) (h0 : o.fields_current = false)
    (hr : ∃ rho, o.simulation.rho = some (some rho)) : o'.fields_current = false ∧ ∃ rho, o'.simulation.rho = some (some rho) := by
  induction n generalizing o with
  | zero => cases h; exact ⟨h0, hr⟩
  | succ n ih =>
    unfold Opt.run_GD at h
    obtain ⟨_, o1, hs, h⟩ := pySeq_ok h
    obtain ⟨h1, h2⟩ := stepGD_after hs
    exact ih h h1 h2

theorem run_GD_add (env : Env) (st : ℝ) (n m : ℕ) (o : Opt Nx Ny) : Opt.run_GD env st (n + m) o = pySeq (Opt.run_GD env st n o) fun _ o1 => Opt.run_GD env st m o1 := by
  induction n generalizing o with
  | zero => rw [Nat.zero_add]; rfl
  | succ n ih =>
    rw [show n + 1 + m = (n + m) + 1 by omega]
    show pySeq (Opt.stepGD env st o) (fun _ o1 => Opt.run_GD env st (n + m) o1) = pySeq (pySeq (Opt.stepGD env st o) fun _ o1 => Opt.run_GD env st n o1) _
    rcases Opt.stepGD env st o with ⟨e | a, o1⟩
    · rfl
    · exact ih o1

/-- **C80, gradient ascent.** `run('gd', n + m)` does what `run('gd', n)` followed by `run('gd', m)` does: if the first call completes, the second one ends in the same way
and in the same state as the long run (densities, source, logs, caches); if the first call raises, so does the long run, with the same exception in the same state. -/
theorem C80_gd_resume (env : Env) (method : String) (hmet : method.toLower = "gd") (n m : ℕ) (s b1 b2 : ℝ) (calls : List Opt.LbfgsCall) (x : List ℝ) (o : Opt Nx Ny) :
    (∀ o1, Opt.run env method n s b1 b2 calls x o = (.ok (), o1) → Opt.run env method (n + m) s b1 b2 calls x o = Opt.run env method m s b1 b2 calls x o1) ∧
    (∀ e o1, Opt.run env method n s b1 b2 calls x o = (.error e, o1) → Opt.run env method (n + m) s b1 b2 calls x o = (.error e, o1)) := by
  rcases hr : o.simulation.rho with _ | _ | rho
  · constructor
    · intro o1 h
      unfold Opt.run at h
      rw [hr] at h
      cases h
    · intro e o1 h
      unfold Opt.run at h ⊢
      rw [hr] at h ⊢
      exact h
  · constructor
    · intro o1 h
      unfold Opt.run at h
      rw [hr] at h
      cases h
    · intro e o1 h
      unfold Opt.run at h ⊢
      rw [hr] at h ⊢
      exact h
  · have hrun : ∀ k, Opt.run env method k s b1 b2 calls x o = Opt.run_GD env s k { o with fields_current := false } := fun k => run_gd hr hmet
    rw [hrun, hrun, run_GD_add]
    constructor
    · intro o1 h
      obtain ⟨h1, rho1, h2⟩ := run_GD_after n h rfl ⟨rho, hr⟩
      rw [h, run_gd h2 hmet]
      show Opt.run_GD env s m o1 = Opt.run_GD env s m { o1 with fields_current := false }
      rw [← h1]
    · intro e o1 h
      rw [h]
      rfl

/-- Both cases of C80 occur: five steps of a problem whose runs complete are three steps and then two; a simulation without density raises in the long run and in the short one. -/
example (env : Env) (src : Grid Nx Ny ℂ) (s : ℝ) :
    (∃ o1 o2, Opt.run env "gd" 3 s 0.9 0.999 [] [] (ropt src (fun _ _ => 1) (fun _ _ => 0) (fun _ _ => 1) 1) = (.ok (), o1) ∧
      Opt.run env "gd" 5 s 0.9 0.999 [] [] (ropt src (fun _ _ => 1) (fun _ _ => 0) (fun _ _ => 1) 1) = (.ok (), o2) ∧ Opt.run env "gd" 2 s 0.9 0.999 [] [] o1 = (.ok (), o2)) ∧
    ∃ (o o' : Opt Nx Ny), Opt.run env "gd" 5 s 0.9 0.999 [] [] o = (.error .attributeError, o') := by
  constructor
  · have hrun : ∀ n, (Opt.run env "gd" n s 0.9 0.999 [] [] (ropt src (fun _ _ => 1) (fun _ _ => 0) (fun _ _ => 1) 1)).1 = .ok () := by
      intro n
      rw [run_gd (o := ropt src (fun _ _ => 1) (fun _ _ => 0) (fun _ _ => 1) 1) rfl lower_gd]
      exact (ropt_runnable src (fun _ _ => 1) (fun _ _ => 0) (fun _ _ => 1) 1).run_GD env rfl s n
    have h3 := hrun 3
    have h5 := hrun 5
    generalize hq3 : Opt.run env "gd" 3 s 0.9 0.999 [] [] (ropt src (fun _ _ => 1) (fun _ _ => 0) (fun _ _ => 1) 1) = R3 at h3
    generalize hq5 : Opt.run env "gd" 5 s 0.9 0.999 [] [] (ropt src (fun _ _ => 1) (fun _ _ => 0) (fun _ _ => 1) 1) = R5 at h5
    obtain ⟨r3, o1⟩ := R3
    obtain ⟨r5, o2⟩ := R5
    simp only at h3 h5
    subst h3 h5
    exact ⟨o1, o2, rfl, rfl, by rw [← (C80_gd_resume env "gd" lower_gd 3 2 s 0.9 0.999 [] [] _).1 o1 hq3]; exact hq5⟩
  · let o : Opt Nx Ny := { ropt src (fun _ _ => 1) (fun _ _ => 0) (fun _ _ => 1) 1 with simulation := fsim 0 (fun _ _ => 1) src }
    exact ⟨o, o, (C80_gd_resume env "gd" lower_gd 0 5 s 0.9 0.999 [] [] o).2 .attributeError o (by unfold Opt.run; rfl)⟩

/-! ## Adam -/

theorem step_adam_memoryless (g : Grid Nx Ny ℝ) (mv mv' : Opt.Moments Nx Ny) (k k' : ℕ) : Opt.step_adam g mv k 0 0 = Opt.step_adam g mv' k' 0 0 := by
  unfold Opt.step_adam
  simp only [zero_mul, zero_add, sub_zero, one_mul, ne_eq, Nat.add_one_ne_zero, not_false_eq_true, zero_pow]

theorem stepADAM_memoryless (env : Env) (st : ℝ) (k k' : ℕ) (mv mv' : Opt.Moments Nx Ny) (o : Opt Nx Ny) :
    Opt.stepADAM env st 0 0 k mv o = Opt.stepADAM env st 0 0 k' mv' o := by
  unfold Opt.stepADAM
  congr 1
  funext J o1
  congr 1
  funext _ o2
  congr 1
  funext g o3
  rw [step_adam_memoryless g _ (if k' = 0 then (fun _ _ => 0, fun _ _ => 0) else mv') k k']

theorem loopADAM_memoryless (env : Env) (st : ℝ) (n k k' : ℕ) (mv mv' : Opt.Moments Nx Ny) (o : Opt Nx Ny) :
    Opt.loopADAM env st 0 0 n k mv o = Opt.loopADAM env st 0 0 n k' mv' o := by
  induction n generalizing k k' mv mv' o with
  | zero => rfl
  | succ n ih =>
    unfold Opt.loopADAM
    rw [stepADAM_memoryless env st k k' mv mv' o]
    congr 1
    funext mv1 o1
    exact ih _ _ _ _ _

theorem loopADAM_after {env : Env} {st b1 b2 : ℝ} (n : ℕ) {k : ℕ} {mv : Opt.Moments Nx Ny} {o o' : Opt Nx Ny} {u : Unit} (h : Opt.loopADAM env st b1 b2 n k mv o = (.ok u, o'))
    (h0 : o.fields_current = false) (hr : ∃ rho, o.simulation.rho = some (some rho)) : o'.fields_current = false ∧ ∃ rho, o'.simulation.rho = some (some rho) := by
  induction n generalizing o k mv with
  | zero => cases h; exact ⟨h0, hr⟩
  | succ n ih =>
    unfold Opt.loopADAM at h
    obtain ⟨mv1, o1, hs, h⟩ := pySeq_ok h
    have : o1.fields_current = false ∧ ∃ rho, o1.simulation.rho = some (some rho) := by
      unfold Opt.stepADAM at hs
      obtain ⟨_, o2, -, hs⟩ := pySeq_ok hs
      obtain ⟨_, o3, -, hs⟩ := pySeq_ok hs
      obtain ⟨g, o4, -, hs⟩ := pySeq_ok hs
      split at hs
      · cases hs
      · obtain ⟨_, o5, hu, hs⟩ := pySeq_ok hs
        cases hs
        exact update_rho_after hu
    exact ih h this.1 this.2

theorem loopADAM_add (env : Env) (st : ℝ) (n m k : ℕ) (mv : Opt.Moments Nx Ny) (o : Opt Nx Ny) :
    Opt.loopADAM env st 0 0 (n + m) k mv o = pySeq (Opt.loopADAM env st 0 0 n k mv o) fun _ o1 => Opt.loopADAM env st 0 0 m 0 (fun _ _ => 0, fun _ _ => 0) o1 := by
  induction n generalizing o k mv with
  | zero => rw [Nat.zero_add]; exact loopADAM_memoryless _ _ _ _ _ _ _ _
  | succ n ih =>
    rw [show n + 1 + m = (n + m) + 1 by omega]
    show pySeq (Opt.stepADAM env st 0 0 k mv o) (fun mv' o1 => Opt.loopADAM env st 0 0 (n + m) (k + 1) mv' o1) =
      pySeq (pySeq (Opt.stepADAM env st 0 0 k mv o) fun mv' o1 => Opt.loopADAM env st 0 0 n (k + 1) mv' o1) _
    rcases Opt.stepADAM env st 0 0 k mv o with ⟨e | a, o1⟩
    · rfl
    · exact ih _ _ o1

/-- **C80, Adam without memory.** With `beta1 = beta2 = 0` the same holds for `run('adam')`. -/
theorem C80_adam_memoryless_partial (env : Env) (method : String) (hmet : method.toLower = "adam") (n m : ℕ) (s : ℝ) (calls : List Opt.LbfgsCall) (x : List ℝ) (o : Opt Nx Ny) :
    (∀ o1, Opt.run env method n s 0 0 calls x o = (.ok (), o1) → Opt.run env method (n + m) s 0 0 calls x o = Opt.run env method m s 0 0 calls x o1) ∧
    (∀ e o1, Opt.run env method n s 0 0 calls x o = (.error e, o1) → Opt.run env method (n + m) s 0 0 calls x o = (.error e, o1)) := by
  rcases hr : o.simulation.rho with _ | _ | rho
  · constructor
    · intro o1 h
      unfold Opt.run at h
      rw [hr] at h
      cases h
    · intro e o1 h
      unfold Opt.run at h ⊢
      rw [hr] at h ⊢
      exact h
  · constructor
    · intro o1 h
      unfold Opt.run at h
      rw [hr] at h
      cases h
    · intro e o1 h
      unfold Opt.run at h ⊢
      rw [hr] at h ⊢
      exact h
  · have hrun : ∀ k, Opt.run env method k s 0 0 calls x o = Opt.run_ADAM env s 0 0 k { o with fields_current := false } := fun k => run_adam hr hmet
    rw [hrun, hrun]
    unfold Opt.run_ADAM
    rw [loopADAM_add]
    constructor
    · intro o1 h
      obtain ⟨h1, rho1, h2⟩ := loopADAM_after n h rfl ⟨rho, hr⟩
      rw [h, run_adam h2 hmet]
      show Opt.loopADAM env s 0 0 m 0 _ o1 = Opt.run_ADAM env s 0 0 m { o1 with fields_current := false }
      rw [← h1]
      rfl
    · intro e o1 h
      rw [h]
      rfl

/-! ## With memory, the second call starts afresh -/

/-- The objective `Σ (Re E − |E|²)`, largest at `E = 1/2`. -/
noncomputable def targetJ (Nx Ny : ℕ) : ObjFn Nx Ny where
  arity := 1
  eval := fun x => ∑ i, ∑ j, ((x 0 i j).re - ((x 0 i j).re ^ 2 + (x 0 i j).im ^ 2))
  partials := fun _ x i j => 1 - 2 * (starRingEnd ℂ) (x 0 i j)

theorem targetJ_autograd (x : Fin 1 → Grid Nx Ny ℂ) : Spec.Autograd (targetJ Nx Ny) x := by
  obtain ⟨L1, hL1, hd1⟩ : ∃ L : (Fin 1 → Grid Nx Ny ℂ) →L[ℝ] ℝ, (∀ δ, L δ = ∑ k : Fin 1, ∑ i, ∑ j, (2 * (starRingEnd ℂ) (x 0 i j) * δ k i j).re) ∧
    HasFDerivAt (fun x : Fin 1 → Grid Nx Ny ℂ => ∑ i, ∑ j, ((x 0 i j).re ^ 2 + (x 0 i j).im ^ 2)) L x := intensityJ_autograd x
  obtain ⟨L2, hL2, hd2⟩ : ∃ L : (Fin 1 → Grid Nx Ny ℂ) →L[ℝ] ℝ, (∀ δ, L δ = ∑ k : Fin 1, ∑ i, ∑ j, ((1 : ℂ) * δ k i j).re) ∧
    HasFDerivAt (fun x : Fin 1 → Grid Nx Ny ℂ => ∑ i, ∑ j, ((1 : ℂ) * x 0 i j).re) L x := linearJ_autograd (fun _ _ => 1 : Grid Nx Ny ℂ) x
  have h : ∃ L : (Fin 1 → Grid Nx Ny ℂ) →L[ℝ] ℝ, (∀ δ, L δ = ∑ k : Fin 1, ∑ i, ∑ j, ((1 - 2 * (starRingEnd ℂ) (x 0 i j)) * δ k i j).re) ∧
      HasFDerivAt (fun x : Fin 1 → Grid Nx Ny ℂ => ∑ i, ∑ j, ((x 0 i j).re - ((x 0 i j).re ^ 2 + (x 0 i j).im ^ 2))) L x := by
    refine ⟨L2 - L1, fun δ => ?_, ?_⟩
    · rw [_root_.sub_apply, hL1, hL2, Fin.sum_univ_one, Fin.sum_univ_one, Fin.sum_univ_one, ← Finset.sum_sub_distrib]
      refine Finset.sum_congr rfl fun i _ => ?_
      rw [← Finset.sum_sub_distrib]
      refine Finset.sum_congr rfl fun j _ => ?_
      rw [sub_mul, Complex.sub_re]
    · refine (hd2.sub hd1).congr_of_eventuallyEq (Filter.Eventually.of_forall fun y => ?_)
      show _ = (∑ i, ∑ j, ((1 : ℂ) * y 0 i j).re) - ∑ i, ∑ j, ((y 0 i j).re ^ 2 + (y 0 i j).im ^ 2)
      rw [← Finset.sum_sub_distrib]
      refine Finset.sum_congr rfl fun i _ => ?_
      rw [← Finset.sum_sub_distrib]
      refine Finset.sum_congr rfl fun j _ => ?_
      rw [one_mul]
  exact h

/-- Without layers the system matrix is symmetric. -/
theorem fsim_symm (eps src : Grid Nx Ny ℂ) : (fsim 0 eps src).Aᵀ = (fsim 0 eps src).A := by
  have h := construct_A_symm (Nx := Nx) (Ny := Ny) 1 (1 / EPSILON_0) (0, 0) ((0 : ℝ), (Nx : ℝ) * (3 / ETA_0)) ((0 : ℝ), (Ny : ℝ) * (3 / ETA_0)) eps .Ez true
    (fun i => by rw [sfactor_zero]; exact one_ne_zero) (fun j => by rw [sfactor_zero]; exact one_ne_zero)
  have h1 : spdiag (symm 1 ((0 : ℝ), (Nx : ℝ) * (3 / ETA_0)) ((0 : ℝ), (Ny : ℝ) * (3 / ETA_0)) Nx Ny (0, 0) (1 / EPSILON_0)) = (1 : Mat (Nx * Ny) ℂ) := by
    rw [← spdiag_one]
    congr 1
    refine flat_ext fun i j => ?_
    rw [symm, flatten_pair, sfactor_zero, sfactor_zero]
    simp
  rw [h1, Matrix.one_mul] at h
  exact h

/-- The optimisation of the witness: uniform source, no layers, every pixel a design pixel, no filter. -/
noncomputable def topt (Nx Ny : ℕ) : Opt Nx Ny := gopt 0 (fun _ _ => -Complex.I) (Objective.mk' (targetJ Nx Ny) [⟨.Ez, false, .linear_Ez⟩]) (fun _ _ => 1) 1

/-- Its gradient, at any state with uniform density. -/
theorem topt_gradient (env : Env) (he : env.Exact) (hx : 1 < Nx) (hy : 1 < Ny) (o : Opt Nx Ny) (h : SameProblem (topt Nx Ny) o) (r e : ℝ) (hpos : 1 ≤ e)
    (hS : Spec.LinearEz env o (targetJ Nx Ny) [⟨.Ez, false, .linear_Ez⟩] fun _ _ => r) (heps : o.simulation.eps_r = fun _ _ => (e : ℂ)) :
    (Opt.compute_dJ env o).1 = .ok fun _ _ => 4 * drhob_drhot r (1 / 2) 1 * ((2 / e - 1) / e ^ 2) := by
  have hA : o.simulation.A = (fsim 0 (fun _ _ => (e : ℂ)) fun _ _ => -Complex.I : Sim Nx Ny).A := by
    rw [hS.valid.A_eq, heps, h.omega, h.xrange, h.yrange, h.NPML, h.pol, h.L0]
    rfl
  have hdet := fsim_det hx hy 0 (fun _ _ => (e : ℂ)) (fun _ _ => -Complex.I) fun i j => by
    rw [Complex.norm_real, Real.norm_eq_abs]
    exact hpos.trans (le_abs_self e)
  have he0 : (e : ℂ) ≠ 0 := by exact_mod_cast (by linarith : e ≠ 0)
  have hun : ∀ c : ℂ, (fsim 0 (fun _ _ => (e : ℂ)) fun _ _ => -Complex.I : Sim Nx Ny).A *ᵥ flatten (fun _ _ => c / e : Grid Nx Ny ℂ) = flatten fun _ _ => c := by
    intro c
    rw [fsim_apply hx hy]
    refine flat_ext fun i j => ?_
    rw [flatten_pair, flatten_pair, mul_div_cancel₀ _ he0]
    ring
  have hX : solver_direct env o.simulation.A o.simulation.rhs = flatten (fun _ _ => 1 / e : Grid Nx Ny ℂ) := by
    rw [hA]
    refine solver_direct_unique he hdet ?_
    rw [hun]
    refine flat_ext fun i j => ?_
    unfold Sim.rhs
    rw [h.src, h.omega]
    show _ = flatten (fun _ _ => -Complex.I : Grid Nx Ny ℂ) _ * Complex.I * ((1 : ℝ) : ℂ)
    rw [flatten_pair, flatten_pair, neg_mul, Complex.I_mul_I]
    simp
  have hp : ∀ p : ℂ, solver_direct env o.simulation.Aᵀ (-(flatten fun _ _ => p : Vec (Nx * Ny) ℂ)) = flatten (fun _ _ => -p / e : Grid Nx Ny ℂ) := by
    intro p
    rw [hA, fsim_symm]
    refine solver_direct_unique he hdet ?_
    rw [hun]
    rfl
  rw [(dJ_Ez_formula env o _ _ _ hS (by
    intro a ha
    rw [List.mem_singleton] at ha
    rw [ha]; exact ⟨rfl, trivial, rfl⟩) rfl).2]
  congr 1
  funext i j
  rw [show (∑ k : Fin (targetJ Nx Ny).arity, _ : ℝ) = ∑ k : Fin 1, _ from rfl, Fin.sum_univ_one]
  have hpart : (flatten (fun i j => 1 - 2 * (starRingEnd ℂ) ((unflatten (solver_direct env o.simulation.A o.simulation.rhs) : Grid Nx Ny ℂ) i j)) : Vec (Nx * Ny) ℂ) =
      flatten fun _ _ => 1 - 2 / (e : ℂ) := by
    rw [hX, unflatten_flatten]
    simp only [map_div₀, map_one, Complex.conj_ofReal, mul_one_div]
  show Opt.tail_Ez o (fun _ _ => r) (unflatten (solver_direct env o.simulation.A o.simulation.rhs)) (unflatten (solver_direct env o.simulation.Aᵀ
    (-(flatten (fun i j => 1 - 2 * (starRingEnd ℂ) ((unflatten (solver_direct env o.simulation.A o.simulation.rhs) : Grid Nx Ny ℂ) i j)) : Vec (Nx * Ny) ℂ)))) i j = _
  rw [hpart, hp, hX, unflatten_flatten, unflatten_flatten, tail_Ez_apply]
  have hE : EPSILON_0 * o.simulation.L0 = 1 := by rw [h.L0]; exact eps0_norm
  have ho : o.simulation.omega = 1 := h.omega
  have hW : o.W = 1 := h.W
  have hm : o.eps_m = 5 := h.eps_m
  have ht : o.eta = 1 / 2 := h.eta
  have hb : o.beta = 1 := h.beta
  have hd : o.design_region = fun _ _ => 1 := h.design
  have hr : ∀ i j, rho2rhot (fun _ _ => r : Grid Nx Ny ℝ) (1 : Mat (Nx * Ny) ℝ) i j = r := fun i j => by simp only [rho2rhot, Matrix.one_mulVec, unflatten_flatten]
  simp only [hE, ho, hW, hm, ht, hb, hd, hr]
  have hz : ∀ i' j', ¬ (i' = i ∧ j' = j) → (1 : Mat (Nx * Ny) ℝ) (finProdFinEquiv (i, j)) (finProdFinEquiv (i', j')) = 0 := by
    intro i' j' hc
    rw [Matrix.one_apply_ne fun h => hc (by simpa only [Prod.mk.injEq, eq_comm] using finProdFinEquiv.injective h)]
  rw [Finset.sum_eq_single i, Finset.sum_eq_single j]
  · rw [Matrix.one_apply_eq]
    have : (-(1 - 2 / (e : ℂ)) / e * (((1 : ℝ) : ℂ) ^ 2 * ((1 : ℝ) : ℂ) * ((((5 - 1) * drhob_drhot r (1 / 2) 1 * (1 * 1) : ℝ) : ℂ) * (1 / e)))) =
        ((4 * drhob_drhot r (1 / 2) 1 * ((2 / e - 1) / e ^ 2) : ℝ) : ℂ) := by
      push_cast
      field_simp
      ring
    rw [this, Complex.ofReal_re]
  · intro b _ hb'
    rw [hz i b (fun h => hb' h.2)]
    simp
  · intro h; exact absurd (Finset.mem_univ _) h
  · intro b _ hb'
    exact Finset.sum_eq_zero fun j' _ => by rw [hz b j' (fun h => hb' h.1)]; simp
  · intro h; exact absurd (Finset.mem_univ _) h

/-- One pass of `run('adam')` on a linear Ez problem, given the gradients so far. -/
theorem adam_pass (env : Env) {o : Opt Nx Ny} {J : ObjFn Nx Ny} {args : List ObjArg} {rho : Grid Nx Ny ℝ} (hS : Spec.LinearEz env o J args rho) (hargs : EzArgs args)
    (hlen : args.length = J.arity) (hsh : o.max_ind_shift = none) {b1 b2 : ℝ} (hb1 : 0 ≤ b1 ∧ b1 < 1) (hb2 : 0 ≤ b2 ∧ b2 < 1) (g : ℕ → Grid Nx Ny ℝ) (n : ℕ)
    (hg : (Opt.compute_dJ env o).1 = .ok (g n)) (mv : Opt.Moments Nx Ny) (hmv : n = 0 ∨ MomentsOf b1 b2 g n mv) (st : ℝ) :
    ∃ mv' o', Opt.stepADAM env st b1 b2 n mv o = (.ok mv', o') ∧ MomentsOf b1 b2 g (n + 1) mv' ∧ SameProblem o o' ∧ o'.simulation.Valid ∧ o'.fields_current = false ∧
      o'.simulation.rho = some (some fun i j => Opt.clip01 (rho i j + o.design_region i j * st * Spec.adamStep b1 b2 g n i j)) ∧
      o'.simulation.eps_r = (fun i j => ((rho2eps (fun i j => Opt.clip01 (rho i j + o.design_region i j * st * Spec.adamStep b1 b2 g n i j)) o'.eps_m o'.W o'.eta o'.beta i j : ℝ) : ℂ)) := by
  obtain ⟨o1, o2, o3, g', h1, h2, h3, h4, h5⟩ := iteration_Ez env hS hargs hlen hsh
  have hgg : g' = g n := Except.ok.inj (h4.symm.trans hg)
  subst hgg
  have hm : MomentsOf b1 b2 g n (if n = 0 then (fun _ _ => 0, fun _ _ => 0) else mv) := by
    by_cases h0 : n = 0
    · rw [if_pos h0, h0]
      exact fun i j => ⟨rfl, rfl⟩
    · rw [if_neg h0]
      exact hmv.resolve_left h0
  obtain ⟨mv', hadam, hm'⟩ := step_adam_spec hb1 hb2 g n _ hm
  obtain ⟨o', hu, hsame, hv', hst, -, hr, heps⟩ := h5 (Spec.adamStep b1 b2 g n) st
  refine ⟨mv', o', ?_, hm', hsame, hv', hst, hr, heps⟩
  unfold Opt.stepADAM
  rw [h1]
  simp only [pySeq]
  rw [h2]
  simp only
  rw [h3]
  simp only
  rw [hadam]
  simp only
  rw [hu]

theorem clip01_big {x : ℝ} (h : 1 ≤ x) : Opt.clip01 x = 1 := by
  unfold Opt.clip01
  simp only
  rw [if_neg (show ¬ x < 0 by linarith)]
  rcases h.lt_or_eq with h | h
  · rw [if_pos h]
  · rw [← h, if_neg (lt_irrefl _)]

theorem clip01_small {x : ℝ} (h : x ≤ 0) : Opt.clip01 x = 0 := by
  unfold Opt.clip01
  simp only
  rcases h.lt_or_eq with h | h
  · rw [if_pos h, if_neg (by norm_num)]
  · rw [h, if_neg (lt_irrefl _), if_neg (by norm_num)]

/-- The first step of Adam. -/
theorem adamStep_zero {b1 b2 : ℝ} (hb1 : b1 < 1) (hb2 : b2 < 1) (g : ℕ → Grid Nx Ny ℝ) (i : Fin Nx) (j : Fin Ny) : Spec.adamStep b1 b2 g 0 i j = g 0 i j / (|g 0 i j| + 1e-8) := by
  have hw : ∀ b : ℝ, b < 1 → Spec.weight b 0 0 = 1 := by
    intro b hb
    unfold Spec.weight
    have : 1 - b ≠ 0 := by linarith
    simp [this]
  unfold Spec.adamStep Spec.average
  simp only [zero_add, Finset.range_one, Finset.sum_singleton]
  rw [hw b1 hb1, hw b2 hb2, one_mul, one_mul, Real.sqrt_sq_eq_abs]

theorem drhob_drhot_mirror : drhob_drhot 1 (1 / 2) 1 = drhob_drhot 0 (1 / 2) 1 := by
  unfold drhob_drhot
  rw [show (1 : ℝ) * (0 - 1 / 2) = -(1 * (1 - 1 / 2)) by norm_num, Real.tanh_neg, neg_sq]

/-- **C80 fails for Adam.** On every grid with at least two cells each way there is a problem and a step size for which two calls `run('adam', 1)` with the default decay
rates and one call `run('adam', 2)` end with opposite designs: the moments are thrown away between the calls. -/
theorem C80_adam_restarts (env : Env) (he : env.Exact) (hx : 1 < Nx) (hy : 1 < Ny) :
    ∃ (s : ℝ) (o1 o2 o2' : Opt Nx Ny), 0 < s ∧ Opt.run env "adam" 1 s 0.9 0.999 [] [] (topt Nx Ny) = (.ok (), o1) ∧
      Opt.run env "adam" 1 s 0.9 0.999 [] [] o1 = (.ok (), o2) ∧ Opt.run env "adam" 2 s 0.9 0.999 [] [] (topt Nx Ny) = (.ok (), o2') ∧
      o2.simulation.rho = some (some fun _ _ => 0) ∧ o2'.simulation.rho = some (some fun _ _ => 1) := by
  have hargs : EzArgs [⟨.Ez, false, .linear_Ez⟩] := by
    intro a ha
    rw [List.mem_singleton] at ha
    rw [ha]; exact ⟨rfl, trivial, rfl⟩
  have hb1 : (0 : ℝ) ≤ 0.9 ∧ (0.9 : ℝ) < 1 := by norm_num
  have hb2 : (0 : ℝ) ≤ 0.999 ∧ (0.999 : ℝ) < 1 := by norm_num
  have hS : Spec.LinearEz env (topt Nx Ny) (targetJ Nx Ny) [⟨.Ez, false, .linear_Ez⟩] fun _ _ => 0 := gopt_setup env hx hy 0 (fun _ _ => -Complex.I) (targetJ Nx Ny) [⟨.Ez, false, .linear_Ez⟩] (fun _ _ => 1) 1 rfl targetJ_autograd
  set d := drhob_drhot 0 (1 / 2) 1 with hd
  have hdp : 0 < d := drhob_drhot_pos 0
  -- the gradients at the two densities
  let g : ℕ → Grid Nx Ny ℝ := fun k _ _ => if k = 0 then 4 * d else -(12 / 125) * d
  have hg0 : (Opt.compute_dJ env (topt Nx Ny)).1 = .ok (g 0) := by
    rw [topt_gradient env he hx hy _ (SameProblem.refl _) 0 1 le_rfl hS (by simp [topt, gopt, gsim])]
    congr 1
    funext i j
    show _ = 4 * d
    rw [← hd]
    norm_num
  -- a step that is long enough
  let S0 : ℝ := 1 / (4 * d / (4 * d + 1e-8))
  let S1 : ℝ := 1 / (12 / 125 * d / (12 / 125 * d + 1e-8))
  let s : ℝ := S0 + S1
  have hS0 : 0 < S0 := by positivity
  have hS1 : 0 < S1 := by positivity
  have hsp : 0 < s := by positivity
  obtain ⟨mv1, o1, hstep1, hmv1, hsame1, hv1, hst1, hr1, he1⟩ := adam_pass env hS hargs rfl rfl hb1 hb2 g 0 hg0 (fun _ _ => 0, fun _ _ => 0) (Or.inl rfl) s
  have hrho1 : (fun i j => Opt.clip01 ((0 : ℝ) + (topt Nx Ny).design_region i j * s * Spec.adamStep 0.9 0.999 g 0 i j)) = fun _ _ => 1 := by
    funext i j
    rw [adamStep_zero hb1.2 hb2.2]
    show Opt.clip01 (0 + 1 * s * (4 * d / (|4 * d| + 1e-8))) = 1
    apply clip01_big
    rw [abs_of_pos (by positivity), zero_add, one_mul]
    have : S0 * (4 * d / (4 * d + 1e-8)) = 1 := by
      simp only [S0]
      field_simp
    have h2 : 0 < S1 * (4 * d / (4 * d + 1e-8)) := by positivity
    show 1 ≤ (S0 + S1) * _
    rw [add_mul]
    linarith
  have hr1' : o1.simulation.rho = some (some fun _ _ => 1) := by rw [hr1]; exact congrArg _ (congrArg _ hrho1)
  have heps1 : o1.simulation.eps_r = fun i j => ((rho2eps (fun _ _ => 1) o1.eps_m o1.W o1.eta o1.beta i j : ℝ) : ℂ) := by
    rw [he1]
    show (fun i j => ((rho2eps (fun i j => Opt.clip01 ((0 : ℝ) + (topt Nx Ny).design_region i j * s * Spec.adamStep 0.9 0.999 g 0 i j)) o1.eps_m o1.W o1.eta o1.beta i j : ℝ) : ℂ)) = _
    rw [hrho1]
  have heps1' : o1.simulation.eps_r = fun _ _ => ((5 : ℝ) : ℂ) := by
    rw [heps1]
    funext i j
    rw [show o1.eps_m = 5 from hsame1.eps_m, show o1.W = 1 from hsame1.W, show o1.eta = 1 / 2 from hsame1.eta, show o1.beta = 1 from hsame1.beta, rho2eps_full]
  have hS1' : Spec.LinearEz env o1 (targetJ Nx Ny) [⟨.Ez, false, .linear_Ez⟩] fun _ _ => 1 := by
    refine ⟨?_, hv1, hsame1.pol, ?_, hst1, hr1', heps1, ?_, fun x _ => targetJ_autograd x⟩
    · rw [hsame1.objective]; exact hS.obj
    · have hA : o1.simulation.A = (fsim 0 (fun _ _ => ((5 : ℝ) : ℂ)) fun _ _ => -Complex.I : Sim Nx Ny).A := by
        rw [hv1.A_eq, heps1', hsame1.omega, hsame1.xrange, hsame1.yrange, hsame1.NPML, hsame1.pol, hsame1.L0]
        rfl
      rw [hA]
      refine fsim_det hx hy _ _ _ fun i j => ?_
      rw [Complex.norm_real]
      norm_num
    · rw [hsame1.beta]; exact hS.beta
  have hg1 : (Opt.compute_dJ env o1).1 = .ok (g 1) := by
    rw [topt_gradient env he hx hy _ hsame1 1 5 (by norm_num) hS1' heps1']
    congr 1
    funext i j
    show _ = -(12 / 125) * d
    rw [drhob_drhot_mirror, ← hd]
    ring
  have hsh1 : o1.max_ind_shift = none := hsame1.shift
  have hdes1 : ∀ i j, o1.design_region i j = 1 := fun i j => by rw [hsame1.design]; rfl
  -- the fresh second step
  obtain ⟨mv2, o2, hstep2, -, hsame2, -, -, hr2, -⟩ := adam_pass env hS1' hargs rfl hsh1 hb1 hb2 (fun _ => g 1) 0 hg1 (fun _ _ => 0, fun _ _ => 0) (Or.inl rfl) s
  -- the continued second step
  obtain ⟨mv3, o3, hstep3, -, hsame3, -, -, hr3, -⟩ := adam_pass env hS1' hargs rfl hsh1 hb1 hb2 g 1 hg1 mv1 (Or.inr hmv1) s
  have hcur : ({ topt Nx Ny with fields_current := false } : Opt Nx Ny) = topt Nx Ny := rfl
  have hcur1 : ({ o1 with fields_current := false } : Opt Nx Ny) = o1 := by rw [← hst1]
  refine ⟨s, o1, o2, o3, hsp, ?_, ?_, ?_, ?_, ?_⟩
  · rw [run_adam hS.density lower_adam, hcur]
    unfold Opt.run_ADAM Opt.loopADAM
    rw [hstep1]
    rfl
  · rw [run_adam hr1' lower_adam, hcur1]
    unfold Opt.run_ADAM Opt.loopADAM
    rw [hstep2]
    rfl
  · rw [run_adam hS.density lower_adam, hcur]
    unfold Opt.run_ADAM Opt.loopADAM
    rw [hstep1]
    simp only [pySeq]
    unfold Opt.loopADAM
    rw [hstep3]
    rfl
  · rw [hr2]
    congr 2
    funext i j
    rw [adamStep_zero hb1.2 hb2.2, hdes1]
    show Opt.clip01 (1 + 1 * s * (-(12 / 125) * d / (|-(12 / 125) * d| + 1e-8))) = 0
    apply clip01_small
    have hq : 0 < 12 / 125 * d / (12 / 125 * d + 1e-8) := by positivity
    have habs : |-(12 / 125) * d| = 12 / 125 * d := by rw [neg_mul, abs_neg, abs_of_pos (by positivity)]
    rw [habs, one_mul, show -(12 / 125) * d / (12 / 125 * d + 1e-8) = -(12 / 125 * d / (12 / 125 * d + 1e-8)) by ring]
    have : S1 * (12 / 125 * d / (12 / 125 * d + 1e-8)) = 1 := by
      simp only [S1]
      field_simp
    have h2 : 0 < S0 * (12 / 125 * d / (12 / 125 * d + 1e-8)) := by positivity
    show 1 + (S0 + S1) * _ ≤ 0
    rw [mul_neg, add_mul]
    linarith
  · rw [hr3]
    congr 2
    funext i j
    rw [hdes1]
    apply clip01_big
    have hpos : 0 ≤ Spec.adamStep 0.9 0.999 g 1 i j := by
      unfold Spec.adamStep Spec.average
      refine div_nonneg ?_ (add_nonneg (Real.sqrt_nonneg _) (by norm_num))
      rw [Finset.sum_range_succ, Finset.sum_range_one]
      simp only [g, Spec.weight, if_true, one_ne_zero, if_false]
      norm_num
      linarith
    have : 0 ≤ s * Spec.adamStep 0.9 0.999 g 1 i j := mul_nonneg hsp.le hpos
    rw [one_mul]
    linarith

end Angler
