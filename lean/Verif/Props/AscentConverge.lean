import Verif.Lemmas.DescentLimit
import Verif.Lemmas.Smooth
import Verif.Props.AscentStart
import Verif.Props.Resume

/-! # C85: gradient ascent with small steps converges to first-order optima -/

namespace Angler

open Matrix Filter Topology

variable {Nx Ny : ℕ}

/-- **C85.** For a twice continuously differentiable objective there is a step size below which every run of gradient ascent, from whatever fitting start, never loses: the recorded values increase by at
least the squared change of the density over twice the step size and converge; the changes of the density tend to zero, the smallest of the first `n` squared changes at least as fast as `1/n`; the
densities have accumulation points, all of them are first-order optima, and the distance of the densities from the first-order optima tends to zero. -/
theorem C85_gd_converges (env : Env) (he : env.Exact) (o : Opt Nx Ny) (J : ObjFn Nx Ny) (args : List ObjArg) (h : Spec.EzProblem o J args) (hJ : ContDiff ℝ 2 J.eval)
    (F : Grid Nx Ny ℝ → ℝ) (hF : Spec.IsObjective env o F) (rho : Grid Nx Ny ℝ) (hbox : Spec.Box rho) (hrho : o.simulation.rho = some (some rho))
    (heps : o.simulation.eps_r = fun i j => ((rho2eps rho o.eps_m o.W o.eta o.beta i j : ℝ) : ℂ)) :
    ∃ s0 : ℝ, 0 < s0 ∧ ∀ s, 0 < s → s ≤ s0 → ∃ (r : ℕ → Grid Nx Ny ℝ) (v : ℝ), r 0 = rho ∧
      (∀ (n : ℕ) (b1 b2 : ℝ) (calls : List Opt.LbfgsCall) (y : List ℝ), ∃ o', Opt.run env "gd" n s b1 b2 calls y o = (.ok (), o') ∧ o'.simulation.rho = some (some (r n)) ∧
        o'.objfn_list = o.objfn_list ++ (List.range n).map fun k => F (r k)) ∧
      (∀ k, F (r k) + 1 / (2 * s) * Spec.distSq (r k) (r (k + 1)) ≤ F (r (k + 1))) ∧ Tendsto (fun k => F (r k)) atTop (𝓝 v) ∧
      Tendsto (fun k => Spec.distSq (r k) (r (k + 1))) atTop (𝓝 0) ∧ (∀ n, 0 < n → ∃ k < n, Spec.distSq (r k) (r (k + 1)) ≤ 2 * s * (v - F rho) / n) ∧
      (∀ (φ : ℕ → ℕ) y, StrictMono φ → Tendsto (fun k => r (φ k)) atTop (𝓝 y) → Spec.Stationary F o.design_region y) ∧
      (∃ (φ : ℕ → ℕ) (y : _), StrictMono φ ∧ Tendsto (fun k => r (φ k)) atTop (𝓝 y)) ∧
      ∀ ε, 0 < ε → ∀ᶠ n in atTop, ∃ y, Spec.Box y ∧ Spec.Stationary F o.design_region y ∧ ∀ i j, |r n i j - y i j| < ε := by
  have hsm : ∀ x, Spec.Box x → ContDiffAt ℝ 2 F x := fun x hx => h.contDiffAt env he hJ hF hx
  obtain ⟨L, hL0, hL⟩ := fderiv_lipschitz hsm
  refine ⟨1 / (2 * (L + 1)), by positivity, fun s hs hs0 => ?_⟩
  have hsL : 2 * L * s ≤ 1 := by
    rw [le_div_iff₀ (by positivity)] at hs0
    nlinarith
  let r := Spec.gdPath F o.design_region s rho
  have hr : ∀ k, Spec.Box (r k) := box_gdPath F o.design_region s hbox
  have hstep : ∀ k, F (r k) + 1 / (2 * s) * Spec.distSq (r k) (r (k + 1)) ≤ F (r (k + 1)) := fun k => projected_step hsm hL0 hL o.design_region hs hsL (hr k)
  obtain ⟨v, hv, hle, hsum, hd⟩ := ascent_limit hsm hr hs hstep
  have hst : ∀ (φ : ℕ → ℕ) y, StrictMono φ → Tendsto (fun k => r (φ k)) atTop (𝓝 y) → Spec.Stationary F o.design_region y := fun φ y hφ hy =>
    limit_stationary hsm o.design_region hs hr (fun k => rfl) hd hφ hy
  refine ⟨r, v, rfl, fun n b1 b2 calls y => ?_, hstep, hv, hd, fun n hn => ?_, hst, ?_, fun ε hε => eventually_close hr hst hε⟩
  · obtain ⟨o', h1, h2, -, h3⟩ := C84_gd env he o J args h F hF rho hbox hrho heps n s b1 b2 calls y
    exact ⟨o', h1, h2, h3⟩
  · by_contra hc
    push Not at hc
    have hn' : (0 : ℝ) < n := Nat.cast_pos.2 hn
    have h1 : ∑ _k ∈ Finset.range n, 2 * s * (v - F rho) / n < ∑ k ∈ Finset.range n, Spec.distSq (r k) (r (k + 1)) :=
      Finset.sum_lt_sum_of_nonempty ⟨0, Finset.mem_range.2 hn⟩ fun k hk => hc k (Finset.mem_range.1 hk)
    rw [Finset.sum_const, Finset.card_range, nsmul_eq_mul, mul_div_cancel₀ _ hn'.ne'] at h1
    exact absurd (hsum n) (not_le.2 h1)
  · obtain ⟨y, φ, -, hφ, hy⟩ := exists_accumulation hr
    exact ⟨φ, y, hφ, hy⟩

/-- The intensity objective is smooth. -/
theorem contDiff_intensity : ContDiff ℝ 2 (intensityJ Nx Ny).eval := by
  show ContDiff ℝ 2 fun x : Fin 1 → Grid Nx Ny ℂ => ∑ i, ∑ j, ((x 0 i j).re ^ 2 + (x 0 i j).im ^ 2)
  refine ContDiff.sum fun i _ => ContDiff.sum fun j _ => ?_
  have h : ContDiff ℝ 2 fun x : Fin 1 → Grid Nx Ny ℂ => x 0 i j := (entryCLM (Nx := Nx) (Ny := Ny) 1 0 i j).contDiff
  exact ((Complex.reCLM.contDiff.comp h).pow 2).add ((Complex.imCLM.contDiff.comp h).pow 2)

/-- Intensity on a 9 × 9 grid with a PML: small steps converge to first-order optima, whatever the source. -/
example (env : Env) (he : env.Exact) (src : Grid 9 9 ℂ) :
    let o := gopt 1 src (Objective.mk' (intensityJ 9 9) [⟨.Ez, false, .linear_Ez⟩]) (fun _ _ => 1) 1
    ∃ F s0, Spec.IsObjective env o F ∧ 0 < s0 ∧ ∀ s, 0 < s → s ≤ s0 → ∃ (r : ℕ → Grid 9 9 ℝ) (v : ℝ), Tendsto (fun k => F (r k)) atTop (𝓝 v) ∧
      (∀ n, ∃ o', Opt.run env "gd" n s 0.9 0.999 [] [] o = (.ok (), o') ∧ o'.objfn_list = (List.range n).map fun k => F (r k)) ∧
      ∀ ε, 0 < ε → ∀ᶠ n in atTop, ∃ y, Spec.Box y ∧ Spec.Stationary F (fun _ _ => 1) y ∧ ∀ i j, |r n i j - y i j| < ε := by
  intro o
  have hp : Spec.EzProblem o (intensityJ 9 9) [⟨.Ez, false, .linear_Ez⟩] := gopt_problem (by norm_num) (by norm_num) 1 src _ intensityJ_autograd rfl _ fun _ _ => Or.inr rfl
  have heps : o.simulation.eps_r = fun i j => ((rho2eps (fun _ _ => 0) o.eps_m o.W o.eta o.beta i j : ℝ) : ℂ) := by
    rw [rho2eps_zero]; funext i j; simp [o, gopt, gsim]
  obtain ⟨s0, h0, h1⟩ := C85_gd_converges env he o _ _ hp contDiff_intensity _ (hp.isObjective env) _ (fun _ _ => ⟨le_rfl, zero_le_one⟩) rfl heps
  refine ⟨_, s0, hp.isObjective env, h0, fun s hs hs0 => ?_⟩
  obtain ⟨r, v, -, h2, -, h3, -, -, -, -, h4⟩ := h1 s hs hs0
  refine ⟨r, v, h3, fun n => ?_, h4⟩
  obtain ⟨o', h5, -, h6⟩ := h2 n 0.9 0.999 [] []
  exact ⟨o', h5, h6⟩

/-! ## Large steps -/

theorem topt_problem (hx : 1 < Nx) (hy : 1 < Ny) : Spec.EzProblem (topt Nx Ny) (targetJ Nx Ny) [⟨.Ez, false, .linear_Ez⟩] :=
  gopt_problem hx hy 0 (fun _ _ => -Complex.I) (targetJ Nx Ny) targetJ_autograd rfl (fun _ _ => 1) fun _ _ => Or.inr rfl

theorem topt_eps (r : ℝ) : (fun i j => ((rho2eps (fun _ _ => r : Grid Nx Ny ℝ) 5 1 (1 / 2) 1 i j : ℝ) : ℂ)) = fun _ _ => ((1 + rhot2rhob r (1 / 2) 1 * 4 : ℝ) : ℂ) := by
  funext i j
  unfold rho2eps rhob2eps
  simp only [rho2rhot_one]
  norm_num

/-- The gradient of the objective of the witness at uniform densities. -/
theorem topt_partials (env : Env) (he : env.Exact) (hx : 1 < Nx) (hy : 1 < Ny) {F : Grid Nx Ny ℝ → ℝ} (hF : Spec.IsObjective env (topt Nx Ny) F) (r : ℝ) (h0 : 0 ≤ r) (h1 : r ≤ 1) (i : Fin Nx) (j : Fin Ny) :
    let e := 1 + rhot2rhob r (1 / 2) 1 * 4
    Spec.partials F (fun _ _ => r) i j = 4 * drhob_drhot r (1 / 2) 1 * ((2 / e - 1) / e ^ 2) := by
  intro e
  have hp := topt_problem (Nx := Nx) (Ny := Ny) hx hy
  have hb : Spec.Box (fun _ _ => r : Grid Nx Ny ℝ) := fun _ _ => ⟨h0, h1⟩
  have hs := hp.stateAt_putRho fun _ _ => r
  have hL := hp.linear env hb hs
  have hpos : 1 ≤ e := by
    have := ((C01_projection_physical (1 / 2) 1 one_pos).2.2.2.1 r ⟨h0, h1⟩).1
    simp only [e]
    linarith
  have hg := topt_gradient env he hx hy _ hs.same r e hpos hL (topt_eps r)
  exact ((hp.gradient env he hF hb hs hg).1 i j rfl).symm

/-- The objective of the witness at uniform densities. -/
theorem topt_value (env : Env) (he : env.Exact) (hx : 1 < Nx) (hy : 1 < Ny) {F : Grid Nx Ny ℝ → ℝ} (hF : Spec.IsObjective env (topt Nx Ny) F) (r : ℝ) (h0 : 0 ≤ r) (h1 : r ≤ 1) :
    let e := 1 + rhot2rhob r (1 / 2) 1 * 4
    F (fun _ _ => r) = Nx * (Ny * (1 / e - 1 / e ^ 2)) := by
  intro e
  have hp := topt_problem (Nx := Nx) (Ny := Ny) hx hy
  have hpos : 1 ≤ e := by
    have := ((C01_projection_physical (1 / 2) 1 one_pos).2.2.2.1 r ⟨h0, h1⟩).1
    simp only [e]
    linarith
  have hA : (Spec.simAt (topt Nx Ny) fun _ _ => r).A = (fsim 0 (fun _ _ => (e : ℂ)) fun _ _ => -Complex.I : Sim Nx Ny).A := by
    show (construct_A 1 _ _ (fun i j => ((rho2eps (fun _ _ => r : Grid Nx Ny ℝ) 5 1 (1 / 2) 1 i j : ℝ) : ℂ)) _ _ _).1 = _
    rw [topt_eps]
    rfl
  have he0 : (e : ℂ) ≠ 0 := by exact_mod_cast (by linarith : e ≠ 0)
  have hX : solver_direct env (Spec.simAt (topt Nx Ny) fun _ _ => r).A (topt Nx Ny).simulation.rhs = flatten (fun _ _ => 1 / e : Grid Nx Ny ℂ) := by
    refine solver_direct_unique he (hp.solvable _ fun _ _ => ⟨h0, h1⟩) ?_
    rw [hA, fsim_apply hx hy]
    refine flat_ext fun i j => ?_
    rw [flatten_pair, mul_div_cancel₀ _ he0]
    show _ = flatten (fun _ _ => -Complex.I : Grid Nx Ny ℂ) _ * Complex.I * ((1 : ℝ) : ℂ)
    rw [flatten_pair, neg_mul, Complex.I_mul_I]
    simp
    ring
  rw [hp.objective_eq env hF]
  show ∑ i : Fin Nx, ∑ j : Fin Ny, (((unflatten (solver_direct env (Spec.simAt (topt Nx Ny) fun _ _ => r).A (topt Nx Ny).simulation.rhs) : Grid Nx Ny ℂ) i j).re -
    (((unflatten (solver_direct env (Spec.simAt (topt Nx Ny) fun _ _ => r).A (topt Nx Ny).simulation.rhs) : Grid Nx Ny ℂ) i j).re ^ 2 +
      ((unflatten (solver_direct env (Spec.simAt (topt Nx Ny) fun _ _ => r).A (topt Nx Ny).simulation.rhs) : Grid Nx Ny ℂ) i j).im ^ 2)) = _
  rw [hX, unflatten_flatten]
  have e1 : (1 : ℂ) / (e : ℂ) = ((1 / e : ℝ) : ℂ) := by push_cast; rfl
  simp only [e1, Complex.ofReal_re, Complex.ofReal_im]
  rw [Finset.sum_const, Finset.sum_const, Finset.card_univ, Finset.card_univ, Fintype.card_fin, Fintype.card_fin, nsmul_eq_mul, nsmul_eq_mul]
  congr 2
  ring

/-- **C85 needs small steps.** On every grid with at least two cells each way there is a problem with a smooth objective for which every sufficiently large step size makes gradient ascent jump between the
empty and the full design for ever; every second recorded value is worse than the one before. -/
theorem C85_false_large_steps (env : Env) (he : env.Exact) (hx : 1 < Nx) (hy : 1 < Ny) :
    ContDiff ℝ 2 (targetJ Nx Ny).eval ∧ Spec.EzProblem (topt Nx Ny) (targetJ Nx Ny) [⟨.Ez, false, .linear_Ez⟩] ∧
    ∃ s1 : ℝ, 0 < s1 ∧ ∀ s, s1 ≤ s → ∀ (n : ℕ) (b1 b2 : ℝ) (calls : List Opt.LbfgsCall) (y : List ℝ), ∃ o', Opt.run env "gd" n s b1 b2 calls y (topt Nx Ny) = (.ok (), o') ∧
      o'.simulation.rho = some (some fun _ _ => if Even n then 0 else 1) ∧
      o'.objfn_list = (List.range n).map fun k => if Even k then 0 else (Nx * Ny : ℝ) * (4 / 25) := by
  refine ⟨?_, topt_problem hx hy, ?_⟩
  · show ContDiff ℝ 2 fun x : Fin 1 → Grid Nx Ny ℂ => ∑ i, ∑ j, ((x 0 i j).re - ((x 0 i j).re ^ 2 + (x 0 i j).im ^ 2))
    refine ContDiff.sum fun i _ => ContDiff.sum fun j _ => ?_
    have h : ContDiff ℝ 2 fun x : Fin 1 → Grid Nx Ny ℂ => x 0 i j := (entryCLM (Nx := Nx) (Ny := Ny) 1 0 i j).contDiff
    exact (Complex.reCLM.contDiff.comp h).sub (((Complex.reCLM.contDiff.comp h).pow 2).add ((Complex.imCLM.contDiff.comp h).pow 2))
  have hp := topt_problem (Nx := Nx) (Ny := Ny) hx hy
  have hF := hp.isObjective env
  set F := linObj env (topt Nx Ny) (targetJ Nx Ny) [⟨.Ez, false, .linear_Ez⟩] hp.len with hFdef
  have hd : 0 < drhob_drhot 0 (1 / 2) 1 := drhob_drhot_pos 0
  obtain ⟨z0, z1, -⟩ := C01_projection_physical (1 / 2) 1 one_pos
  have g0 : ∀ i j, Spec.partials F (fun _ _ => 0) i j = 4 * drhob_drhot 0 (1 / 2) 1 := fun i j => by
    have := topt_partials env he hx hy hF 0 le_rfl zero_le_one i j
    rw [z0] at this
    rw [this]
    norm_num
  have g1 : ∀ i j, Spec.partials F (fun _ _ => 1) i j = -(12 / 125 * drhob_drhot 0 (1 / 2) 1) := fun i j => by
    have := topt_partials env he hx hy hF 1 zero_le_one le_rfl i j
    rw [z1, drhob_drhot_mirror] at this
    rw [this]
    norm_num
    ring
  have f0 : F (fun _ _ => 0) = 0 := by
    have := topt_value env he hx hy hF 0 le_rfl zero_le_one
    rw [z0] at this
    rw [this]
    norm_num
  have f1 : F (fun _ _ => 1) = (Nx * Ny : ℝ) * (4 / 25) := by
    have := topt_value env he hx hy hF 1 zero_le_one le_rfl
    rw [z1] at this
    rw [this]
    norm_num
    ring
  refine ⟨125 / (12 * drhob_drhot 0 (1 / 2) 1), by positivity, fun s hs n b1 b2 calls y => ?_⟩
  have hs' : 1 ≤ s * (12 / 125 * drhob_drhot 0 (1 / 2) 1) := by
    rw [div_le_iff₀ (by positivity)] at hs
    linarith
  have hpath : ∀ k, Spec.gdPath F (topt Nx Ny).design_region s (fun _ _ => 0) k = fun _ _ => if Even k then 0 else 1 := by
    intro k
    induction k with
    | zero => rfl
    | succ k ih =>
      show Spec.move (topt Nx Ny).design_region (Spec.gdPath F (topt Nx Ny).design_region s (fun _ _ => 0) k) _ = _
      rw [ih]
      funext i j
      unfold Spec.move
      rw [if_pos (show (topt Nx Ny).design_region i j = 1 from rfl)]
      rcases Nat.even_or_odd k with hk | hk
      · simp only [if_pos hk, g0]
        rw [if_neg (by rw [Nat.even_add_one]; exact not_not.2 hk), min_eq_left (by nlinarith), max_eq_right zero_le_one]
      · have hk' : ¬ Even k := Nat.not_even_iff_odd.2 hk
        simp only [if_neg hk', g1]
        rw [if_pos (by rw [Nat.even_add_one]; exact hk'), min_eq_right (by nlinarith), max_eq_left (by nlinarith)]
  have heps : (topt Nx Ny).simulation.eps_r = fun i j => ((rho2eps (fun _ _ => 0) (topt Nx Ny).eps_m (topt Nx Ny).W (topt Nx Ny).eta (topt Nx Ny).beta i j : ℝ) : ℂ) := by
    rw [rho2eps_zero]; funext i j; simp [topt, gopt, gsim]
  obtain ⟨o', h1, h2, -, h3⟩ := C84_gd env he (topt Nx Ny) _ _ hp F hF (fun _ _ => 0) (fun _ _ => ⟨le_rfl, zero_le_one⟩) rfl heps n s b1 b2 calls y
  refine ⟨o', h1, by rw [h2, hpath], ?_⟩
  rw [h3]
  show [] ++ _ = _
  rw [List.nil_append]
  refine List.map_congr_left fun k _ => ?_
  rw [hpath]
  split_ifs
  · exact f0
  · exact f1

end Angler
