import Verif.Lemmas.AdamLimit
import Verif.Props.AscentConverge

/-! # C86: the first steps of Adam climb when the step size is small, and first-order optima are kept -/

namespace Angler

open Matrix Filter Topology

variable {Nx Ny : ℕ}

/-- **C86.** For a continuously differentiable objective and a start that is not a first-order optimum: for every number of steps `n` there is a step size below which `run('adam')` with `n` steps
increases the objective in every step. So the `n` recorded values and the objective of the final density form a strictly increasing list. -/
theorem C86_adam_increases (env : Env) (he : env.Exact) (o : Opt Nx Ny) (J : ObjFn Nx Ny) (args : List ObjArg) (h : Spec.EzProblem o J args) (hJ : ContDiff ℝ 1 J.eval)
    (F : Grid Nx Ny ℝ → ℝ) (hF : Spec.IsObjective env o F) (rho : Grid Nx Ny ℝ) (hbox : Spec.Box rho) (hrho : o.simulation.rho = some (some rho))
    (heps : o.simulation.eps_r = fun i j => ((rho2eps rho o.eps_m o.W o.eta o.beta i j : ℝ) : ℂ)) (hns : ¬ Spec.Stationary F o.design_region rho)
    (b1 b2 : ℝ) (hb1 : 0 ≤ b1 ∧ b1 < 1) (hb2 : 0 ≤ b2 ∧ b2 < 1) (calls : List Opt.LbfgsCall) (y : List ℝ) (n : ℕ) :
    ∃ s0 > 0, ∀ s, 0 < s → s < s0 → ∃ o' new final, Opt.run env "adam" n s b1 b2 calls y o = (.ok (), o') ∧ o'.simulation.rho = some (some final) ∧ o'.objfn_list = o.objfn_list ++ new ∧
      new.length = n ∧ (new ++ [F final]).head? = some (F rho) ∧ (new ++ [F final]).Pairwise (· < ·) := by
  have hsm : ∀ x, Spec.Box x → ContDiffAt ℝ 1 F x := fun x hx => h.contDiffAt env he hJ hF hx
  have hpaths := fun s : ℝ => C84_adam env he o J args h F hF rho hbox hrho heps s b1 b2 hb1 hb2 calls y
  choose r hr0 hrp hrb hrun using hpaths
  obtain ⟨s0, h0, hinc⟩ := adam_increases hsm hbox hns hb1 hb2 hr0 hrp hrb n
  refine ⟨s0, h0, fun s hs hs0 => ?_⟩
  obtain ⟨o', h1, h2, -, h3⟩ := hrun s n
  have hlist : ((List.range n).map fun k => F (r s k)) ++ [F (r s n)] = (List.range (n + 1)).map fun k => F (r s k) := by
    rw [List.range_succ, List.map_append, List.map_singleton]
  have hmono : ∀ a b, a < b → b ≤ n → F (r s a) < F (r s b) := by
    intro a b hab hbn
    induction b with
    | zero => omega
    | succ b ih =>
      rcases Nat.lt_or_eq_of_le (Nat.lt_succ_iff.1 hab) with hlt | heq
      · exact (ih hlt (by omega)).trans (hinc s hs hs0 b (by omega))
      · rw [heq]
        exact hinc s hs hs0 b (by omega)
  refine ⟨o', _, r s n, h1, h2, h3, by simp, ?_, ?_⟩
  · rw [hlist, List.range_succ_eq_map, List.map_cons, List.head?_cons, hr0]
  · rw [hlist, List.pairwise_map]
    refine List.Pairwise.imp_of_mem (R := (· < ·)) (fun {a b} _ hb hab => ?_) List.pairwise_lt_range
    exact hmono a b hab (by have := List.mem_range.1 hb; omega)

/-- A clipped step in the direction of the gradient does not leave a first-order optimum. -/
theorem move_stationary {F : Grid Nx Ny ℝ → ℝ} {design y u : Grid Nx Ny ℝ} (hy : Spec.Box y) (h : Spec.Stationary F design y)
    (hu : ∀ i j, design i j = 1 → (0 ≤ Spec.partials F y i j → 0 ≤ u i j) ∧ (Spec.partials F y i j ≤ 0 → u i j ≤ 0)) : Spec.move design y u = y := by
  funext i j
  unfold Spec.move
  split_ifs with hd
  · obtain ⟨h1, h2⟩ := hu i j hd
    have hs0 := h i j hd 0 le_rfl zero_le_one
    have hs1 := h i j hd 1 zero_le_one le_rfl
    obtain ⟨b0, b1⟩ := hy i j
    rcases lt_trichotomy (Spec.partials F y i j) 0 with hg | hg | hg
    · have hy0 : y i j = 0 := by nlinarith
      have := h2 hg.le
      rw [hy0, zero_add, min_eq_right (by linarith), max_eq_left this]
    · have : u i j = 0 := le_antisymm (h2 hg.le) (h1 hg.ge)
      rw [this, add_zero, min_eq_right b1, max_eq_right b0]
    · have hy1 : y i j = 1 := by nlinarith
      have := h1 hg.le
      rw [hy1, min_eq_left (by linarith), max_eq_right zero_le_one]
  · rfl

/-- **C86, optima are kept.** A run of either kind that starts at a first-order optimum, with any nonnegative step size and any number of steps, leaves the density as it is and records the same value
in every step. A run of gradient ascent with a positive step size keeps nothing else. -/
theorem C86_optima_kept (env : Env) (he : env.Exact) (o : Opt Nx Ny) (J : ObjFn Nx Ny) (args : List ObjArg) (h : Spec.EzProblem o J args)
    (F : Grid Nx Ny ℝ → ℝ) (hF : Spec.IsObjective env o F) (rho : Grid Nx Ny ℝ) (hbox : Spec.Box rho) (hrho : o.simulation.rho = some (some rho))
    (heps : o.simulation.eps_r = fun i j => ((rho2eps rho o.eps_m o.W o.eta o.beta i j : ℝ) : ℂ)) (calls : List Opt.LbfgsCall) (y : List ℝ) :
    (Spec.Stationary F o.design_region rho → ∀ (s b1 b2 : ℝ) (n : ℕ), 0 ≤ s →
      (∃ o', Opt.run env "gd" n s b1 b2 calls y o = (.ok (), o') ∧ o'.simulation.rho = some (some rho) ∧ o'.objfn_list = o.objfn_list ++ List.replicate n (F rho)) ∧
      (0 ≤ b1 ∧ b1 < 1 → 0 ≤ b2 ∧ b2 < 1 →
        ∃ o', Opt.run env "adam" n s b1 b2 calls y o = (.ok (), o') ∧ o'.simulation.rho = some (some rho) ∧ o'.objfn_list = o.objfn_list ++ List.replicate n (F rho))) ∧
    (∀ (s b1 b2 : ℝ) (o' : Opt Nx Ny), 0 < s → Opt.run env "gd" 1 s b1 b2 calls y o = (.ok (), o') → o'.simulation.rho = some (some rho) → Spec.Stationary F o.design_region rho) := by
  refine ⟨fun hst s b1 b2 n hs => ⟨?_, fun hb1 hb2 => ?_⟩, fun s b1 b2 o' hs hrun hsame => ?_⟩
  · obtain ⟨o', h1, h2, -, h3⟩ := C84_gd env he o J args h F hF rho hbox hrho heps n s b1 b2 calls y
    have hk : ∀ k, Spec.gdPath F o.design_region s rho k = rho := by
      intro k
      induction k with
      | zero => rfl
      | succ k ih =>
        show Spec.move o.design_region (Spec.gdPath F o.design_region s rho k) _ = _
        rw [ih]
        exact move_stationary hbox hst fun i j _ => ⟨fun hg => mul_nonneg hs hg, fun hg => mul_nonpos_of_nonneg_of_nonpos hs hg⟩
    refine ⟨o', h1, by rw [h2, hk], ?_⟩
    rw [h3]
    simp only [hk, List.map_const', List.length_range]
  · obtain ⟨r, h0, hp, -, hrun⟩ := C84_adam env he o J args h F hF rho hbox hrho heps s b1 b2 hb1 hb2 calls y
    have hk : ∀ k, ∀ m ≤ k, r m = rho := by
      intro k
      induction k with
      | zero => intro m hm; rw [Nat.le_zero.1 hm, h0]
      | succ k ih =>
        intro m hm
        rcases Nat.lt_or_eq_of_le hm with hlt | heq
        · exact ih m (by omega)
        · subst heq
          rw [hp k, ih k le_rfl]
          refine move_stationary hbox hst fun i j _ => ?_
          have hden : 0 ≤ √(Spec.average b2 (fun m => Spec.partials F (r m) i j ^ 2) k) + 1e-8 := by positivity
          have e : Spec.average b1 (fun m => Spec.partials F (r m) i j) k = Spec.partials F rho i j := by
            rw [average_congr (f := fun _ => Spec.partials F rho i j) fun m hm => by rw [ih m hm]]
            unfold Spec.average
            rw [← Finset.sum_mul, (C39_weights b1 hb1.1 hb1.2 k).2, one_mul]
          show (0 ≤ Spec.partials F rho i j → 0 ≤ s * (Spec.average b1 (fun m => Spec.partials F (r m) i j) k / (√(Spec.average b2 (fun m => Spec.partials F (r m) i j ^ 2) k) + 1e-8))) ∧
            (Spec.partials F rho i j ≤ 0 → s * (Spec.average b1 (fun m => Spec.partials F (r m) i j) k / (√(Spec.average b2 (fun m => Spec.partials F (r m) i j ^ 2) k) + 1e-8)) ≤ 0)
          rw [e]
          exact ⟨fun hg => mul_nonneg hs (div_nonneg hg hden), fun hg => mul_nonpos_of_nonneg_of_nonpos hs (div_nonpos_of_nonpos_of_nonneg hg hden)⟩
    obtain ⟨o', h1, h2, -, h3⟩ := hrun n
    have hk' : ∀ m, r m = rho := fun m => hk m m le_rfl
    refine ⟨o', h1, by rw [h2, hk'], ?_⟩
    rw [h3]
    simp only [hk', List.map_const', List.length_range]
  · obtain ⟨o'', h1, h2, -, -⟩ := C84_gd env he o J args h F hF rho hbox hrho heps 1 s b1 b2 calls y
    rw [h1] at hrun
    have ho : o'' = o' := congrArg Prod.snd hrun
    subst ho
    rw [h2] at hsame
    exact stationary_of_fixed hs (Option.some.inj (Option.some.inj hsame))

/-- A start at an optimum inside the bounds: the device of C85 with the uniform density at which its permittivity is 2. Both kinds of run leave it alone. -/
example (env : Env) (he : env.Exact) (hx : 1 < Nx) (hy : 1 < Ny) (n : ℕ) (s : ℝ) (hs : 0 ≤ s) : ∃ (q : ℝ) (o : Opt Nx Ny), 0 < q ∧ q < 1 ∧ o.simulation.rho = some (some fun _ _ => q) ∧
    (∃ o', Opt.run env "gd" n s 0.9 0.999 [] [] o = (.ok (), o') ∧ o'.simulation.rho = some (some fun _ _ => q)) ∧
    ∃ o', Opt.run env "adam" n s 0.9 0.999 [] [] o = (.ok (), o') ∧ o'.simulation.rho = some (some fun _ _ => q) := by
  obtain ⟨z0, z1, hmono, -, -⟩ := C01_projection_physical (1 / 2) 1 one_pos
  have hcont : Continuous fun t => rhot2rhob t (1 / 2) 1 := continuous_iff_continuousAt.2 fun t => (C02_projection_derivative (1 / 2) 1 t one_ne_zero).continuousAt
  obtain ⟨q, ⟨hq0, hq1⟩, hq⟩ := intermediate_value_Ioo (zero_le_one' ℝ) hcont.continuousOn (show (1 / 4 : ℝ) ∈ Set.Ioo (rhot2rhob 0 (1 / 2) 1) (rhot2rhob 1 (1 / 2) 1) by rw [z0, z1]; norm_num)
  have hp := topt_problem (Nx := Nx) (Ny := Ny) hx hy
  have hF := hp.isObjective env
  have hb : Spec.Box (fun _ _ => q : Grid Nx Ny ℝ) := fun _ _ => ⟨hq0.le, hq1.le⟩
  have hst := hp.stateAt_putRho fun _ _ => q
  let o : Opt Nx Ny := { Opt.putRho (topt Nx Ny) (fun _ _ => q) with fields_current := false }
  have hpo : Spec.EzProblem o (targetJ Nx Ny) [⟨.Ez, false, .linear_Ez⟩] := ⟨hp.obj, hp.args_ok, hst.valid, hp.pol, hp.solvable, hp.beta, hp.shift, hp.mask, hp.filter, hp.autograd⟩
  have hFo : Spec.IsObjective env o _ := hF
  have hstat : Spec.Stationary (linObj env (topt Nx Ny) (targetJ Nx Ny) [⟨.Ez, false, .linear_Ez⟩] hp.len) o.design_region fun _ _ => q := by
    intro i j _ t _ _
    rw [topt_partials env he hx hy hF q hq0.le hq1.le]
    beta_reduce at hq
    rw [hq]
    norm_num
  obtain ⟨h1, h2⟩ := (C86_optima_kept env he o _ _ hpo _ hFo (fun _ _ => q) hb hst.rho hst.eps [] []).1 hstat s 0.9 0.999 n hs
  obtain ⟨o1, a1, a2, -⟩ := h1
  obtain ⟨o2, c1, c2, -⟩ := h2 (by norm_num) (by norm_num)
  exact ⟨q, o, hq0, hq1, hst.rho, ⟨o1, a1, a2⟩, o2, c1, c2⟩

/-- The witness of C85 does not start at an optimum, so with small steps Adam climbs for as long as one likes. -/
example (env : Env) (he : env.Exact) (hx : 1 < Nx) (hy : 1 < Ny) (n : ℕ) :
    ∃ F s0, Spec.IsObjective env (topt Nx Ny) F ∧ 0 < s0 ∧ ∀ s, 0 < s → s < s0 → ∃ o' new final, Opt.run env "adam" n s 0.9 0.999 [] [] (topt Nx Ny) = (.ok (), o') ∧
      o'.simulation.rho = some (some final) ∧ o'.objfn_list = new ∧ new.length = n ∧ (new ++ [F final]).Pairwise (· < ·) := by
  have hp := topt_problem (Nx := Nx) (Ny := Ny) hx hy
  have hF := hp.isObjective env
  have heps : (topt Nx Ny).simulation.eps_r = fun i j => ((rho2eps (fun _ _ => 0) (topt Nx Ny).eps_m (topt Nx Ny).W (topt Nx Ny).eta (topt Nx Ny).beta i j : ℝ) : ℂ) := by
    rw [rho2eps_zero]; funext i j; simp [topt, gopt, gsim]
  have hns : ¬ Spec.Stationary (linObj env (topt Nx Ny) (targetJ Nx Ny) [⟨.Ez, false, .linear_Ez⟩] hp.len) (topt Nx Ny).design_region fun _ _ => 0 := by
    intro hst
    have h1 := hst ⟨0, by omega⟩ ⟨0, by omega⟩ rfl 1 zero_le_one le_rfl
    rw [topt_partials env he hx hy hF 0 le_rfl zero_le_one, (C01_projection_physical (1 / 2) 1 one_pos).1] at h1
    have hd : 0 < drhob_drhot 0 (1 / 2) 1 := drhob_drhot_pos 0
    norm_num at h1
    linarith
  obtain ⟨s0, h0, h1⟩ := C86_adam_increases env he (topt Nx Ny) _ _ hp ((C85_false_large_steps env he hx hy).1.of_le (by norm_num)) _ hF (fun _ _ => 0) (fun _ _ => ⟨le_rfl, zero_le_one⟩) rfl heps hns 0.9
    0.999 (by norm_num) (by norm_num) [] [] n
  refine ⟨_, s0, hF, h0, fun s hs hs0 => ?_⟩
  obtain ⟨o', new, final, a1, a2, a3, a4, -, a5⟩ := h1 s hs hs0
  exact ⟨o', new, final, a1, a2, by rw [a3]; rfl, a4, a5⟩

/-! ## Adam with large steps -/

/-- The average of a sequence that differs from a constant only at its start. -/
theorem average_first (b : ℝ) (h0 : 0 ≤ b) (h1 : b < 1) (f : ℕ → ℝ) (a c : ℝ) (n : ℕ) (hf0 : f 0 = a) (hf : ∀ k, 1 ≤ k → k ≤ n → f k = c) :
    Spec.average b f n = (1 - b) * b ^ n / (1 - b ^ (n + 1)) * (a - c) + c := by
  have hw := (C39_weights b h0 h1 n).2
  unfold Spec.average
  rw [Finset.sum_range_succ'] at hw ⊢
  have e : ∑ k ∈ Finset.range n, Spec.weight b n (k + 1) * f (k + 1) = (∑ k ∈ Finset.range n, Spec.weight b n (k + 1)) * c := by
    rw [Finset.sum_mul]
    refine Finset.sum_congr rfl fun k hk => ?_
    rw [hf (k + 1) (by omega) (by have := Finset.mem_range.1 hk; omega)]
  have e2 : ∑ k ∈ Finset.range n, Spec.weight b n (k + 1) = 1 - Spec.weight b n 0 := by linarith
  rw [e, e2, hf0]
  show (1 - Spec.weight b n 0) * c + Spec.weight b n 0 * a = _
  have e3 : Spec.weight b n 0 = (1 - b) * b ^ n / (1 - b ^ (n + 1)) := by
    unfold Spec.weight
    rw [Nat.sub_zero]
  rw [← e3]
  ring

theorem average_le {b : ℝ} (h0 : 0 ≤ b) (h1 : b < 1) {f : ℕ → ℝ} {c : ℝ} {n : ℕ} (hf : ∀ k ≤ n, f k ≤ c) : Spec.average b f n ≤ c := by
  calc Spec.average b f n ≤ ∑ k ∈ Finset.range (n + 1), Spec.weight b n k * c :=
        Finset.sum_le_sum fun k hk => mul_le_mul_of_nonneg_left (hf k (by have := Finset.mem_range.1 hk; omega)) ((C39_weights b h0 h1 n).1 k)
    _ = c := by rw [← Finset.sum_mul, (C39_weights b h0 h1 n).2, one_mul]

/-- **C86 needs small steps.** On every grid with at least two cells each way there is a problem with a smooth objective for which, with the default decay rates and every sufficiently large step size,
the seventeenth step of Adam throws the design from full back to empty and the recorded value from `4 Nx Ny / 25` back to 0. -/
theorem C86_false_large_steps (env : Env) (he : env.Exact) (hx : 1 < Nx) (hy : 1 < Ny) :
    ContDiff ℝ 2 (targetJ Nx Ny).eval ∧ Spec.EzProblem (topt Nx Ny) (targetJ Nx Ny) [⟨.Ez, false, .linear_Ez⟩] ∧
    ∃ s1 : ℝ, 0 < s1 ∧ ∀ s, s1 ≤ s → ∀ (calls : List Opt.LbfgsCall) (y : List ℝ), ∃ o', Opt.run env "adam" 18 s 0.9 0.999 calls y (topt Nx Ny) = (.ok (), o') ∧
      o'.objfn_list = 0 :: List.replicate 16 ((Nx * Ny : ℝ) * (4 / 25)) ++ [0] := by
  refine ⟨(C85_false_large_steps env he hx hy).1, topt_problem hx hy, ?_⟩
  have hp := topt_problem (Nx := Nx) (Ny := Ny) hx hy
  have hF := hp.isObjective env
  set F := linObj env (topt Nx Ny) (targetJ Nx Ny) [⟨.Ez, false, .linear_Ez⟩] hp.len with hFdef
  have hd : 0 < drhob_drhot 0 (1 / 2) 1 := drhob_drhot_pos 0
  obtain ⟨z0, z1, -⟩ := C01_projection_physical (1 / 2) 1 one_pos
  have g0 : ∀ i j, Spec.partials F (fun _ _ => 0) i j = 4 * drhob_drhot 0 (1 / 2) 1 := fun i j => by
    have := topt_partials env he hx hy hF 0 le_rfl zero_le_one i j
    rw [z0] at this
    rw [this]
    norm_num
  have g1 : ∀ i j, Spec.partials F (fun _ _ => 1) i j = -(12 / 125 * drhob_drhot 0 (1 / 2) 1) := fun i j => by
    have := topt_partials env he hx hy hF 1 zero_le_one le_rfl i j
    rw [z1, drhob_drhot_mirror] at this
    rw [this]
    norm_num
    ring
  have f0 : F (fun _ _ => 0) = 0 := by
    have := topt_value env he hx hy hF 0 le_rfl zero_le_one
    rw [z0] at this
    rw [this]
    norm_num
  have f1 : F (fun _ _ => 1) = (Nx * Ny : ℝ) * (4 / 25) := by
    have := topt_value env he hx hy hF 1 zero_le_one le_rfl
    rw [z1] at this
    rw [this]
    norm_num
    ring
  set D := drhob_drhot 0 (1 / 2) 1 with hD
  refine ⟨(4 * D + 1e-8) / (D / 250), by positivity, fun s hs calls y => ?_⟩
  have hs' : 4 * D + 1e-8 ≤ s * (D / 250) := by rwa [div_le_iff₀ (by positivity)] at hs
  have hspos : 0 < s := lt_of_lt_of_le (by positivity) hs
  have heps : (topt Nx Ny).simulation.eps_r = fun i j => ((rho2eps (fun _ _ => 0) (topt Nx Ny).eps_m (topt Nx Ny).W (topt Nx Ny).eta (topt Nx Ny).beta i j : ℝ) : ℂ) := by
    rw [rho2eps_zero]; funext i j; simp [topt, gopt, gsim]
  obtain ⟨r, h0, hpath, -, hrun⟩ := C84_adam env he (topt Nx Ny) _ _ hp F hF (fun _ _ => 0) (fun _ _ => ⟨le_rfl, zero_le_one⟩) rfl heps s 0.9 0.999 (by norm_num) (by norm_num) calls y
  -- the step after `k + 1` gradients, one from the empty design and `k` from the full one
  have hstep : ∀ k, (∀ m, 1 ≤ m → m ≤ k → r m = fun _ _ => 1) → ∀ i j,
      let a := Spec.adamStep 0.9 0.999 (fun m => Spec.partials F (r m)) k i j
      let w : ℝ := (1 - 0.9) * 0.9 ^ k / (1 - 0.9 ^ (k + 1))
      (1 / 250 ≤ 512 / 125 * w - 12 / 125 → 1 ≤ s * a) ∧ (512 / 125 * w - 12 / 125 ≤ -(1 / 250) → s * a ≤ -1) := by
    intro k hk i j a w
    have e0 : Spec.partials F (r 0) i j = 4 * D := by rw [h0, g0]
    have e1 : ∀ m, 1 ≤ m → m ≤ k → Spec.partials F (r m) i j = -(12 / 125 * D) := fun m h1 h2 => by rw [hk m h1 h2, g1]
    have ha : a = (512 / 125 * w - 12 / 125) * D / (√(Spec.average 0.999 (fun m => Spec.partials F (r m) i j ^ 2) k) + 1e-8) := by
      show Spec.average 0.9 (fun m => Spec.partials F (r m) i j) k / _ = _
      rw [average_first 0.9 (by norm_num) (by norm_num) _ _ _ k e0 e1]
      congr 1
      show w * _ + _ = _
      ring
    have hden : √(Spec.average 0.999 (fun m => Spec.partials F (r m) i j ^ 2) k) + 1e-8 ≤ 4 * D + 1e-8 := by
      have : Spec.average 0.999 (fun m => Spec.partials F (r m) i j ^ 2) k ≤ (4 * D) ^ 2 := by
        refine average_le (by norm_num) (by norm_num) fun m hm => ?_
        rcases Nat.eq_zero_or_pos m with h | h
        · rw [h, e0]
        · rw [e1 m h hm]
          nlinarith
      have := Real.sqrt_le_sqrt this
      rw [Real.sqrt_sq (by positivity)] at this
      linarith
    have hpos : 0 < √(Spec.average 0.999 (fun m => Spec.partials F (r m) i j ^ 2) k) + 1e-8 := by positivity
    generalize √(Spec.average 0.999 (fun m => Spec.partials F (r m) i j ^ 2) k) + 1e-8 = den at ha hden hpos
    clear_value w
    rw [ha, ← mul_div_assoc, le_div_iff₀ hpos, div_le_iff₀ hpos, one_mul, neg_one_mul]
    have hsD : 0 < s * D := mul_pos hspos hd
    constructor
    · intro h
      nlinarith
    · intro h
      nlinarith
  have hmove : ∀ k i j, r (k + 1) i j = max 0 (min 1 (r k i j + s * Spec.adamStep 0.9 0.999 (fun m => Spec.partials F (r m)) k i j)) := by
    intro k i j
    rw [hpath k]
    unfold Spec.move
    rw [if_pos (show (topt Nx Ny).design_region i j = 1 from rfl)]
  have hup : ∀ k, k ≤ 15 → ∀ m, 1 ≤ m → m ≤ k + 1 → r m = fun _ _ => 1 := by
    have hw : ∀ k, k ≤ 15 → (1 / 250 : ℝ) ≤ 512 / 125 * ((1 - 0.9) * 0.9 ^ k / (1 - 0.9 ^ (k + 1))) - 12 / 125 := by
      intro k hk
      have hb : (0.9 : ℝ) ^ 15 ≤ 0.9 ^ k := pow_le_pow_of_le_one (by norm_num) (by norm_num) hk
      have hc : (0.9 : ℝ) ^ (k + 1) < 1 := pow_lt_one₀ (by norm_num) (by norm_num) (Nat.succ_ne_zero k)
      have hv : (0.205 : ℝ) ≤ 0.9 ^ 15 := by norm_num
      have : (25 / 1024 : ℝ) ≤ (1 - 0.9) * 0.9 ^ k / (1 - 0.9 ^ (k + 1)) := by
        rw [le_div_iff₀ (by linarith), pow_succ]
        linarith
      linarith
    intro k
    induction k with
    | zero =>
      intro _ m h1 h2
      have : m = 1 := by omega
      subst this
      funext i j
      have := (hstep 0 (fun m h1 h2 => by omega) i j).1 (hw 0 (by norm_num))
      rw [hmove 0 i j, h0, min_eq_left (by linarith), max_eq_right zero_le_one]
    | succ k ih =>
      intro hk m h1 h2
      rcases Nat.lt_or_eq_of_le h2 with hlt | heq
      · exact ih (by omega) m h1 (by omega)
      · subst heq
        funext i j
        have hh := ih (by omega)
        have := (hstep (k + 1) (fun m h1 h2 => hh m h1 h2) i j).1 (hw (k + 1) hk)
        rw [hmove (k + 1) i j, hh (k + 1) (by omega) le_rfl, min_eq_left (by linarith), max_eq_right zero_le_one]
  have hdown : r 17 = fun _ _ => 0 := by
    funext i j
    have hh := hup 15 le_rfl
    have := (hstep 16 (fun m h1 h2 => hh m h1 h2) i j).2 (by norm_num)
    rw [hmove 16 i j, hh 16 (by omega) le_rfl, min_eq_right (by linarith), max_eq_left (by linarith)]
  obtain ⟨o', h1, -, -, h3⟩ := hrun 18
  refine ⟨o', h1, ?_⟩
  rw [h3]
  show [] ++ _ = _
  rw [List.nil_append, List.range_succ, List.map_append, List.map_singleton, hdown, f0, List.range_succ_eq_map, List.map_cons, h0, f0, List.map_map]
  congr 2
  refine List.eq_replicate_iff.2 ⟨by simp, fun v hv => ?_⟩
  obtain ⟨k, hk, rfl⟩ := List.mem_map.1 hv
  have := List.mem_range.1 hk
  show F (r (k + 1)) = _
  rw [hup 15 le_rfl (k + 1) (by omega) (by omega), f1]

end Angler
