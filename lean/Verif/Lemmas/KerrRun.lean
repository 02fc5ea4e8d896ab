import Verif.Lemmas.KerrGradient
import Verif.Props.AscentPath
import Verif.Props.CheckDeriv
import Verif.Props.LbfgsValues

/-! # Optimisers on weakly nonlinear devices -/

namespace Angler

open Matrix Filter Topology

variable {Nx Ny : ℕ}

namespace Spec.KerrProblem
variable {o : Opt Nx Ny} {J : ObjFn Nx Ny} {args : List ObjArg} {m κ κ1 R ω P P1 a : ℝ}

theorem R_nonneg (h : Spec.KerrProblem o J args m κ κ1 R ω P P1 a) (hx : 1 < Nx) (hy : 1 < Ny) : 0 ≤ R :=
  (h.weak (fun _ _ => 0) (box_near h.room fun _ _ => ⟨le_rfl, zero_le_one⟩)).R_nonneg (h.valid.set_eps_r _) hx hy

/-- A value of the objective, from a field near the exact one. -/
theorem value_near (h : Spec.KerrProblem o J args m κ κ1 R ω P P1 a) (hR : 0 ≤ R) {E Z : Grid Nx Ny ℂ} (hE : ‖E‖ ≤ R) (hZ : ‖Z‖ ≤ R) {δ : ℝ} (hd : ‖E - Z‖ ≤ δ) :
    |J.eval (fun _ => E) - J.eval fun _ => Z| ≤ P * δ := by
  have hδ : 0 ≤ δ := (norm_nonneg _).trans hd
  have hP : 0 ≤ P := (Finset.sum_nonneg fun _ _ => Finset.sum_nonneg fun _ _ => Finset.sum_nonneg fun _ _ => norm_nonneg _).trans (h.size (fun _ => Z) fun _ => hZ)
  refine (h.value_error hR (y := fun _ => E) (z := fun _ => Z) (fun _ => hE) fun _ => hZ).trans (mul_le_mul_of_nonneg_left ((pi_norm_le_iff_of_nonneg hδ).2 fun _ => hd) hP)

/-- The value of the objective of the optimisation's own simulation. -/
theorem value_self (h : Spec.KerrProblem o J args m κ κ1 R ω P P1 a) {env : Env} (he : env.Exact) (hb : env.backend = .pardiso) (hx : 1 < Nx) (hy : 1 < Ny) {F : Grid Nx Ny ℝ → ℝ}
    (hF : Spec.IsKerrObjective o J a F) {x : Grid Nx Ny ℝ} (hbx : Spec.NearBox a x) {o' : Opt Nx Ny} (hs : KerrAt o x o') :
    ∃ v, (Opt.J_self env o').1 = .ok v ∧ |v - F x| ≤ P * Spec.fieldTol Nx Ny R := by
  obtain ⟨Z, hZ, hZR, -⟩ := h.exists_solution hx hy hbx
  obtain ⟨E, G, fl, fn, s', -, hsol, -, -, hE, -, hd, -⟩ := h.solveArgFields he hb hx hy hbx hs.at'.same.objective hs.at'.stale hs.simFor hZ
  refine ⟨J.eval fun _ => E, ?_, ?_⟩
  · show (Opt.compute_J env o' none).1 = _
    unfold Opt.compute_J
    rw [hsol]
    simp only [Option.getD_some]
    rw [hs.at'.same.objective, (objective_init_ok h.obj).2]
    exact h.call E
  · rw [hF x hbx Z hZ]
    exact h.value_near (h.R_nonneg hx hy) hE hZR hd

/-- The value of the objective of another simulation with the permittivity of a density. -/
theorem value_other (h : Spec.KerrProblem o J args m κ κ1 R ω P P1 a) {env : Env} (he : env.Exact) (hb : env.backend = .pardiso) (hx : 1 < Nx) (hy : 1 < Ny) {F : Grid Nx Ny ℝ → ℝ}
    (hF : Spec.IsKerrObjective o J a F) {x : Grid Nx Ny ℝ} (hbx : Spec.NearBox a x) {o' : Opt Nx Ny} (ho : o'.objective = o.objective) (hst : o'.fields_current = false) {s : Sim Nx Ny}
    (hs : SimFor o x s) : ∃ v, (Opt.compute_J env o' (some s)).1 = .ok v ∧ |v - F x| ≤ P * Spec.fieldTol Nx Ny R := by
  obtain ⟨Z, hZ, hZR, -⟩ := h.exists_solution hx hy hbx
  obtain ⟨E, s', hsol, -, hE, hd⟩ := h.solveArgFields_other he hb hx hy hbx ho hst hs hZ
  refine ⟨J.eval fun _ => E, ?_, ?_⟩
  · unfold Opt.compute_J
    rw [hsol]
    simp only [Option.getD_some]
    rw [ho, (objective_init_ok h.obj).2]
    exact h.call E
  · rw [hF x hbx Z hZ]
    exact h.value_near (h.R_nonneg hx hy) hE hZR hd

theorem keep {o' o'' : Opt Nx Ny} {x : Grid Nx Ny ℝ} (hs : KerrAt o x o') (hk : OptKeep o' o'') : KerrAt o x { o'' with fields_current := false } := by
  have hs2 := hs.at'.same.trans (SameProblem.of_keep hk)
  refine ⟨⟨⟨hs2.objective, hs2.W, hs2.design, hs2.eps_m, hs2.eta, hs2.beta, hs2.shift, hs2.omega, hs2.L0, hs2.NPML, hs2.pol, hs2.src, hs2.xrange, hs2.yrange⟩, hk.sim.valid hs.at'.valid, rfl,
    hk.sim.rho.trans hs.at'.rho, ?_⟩, ?_, ?_⟩
  · show o''.simulation.eps_r = fun i j => ((rho2eps x o''.eps_m o''.W o''.eta o''.beta i j : ℝ) : ℂ)
    rw [hk.W, hk.eps_m, hk.eta, hk.beta]
    exact hk.sim.eps_r.trans hs.at'.eps
  · show o''.simulation.dl = _
    rw [hk.sim]
    exact hs.dl
  · show o''.simulation.nonlinearity = _
    rw [hk.sim]
    exact hs.nonlin

/-- One iteration of an optimiser up to the density update. -/
theorem iteration (h : Spec.KerrProblem o J args m κ κ1 R ω P P1 a) {env : Env} (he : env.Exact) (hb : env.backend = .pardiso) (hx : 1 < Nx) (hy : 1 < Ny) {F : Grid Nx Ny ℝ → ℝ}
    (hF : Spec.IsKerrObjective o J a F) {x : Grid Nx Ny ℝ} (hbx : Spec.Box x) {o' : Opt Nx Ny} (hs : KerrAt o x o') :
    ∃ (o1 o2 o3 : Opt Nx Ny) (v : ℝ) (g : Grid Nx Ny ℝ), Opt.J_self env o' = (.ok v, o1) ∧
      Opt.set_source_amplitude env { o1 with objfn_list := o1.objfn_list ++ [v] } = (.ok (), o2) ∧ Opt.dJ_self env o2 = (.ok g, o3) ∧ |v - F x| ≤ P * Spec.fieldTol Nx Ny R ∧
      (∀ i j, o.design_region i j = 1 → ∃ d, HasDerivAt (fun t => F (Spec.bump x i j t)) d 0 ∧ |g i j - d| ≤ Spec.gradTol o m κ1 R ω P P1) ∧
      ∀ (d : Grid Nx Ny ℝ) (st : ℝ), ∃ o'', Opt.update_rho o3 d st = (.ok (), o'') ∧ KerrAt o (Spec.move o.design_region x fun i j => st * d i j) o'' ∧
        o''.objfn_list = o'.objfn_list ++ [v] := by
  obtain ⟨v, hv, hvF⟩ := h.value_self he hb hx hy hF (box_near h.room hbx) hs
  have hk1 := OptKeep.J_self env o'
  generalize hq1 : Opt.J_self env o' = Q at hv hk1
  obtain ⟨r1, o1⟩ := Q
  simp only at hv hk1
  subst hv
  let o2 : Opt Nx Ny := { o1 with objfn_list := o1.objfn_list ++ [v], src_amplitudes := o1.src_amplitudes ++ [gridMax fun i j => ‖o1.simulation.src i j‖], fields_current := false }
  have hq2 : Opt.set_source_amplitude env { o1 with objfn_list := o1.objfn_list ++ [v] } = (.ok (), o2) := by
    unfold Opt.set_source_amplitude
    have hn : o1.max_ind_shift = none := hk1.max_ind_shift.trans (hs.at'.same.shift.trans h.shift)
    simp only [hn, o2]
  have hs1 := keep hs hk1
  have hs2 : KerrAt o x o2 :=
    ⟨⟨⟨hs1.at'.same.objective, hs1.at'.same.W, hs1.at'.same.design, hs1.at'.same.eps_m, hs1.at'.same.eta, hs1.at'.same.beta, hs1.at'.same.shift, hs1.at'.same.omega, hs1.at'.same.L0,
      hs1.at'.same.NPML, hs1.at'.same.pol, hs1.at'.same.src, hs1.at'.same.xrange, hs1.at'.same.yrange⟩, hs1.at'.valid, rfl, hs1.at'.rho, hs1.at'.eps⟩, hs1.dl, hs1.nonlin⟩
  obtain ⟨g, hg, hgd⟩ := h.gradient he hb hx hy hF hbx hs2
  have hk3 := OptKeep.dJ_self env o2
  have hg3 : (Opt.dJ_self env o2).1 = .ok g := hg
  generalize hq3 : Opt.dJ_self env o2 = Q at hk3 hg3
  obtain ⟨r3, o3⟩ := Q
  simp only at hk3 hg3
  subst hg3
  have hs3 := keep hs2 hk3
  refine ⟨o1, o2, o3, v, g, rfl, hq2, hq3, hvF, hgd, fun d st => ?_⟩
  have hr3 : o3.simulation.rho = some (some x) := hs3.at'.rho
  have hmv := clip_eq_move (s := st) (d := d) h.mask hbx
  have hd3 : o3.design_region = o.design_region := hs3.at'.same.design
  have hsame3 : SameProblem o o3 := ⟨hs3.at'.same.objective, hs3.at'.same.W, hs3.at'.same.design, hs3.at'.same.eps_m, hs3.at'.same.eta, hs3.at'.same.beta, hs3.at'.same.shift, hs3.at'.same.omega,
    hs3.at'.same.L0, hs3.at'.same.NPML, hs3.at'.same.pol, hs3.at'.same.src, hs3.at'.same.xrange, hs3.at'.same.yrange⟩
  refine ⟨{ Opt.putRho o3 (Spec.move o.design_region x fun i j => st * d i j) with fields_current := false }, ?_,
    ⟨⟨hsame3.trans (SameProblem.putRho o3 _), valid_putRho hs3.at'.valid _, rfl, rfl, rfl⟩, hs3.dl, hs3.nonlin⟩, ?_⟩
  · unfold Opt.update_rho
    rw [hr3]
    simp only
    rw [hd3, hmv]
  · show o3.objfn_list = _
    rw [hk3.objfn_list]
    show o1.objfn_list ++ [v] = _
    rw [hk1.objfn_list]

/-- Gradient ascent. -/
theorem run_GD (h : Spec.KerrProblem o J args m κ κ1 R ω P P1 a) {env : Env} (he : env.Exact) (hb : env.backend = .pardiso) (hx : 1 < Nx) (hy : 1 < Ny) {F : Grid Nx Ny ℝ → ℝ}
    (hF : Spec.IsKerrObjective o J a F) (s : ℝ) (n : ℕ) : ∀ {x : Grid Nx Ny ℝ}, Spec.Box x → ∀ {o' : Opt Nx Ny}, KerrAt o x o' →
    ∃ (o'' : Opt Nx Ny) (r g : ℕ → Grid Nx Ny ℝ) (v : ℕ → ℝ), Opt.run_GD env s n o' = (.ok (), o'') ∧ r 0 = x ∧
      (∀ k < n, r (k + 1) = Spec.move o.design_region (r k) fun i j => s * g k i j) ∧
      (∀ k < n, |v k - F (r k)| ≤ P * Spec.fieldTol Nx Ny R ∧
        ∀ i j, o.design_region i j = 1 → ∃ d, HasDerivAt (fun t => F (Spec.bump (r k) i j t)) d 0 ∧ |g k i j - d| ≤ Spec.gradTol o m κ1 R ω P P1) ∧
      KerrAt o (r n) { o'' with fields_current := false } ∧ o''.objfn_list = o'.objfn_list ++ (List.range n).map v := by
  induction n with
  | zero =>
    intro x hbx o' hs
    exact ⟨o', fun _ => x, fun _ => x, fun _ => 0, rfl, rfl, fun k hk => absurd hk (Nat.not_lt_zero k), fun k hk => absurd hk (Nat.not_lt_zero k), keep hs (OptKeep.refl _), by simp⟩
  | succ n ih =>
    intro x hbx o' hs
    obtain ⟨o1, o2, o3, v0, g0, h1, h2, h3, h4, h5, h6⟩ := h.iteration he hb hx hy hF hbx hs
    obtain ⟨o4, hu, hs4, hl4⟩ := h6 g0 s
    have hstep : Opt.stepGD env s o' = (.ok (), o4) := by
      unfold Opt.stepGD
      rw [h1]
      simp only [pySeq]
      rw [h2]
      simp only
      rw [h3]
      exact hu
    obtain ⟨o5, r, g, v, e1, e2, e3, e4, e5, e6⟩ := ih (box_move hbx _) hs4
    refine ⟨o5, fun k => Nat.casesOn k x r, fun k => Nat.casesOn k g0 g, fun k => Nat.casesOn k v0 v, ?_, rfl, ?_, ?_, e5, ?_⟩
    · show pySeq (Opt.stepGD env s o') _ = _
      rw [hstep]
      exact e1
    · intro k hk
      cases k with
      | zero => exact e2
      | succ k => exact e3 k (by omega)
    · intro k hk
      cases k with
      | zero => exact ⟨h4, h5⟩
      | succ k => exact e4 k (by omega)
    · rw [e6, hl4, List.range_succ_eq_map, List.map_cons, List.map_map, List.append_assoc]
      rfl

/-! ## Adam -/

theorem momentsOf_congr {b1 b2 : ℝ} {g g' : ℕ → Grid Nx Ny ℝ} {n : ℕ} (hg : ∀ k < n, g' k = g k) {mv : Opt.Moments Nx Ny} (h : MomentsOf b1 b2 g n mv) : MomentsOf b1 b2 g' n mv := by
  intro i j
  obtain ⟨h1, h2⟩ := h i j
  rw [h1, h2]
  exact ⟨(rawMoment_congr b1 n fun k hk => by rw [hg k hk]).symm, (rawMoment_congr b2 n fun k hk => by rw [hg k hk]).symm⟩

theorem loopADAM (h : Spec.KerrProblem o J args m κ κ1 R ω P P1 a) {env : Env} (he : env.Exact) (hb : env.backend = .pardiso) (hx : 1 < Nx) (hy : 1 < Ny) {F : Grid Nx Ny ℝ → ℝ}
    (hF : Spec.IsKerrObjective o J a F) (s : ℝ) {b1 b2 : ℝ} (hb1 : 0 ≤ b1 ∧ b1 < 1) (hb2 : 0 ≤ b2 ∧ b2 < 1) (n : ℕ) :
    ∀ (k : ℕ) (g : ℕ → Grid Nx Ny ℝ) (mv : Opt.Moments Nx Ny) {x : Grid Nx Ny ℝ}, MomentsOf b1 b2 g k mv → (k = 0 → mv = (fun _ _ => 0, fun _ _ => 0)) → Spec.Box x →
    ∀ {o' : Opt Nx Ny}, KerrAt o x o' →
    ∃ (o'' : Opt Nx Ny) (r g' : ℕ → Grid Nx Ny ℝ) (v : ℕ → ℝ), Opt.loopADAM env s b1 b2 n k mv o' = (.ok (), o'') ∧ (∀ l < k, g' l = g l) ∧ r k = x ∧
      (∀ l, k ≤ l → l < k + n → r (l + 1) = Spec.move o.design_region (r l) fun i j => s * Spec.adamStep b1 b2 g' l i j) ∧
      (∀ l, k ≤ l → l < k + n → |v l - F (r l)| ≤ P * Spec.fieldTol Nx Ny R ∧
        ∀ i j, o.design_region i j = 1 → ∃ d, HasDerivAt (fun t => F (Spec.bump (r l) i j t)) d 0 ∧ |g' l i j - d| ≤ Spec.gradTol o m κ1 R ω P P1) ∧
      KerrAt o (r (k + n)) { o'' with fields_current := false } ∧ o''.objfn_list = o'.objfn_list ++ (List.range n).map fun l => v (k + l) := by
  induction n with
  | zero =>
    intro k g mv x hm h0 hbx o' hs
    exact ⟨o', fun _ => x, g, fun _ => 0, rfl, fun _ _ => rfl, rfl, fun l h1 h2 => absurd h2 (by omega), fun l h1 h2 => absurd h2 (by omega), keep hs (OptKeep.refl _), by simp⟩
  | succ n ih =>
    intro k g mv x hm h0 hbx o' hs
    obtain ⟨o1, o2, o3, v0, g0, e1, e2, e3, e4, e5, e6⟩ := h.iteration he hb hx hy hF hbx hs
    let g1 : ℕ → Grid Nx Ny ℝ := fun l => if l = k then g0 else g l
    have hg1 : g1 k = g0 := if_pos rfl
    have hgl : ∀ l, l ≠ k → g1 l = g l := fun l hl => if_neg hl
    obtain ⟨mv', hst, hm'⟩ := step_adam_spec hb1 hb2 g1 k mv (momentsOf_congr (fun l hl => hgl l hl.ne) hm)
    rw [hg1] at hst
    obtain ⟨o4, hu, hs4, hl4⟩ := e6 (Spec.adamStep b1 b2 g1 k) s
    have hmv : (if k = 0 then ((fun _ _ => 0, fun _ _ => 0) : Opt.Moments Nx Ny) else mv) = mv := by
      split_ifs with hk
      · exact (h0 hk).symm
      · rfl
    have hstep : Opt.stepADAM env s b1 b2 k mv o' = (.ok mv', o4) := by
      unfold Opt.stepADAM
      rw [e1]
      simp only [pySeq]
      rw [e2]
      simp only
      rw [e3]
      simp only
      rw [hmv, hst]
      simp only
      rw [hu]
    obtain ⟨o5, r, g', v, f1, f2, f3, f4, f5, f6, f7⟩ := ih (k + 1) g1 mv' hm' (fun hk => absurd hk (by omega)) (box_move hbx _) hs4
    have hgk : g' k = g0 := (f2 k (by omega)).trans hg1
    have hstep' : Spec.adamStep b1 b2 g' k = Spec.adamStep b1 b2 g1 k := by
      funext i j
      unfold Spec.adamStep
      have a1 : Spec.average b1 (fun l => g' l i j) k = Spec.average b1 (fun l => g1 l i j) k := average_congr fun l hl => by rw [f2 l (by omega)]
      have a2 : Spec.average b2 (fun l => g' l i j ^ 2) k = Spec.average b2 (fun l => g1 l i j ^ 2) k := average_congr fun l hl => by rw [f2 l (by omega)]
      rw [a1, a2]
    refine ⟨o5, fun l => if l = k then x else r l, g', fun l => if l = k then v0 else v l, ?_, fun l hl => (f2 l (by omega)).trans (hgl l hl.ne), if_pos rfl, ?_, ?_, ?_, ?_⟩
    · show pySeq (Opt.stepADAM env s b1 b2 k mv o') _ = _
      rw [hstep]
      exact f1
    · intro l h1 h2
      rcases eq_or_ne l k with rfl | hl
      · beta_reduce
        rw [if_neg (Nat.succ_ne_self l), if_pos rfl, f3, hstep']
      · beta_reduce
        rw [if_neg (by omega), if_neg hl]
        exact f4 l (by omega) (by omega)
    · intro l h1 h2
      rcases eq_or_ne l k with rfl | hl
      · simp only [if_true]
        rw [hgk]
        exact ⟨e4, e5⟩
      · simp only [if_neg hl]
        exact f5 l (by omega) (by omega)
    · beta_reduce
      rw [if_neg (by omega), show k + (n + 1) = k + 1 + n by omega]
      exact f6
    · rw [f7, hl4, List.range_succ_eq_map, List.map_cons, List.map_map, List.append_assoc]
      congr 1
      rw [List.singleton_append]
      refine congrArg₂ List.cons (if_pos (Nat.add_zero k)).symm (List.map_congr_left fun l _ => ?_)
      simp only [Function.comp]
      rw [if_neg (by omega), show k + 1 + l = k + l.succ by omega]

/-! ## What an evaluation leaves behind -/

/-- The fields of the last evaluation are in the cache. -/
def Cached (o : Opt Nx Ny) (args : List ObjArg) (R : ℝ) (x : Grid Nx Ny ℝ) (E : Grid Nx Ny ℂ) (o1 : Opt Nx Ny) : Prop :=
  o1.fields_current = true ∧ o1.field_arg_list = some (args.map fun _ => E) ∧ ‖E‖ ≤ R ∧ ∃ Z, Spec.KerrMaxwellEz (Spec.simAt o x) Z ∧ ‖Z‖ ≤ R ∧ ‖E - Z‖ ≤ Spec.fieldTol Nx Ny R

theorem cached_value (h : Spec.KerrProblem o J args m κ κ1 R ω P P1 a) (hx : 1 < Nx) (hy : 1 < Ny) {F : Grid Nx Ny ℝ → ℝ} (hF : Spec.IsKerrObjective o J a F) {x : Grid Nx Ny ℝ}
    (hbx : Spec.NearBox a x) (env : Env) {o1 : Opt Nx Ny} (ho : o1.objective = o.objective) {E : Grid Nx Ny ℂ} (hc : Cached o args R x E o1) :
    ∃ v, Opt.J_self env o1 = (.ok v, o1) ∧ |v - F x| ≤ P * Spec.fieldTol Nx Ny R := by
  obtain ⟨h1, h2, hE, Z, hZ, hZR, hd⟩ := hc
  refine ⟨J.eval fun _ => E, ?_, ?_⟩
  · have hsol : Opt.solveArgFields env o1 none = (.ok (), o1, none) := by
      unfold Opt.solveArgFields
      rw [if_neg]
      rintro (h3 | h3)
      · rw [h1] at h3; cases h3
      · obtain ⟨b, l, hbl⟩ := List.exists_cons_of_ne_nil h.nonempty
        simp [h2, hbl] at h3
    have hJ : Opt.compute_J env o1 none = (.ok (J.eval fun _ => E), o1, none) := by
      unfold Opt.compute_J
      rw [hsol]
      simp only [h2, Option.getD_some]
      rw [ho, (objective_init_ok h.obj).2]
      have := h.call E
      exact congrArg (fun q => (q, o1, none)) this
    unfold Opt.J_self
    rw [hJ]
  · rw [hF x hbx Z hZ]
    exact h.value_near (h.R_nonneg hx hy) hE hZR hd

theorem cached_J (h : Spec.KerrProblem o J args m κ κ1 R ω P P1 a) {env : Env} (he : env.Exact) (hb : env.backend = .pardiso) (hx : 1 < Nx) (hy : 1 < Ny) {x : Grid Nx Ny ℝ}
    (hbx : Spec.NearBox a x) {o' : Opt Nx Ny} (hs : KerrAt o x o') : ∃ E, Cached o args R x E (Opt.J_self env o').2 := by
  obtain ⟨Z, hZ, hZR, -⟩ := h.exists_solution hx hy hbx
  obtain ⟨E, G, fl, fn, s', -, hsol, -, -, hE, -, hd, -⟩ := h.solveArgFields he hb hx hy hbx hs.at'.same.objective hs.at'.stale hs.simFor hZ
  have : (Opt.J_self env o').2 = { o' with simulation := s', field_arg_list := some (args.map fun _ => E), fields_current := true } := by
    show (Opt.compute_J env o' none).2.1 = _
    unfold Opt.compute_J
    rw [hsol]
  exact ⟨E, by rw [this], by rw [this], hE, Z, hZ, hZR, hd⟩

theorem cached_dJ (h : Spec.KerrProblem o J args m κ κ1 R ω P P1 a) {env : Env} (he : env.Exact) (hb : env.backend = .pardiso) (hx : 1 < Nx) (hy : 1 < Ny) {x : Grid Nx Ny ℝ}
    (hbx : Spec.NearBox a x) {o' : Opt Nx Ny} (hs : KerrAt o x o') : ∃ E, Cached o args R x E (Opt.dJ_self env o').2 := by
  obtain ⟨Z, hZ, hZR, -⟩ := h.exists_solution hx hy hbx
  obtain ⟨E, G, fl, fn, s', -, hsol, -, -, hE, -, hd, -⟩ := h.solveArgFields he hb hx hy hbx hs.at'.same.objective hs.at'.stale hs.simFor hZ
  have : (Opt.dJ_self env o').2.field_arg_list = some (args.map fun _ => E) ∧ (Opt.dJ_self env o').2.fields_current = true := by
    show (Opt.compute_dJ env o' none).2.1.field_arg_list = _ ∧ (Opt.compute_dJ env o' none).2.1.fields_current = _
    unfold Opt.compute_dJ
    rw [hsol]
    exact dJLoop_cache env _ _ _ _ _
  exact ⟨E, this.2, this.1, hE, Z, hZ, hZR, hd⟩

/-! ## `check_deriv` -/

theorem checkPt (h : Spec.KerrProblem o J args m κ κ1 R ω P P1 a) {env : Env} (he : env.Exact) (hb : env.backend = .pardiso) (hx : 1 < Nx) (hy : 1 < Ny) {F : Grid Nx Ny ℝ → ℝ}
    (hF : Spec.IsKerrObjective o J a F) {x : Grid Nx Ny ℝ} {o' : Opt Nx Ny} (hs : KerrAt o x { o' with fields_current := false }) (g : Grid Nx Ny ℝ) (J0 d : ℝ) (hd : d ≠ 0) {p : ℕ}
    {pt : Fin Nx × Fin Ny} (hp : (Opt.desPts o)[p]? = some pt) (hnb : Spec.NearBox a (Spec.bump x pt.1 pt.2 d)) :
    ∃ v, (Opt.checkPt env g J0 d p o').1 = .ok (g pt.1 pt.2, (v - J0) / d) ∧ |v - F (Spec.bump x pt.1 pt.2 d)| ≤ P * Spec.fieldTol Nx Ny R := by
  have hp' : (Opt.desPts o')[p]? = some pt := by
    have hdd : o'.design_region = o.design_region := hs.at'.same.design
    unfold Opt.desPts at hp ⊢
    rw [desIdx_congr hdd]
    exact hp
  have hr : o'.simulation.rho = some (some x) := hs.at'.rho
  set sn : Sim Nx Ny := ({ o'.simulation with rho := some (some (Opt.bumpRho x pt d)) } : Sim Nx Ny).set_eps_r
    (fun i j => ((rho2eps (Opt.bumpRho x pt d) o'.eps_m o'.W o'.eta o'.beta i j : ℝ) : ℂ)) with hsn
  have hst : KerrAt o (Spec.bump x pt.1 pt.2 d) { Opt.putRho { o' with fields_current := false } (Spec.bump x pt.1 pt.2 d) with fields_current := false } :=
    ⟨⟨hs.at'.same.trans (SameProblem.putRho _ _), valid_putRho hs.at'.valid _, rfl, rfl, rfl⟩, hs.dl, hs.nonlin⟩
  have hf : SimFor o (Spec.bump x pt.1 pt.2 d) sn := by
    have h1 := hst.simFor
    have hsn2 : sn = { Opt.putRho { o' with fields_current := false } (Spec.bump x pt.1 pt.2 d) with fields_current := false }.simulation := by
      rw [hsn, bumpRho_eq]
      rfl
    rw [hsn2]
    exact h1
  obtain ⟨v, hv, hvF⟩ := h.value_other he hb hx hy hF hnb (o' := { o' with fields_current := false }) hs.at'.same.objective rfl hf
  refine ⟨v, ?_, hvF⟩
  unfold Opt.checkPt
  rw [hp', hr]
  simp only
  rw [← hsn]
  generalize Opt.compute_J env { o' with fields_current := false } (some sn) = Q at hv ⊢
  obtain ⟨e | w, r⟩ := Q
  · exact absurd hv (by simp)
  · simp only at hv
    cases hv
    simp only
    rw [if_neg hd]

theorem checkPts (h : Spec.KerrProblem o J args m κ κ1 R ω P P1 a) {env : Env} (he : env.Exact) (hb : env.backend = .pardiso) (hx : 1 < Nx) (hy : 1 < Ny) {F : Grid Nx Ny ℝ → ℝ}
    (hF : Spec.IsKerrObjective o J a F) {x : Grid Nx Ny ℝ} (g : Grid Nx Ny ℝ) (J0 d : ℝ) (hd : d ≠ 0) (hnb : ∀ i j, Spec.NearBox a (Spec.bump x i j d)) (picks : List ℕ)
    (hp : ∀ p ∈ picks, p < (Opt.desPts o).length) : ∀ o' : Opt Nx Ny, KerrAt o x { o' with fields_current := false } →
    ∃ res, (Opt.checkPts env g J0 d picks o').1 = .ok res ∧
      List.Forall₂ (fun p r => ∃ i j, (Opt.desPts o)[p]? = some (i, j) ∧ r.1 = g i j ∧ ∃ v, r.2 = (v - J0) / d ∧ |v - F (Spec.bump x i j d)| ≤ P * Spec.fieldTol Nx Ny R) picks res := by
  induction picks with
  | nil => exact fun o' _ => ⟨[], rfl, List.Forall₂.nil⟩
  | cons p ps ih =>
    intro o' hs
    have hpl := hp p List.mem_cons_self
    have hpt : (Opt.desPts o)[p]? = some (Opt.desPts o)[p] := List.getElem?_eq_getElem hpl
    obtain ⟨v, h1, h2⟩ := h.checkPt he hb hx hy hF hs g J0 d hd hpt (hnb _ _)
    have hk := checkPts_keep env g J0 d [p] o'
    have hk1 : OptKeep o' (Opt.checkPt env g J0 d p o').2 := by
      rw [Opt.checkPts] at hk
      generalize Opt.checkPt env g J0 d p o' = Q at h1 hk ⊢
      obtain ⟨e | w, r⟩ := Q
      · exact absurd h1 (by simp)
      · exact hk.1
    rw [Opt.checkPts]
    generalize Opt.checkPt env g J0 d p o' = Q at h1 hk1 ⊢
    obtain ⟨e | w, o1⟩ := Q
    · exact absurd h1 (by simp)
    · simp only at h1 hk1
      cases h1
      have hs1 : KerrAt o x { o1 with fields_current := false } := keep hs
        { hk1 with }
      obtain ⟨res, hr1, hr2⟩ := ih (fun q hq => hp q (List.mem_cons_of_mem _ hq)) o1 hs1
      simp only [pySeq]
      generalize Opt.checkPts env g J0 d ps o1 = Q at hr1 ⊢
      obtain ⟨e | w, o2⟩ := Q
      · exact absurd hr1 (by simp)
      · simp only at hr1
        cases hr1
        exact ⟨_, rfl, List.Forall₂.cons ⟨_, _, hpt, rfl, v, rfl, h2⟩ hr2⟩

/-! ## The calls of `fmin_l_bfgs_b` -/

end Spec.KerrProblem

/-- The vector handed to a call. -/
def Spec.callArg : Opt.LbfgsCall → List ℝ
  | .objfn x => x
  | .grad x => x
  | .callback x => x

/-- For each call of the callback, the vector of the call before it (`x0` if there was none). -/
def Spec.beforeCallbacks (x0 : List ℝ) : List Opt.LbfgsCall → List (List ℝ)
  | [] => []
  | .callback x :: cs => x0 :: Spec.beforeCallbacks x cs
  | .objfn x :: cs => Spec.beforeCallbacks x cs
  | .grad x :: cs => Spec.beforeCallbacks x cs

/-- `r` is a density in the box that agrees with `rho` off the design pixels and with the vector `x` (in the order `L`) on them, up to the relative tolerance of the code. -/
def Spec.NearVector (design rho : Grid Nx Ny ℝ) (L : List (Fin Nx × Fin Ny)) (x : List ℝ) (r : Grid Nx Ny ℝ) : Prop :=
  Spec.Box r ∧ (∀ i j, design i j ≠ 1 → r i j = rho i j) ∧ Spec.distance x (L.map fun p => r p.1 p.2) ≤ 1e-10 * Spec.len x

namespace Spec.KerrProblem
variable {o : Opt Nx Ny} {J : ObjFn Nx Ny} {args : List ObjArg} {m κ κ1 R ω P P1 a : ℝ}

/-- States between two calls: the density is in the box, as at the start off the design pixels, and the cache is empty or that of the density. -/
def LbfgsAt (o : Opt Nx Ny) (args : List ObjArg) (R : ℝ) (rho r : Grid Nx Ny ℝ) (o1 : Opt Nx Ny) : Prop :=
  Spec.Box r ∧ (∀ i j, o.design_region i j ≠ 1 → r i j = rho i j) ∧ KerrAt o r { o1 with fields_current := false } ∧ (o1.fields_current = false ∨ ∃ E, Cached o args R r E o1)

theorem LbfgsAt.set {rho r : Grid Nx Ny ℝ} {o1 : Opt Nx Ny} (h : LbfgsAt o args R rho r o1) (x : List ℝ) (hx : x.length = (Opt.desPts o).length) (hxb : ∀ y ∈ x, 0 ≤ y ∧ y ≤ 1) :
    ∃ o2 r2, Opt.set_design_region o1 x = (.ok (), o2) ∧ LbfgsAt o args R rho r2 o2 ∧ o2.fields_current = false ∧ o2.objfn_list = o1.objfn_list ∧
      Spec.distance x ((Opt.desPts o).map fun p => r2 p.1 p.2) ≤ 1e-10 * Spec.len x := by
  obtain ⟨hb, hoff, hs, -⟩ := h
  have hd : o1.design_region = o.design_region := hs.at'.same.design
  have hdi : Opt.desIdx o1 = Opt.desIdx o := desIdx_congr hd
  have hdp : ∀ r : Grid Nx Ny ℝ, Opt.get_design_region o1 r = (Opt.desPts o).map fun p => r p.1 p.2 := by
    intro r
    rw [desPts_read, Opt.get_design_region, Opt.get_design_region, hdi]
  have hlen : x.length = (Opt.desIdx o1).length := by rw [hx, hdi, Opt.desPts, List.length_map]
  have hr : o1.simulation.rho = some (some r) := hs.at'.rho
  rcases set_design_region_cases o1 r hr x hlen with ⟨h1, h2⟩ | ⟨h1, h2⟩
  · rw [hdp] at h2
    exact ⟨_, r, h1, ⟨hb, hoff, hs, Or.inl rfl⟩, rfl, rfl, h2⟩
  · have hread : (Opt.desPts o).map (fun p => (unflatten (Opt.maskAssign (Opt.desIdx o1) x (flatten r)) : Grid Nx Ny ℝ) p.1 p.2) = x := by
      rw [← hdp, Opt.get_design_region, flatten_unflatten]
      exact maskAssign_read _ (desIdx_nodup o1) x hlen _
    refine ⟨_, unflatten (Opt.maskAssign (Opt.desIdx o1) x (flatten r)), h1, ⟨?_, fun i j hij => ?_, ?_, Or.inl rfl⟩, rfl, rfl, ?_⟩
    · intro i j
      by_cases hij : o.design_region i j = 1
      · refine hxb _ ?_
        have hmem := ((desPts_enumerates o).2 i j).2 hij
        have := List.mem_map_of_mem (f := fun p : Fin Nx × Fin Ny => (unflatten (Opt.maskAssign (Opt.desIdx o1) x (flatten r)) : Grid Nx Ny ℝ) p.1 p.2) hmem
        rwa [hread] at this
      · rw [unflatten_maskAssign_outside o1 x r i j (by rw [hd]; exact hij)]
        exact hb i j
    · rw [unflatten_maskAssign_outside o1 x r i j (by rw [hd]; exact hij), hoff i j hij]
    · exact ⟨⟨hs.at'.same.trans (SameProblem.putRho _ _), valid_putRho hs.at'.valid _, rfl, rfl, rfl⟩, hs.dl, hs.nonlin⟩
    · rw [hread, distance_self]
      exact mul_nonneg (by norm_num) (Real.sqrt_nonneg _)

/-- The value of the objective between two calls. -/
theorem LbfgsAt.value (h : Spec.KerrProblem o J args m κ κ1 R ω P P1 a) {env : Env} (he : env.Exact) (hb : env.backend = .pardiso) (hx : 1 < Nx) (hy : 1 < Ny) {F : Grid Nx Ny ℝ → ℝ}
    (hF : Spec.IsKerrObjective o J a F) {rho r : Grid Nx Ny ℝ} {o1 : Opt Nx Ny} (hs : LbfgsAt o args R rho r o1) :
    ∃ v o2, Opt.J_self env o1 = (.ok v, o2) ∧ |v - F r| ≤ P * Spec.fieldTol Nx Ny R ∧ LbfgsAt o args R rho r o2 ∧ o2.objfn_list = o1.objfn_list := by
  obtain ⟨hbx, hoff, hk, hc⟩ := hs
  have hnb := box_near h.room hbx
  rcases hc with hc | ⟨E, hc⟩
  · have hk1 : KerrAt o r o1 := by
      have : ({ o1 with fields_current := false } : Opt Nx Ny) = o1 := by rw [← hc]
      rwa [this] at hk
    obtain ⟨v, hv, hvF⟩ := h.value_self he hb hx hy hF hnb hk1
    obtain ⟨E, hE⟩ := h.cached_J he hb hx hy hnb hk1
    have hkeep := OptKeep.J_self env o1
    exact ⟨v, (Opt.J_self env o1).2, Prod.ext hv rfl, hvF, ⟨hbx, hoff, keep hk1 hkeep, Or.inr ⟨E, hE⟩⟩, hkeep.objfn_list⟩
  · obtain ⟨v, hv, hvF⟩ := h.cached_value hx hy hF hnb env (o1 := o1) hk.at'.same.objective hc
    exact ⟨v, o1, hv, hvF, ⟨hbx, hoff, hk, Or.inr ⟨E, hc⟩⟩, rfl⟩

/-- The evaluations of the objective and of the gradient. -/
theorem lbfgs_eval (h : Spec.KerrProblem o J args m κ κ1 R ω P P1 a) {env : Env} (he : env.Exact) (hb : env.backend = .pardiso) (hx : 1 < Nx) (hy : 1 < Ny) {F : Grid Nx Ny ℝ → ℝ}
    (hF : Spec.IsKerrObjective o J a F) {rho r : Grid Nx Ny ℝ} {o1 : Opt Nx Ny} (hs : LbfgsAt o args R rho r o1) (x : List ℝ) (hlx : x.length = (Opt.desPts o).length)
    (hxb : ∀ y ∈ x, 0 ≤ y ∧ y ≤ 1) :
    ∃ r' : Grid Nx Ny ℝ, Spec.distance x ((Opt.desPts o).map fun p => r' p.1 p.2) ≤ 1e-10 * Spec.len x ∧
      (∃ v o2, Opt.lbfgsCall env o1 (.objfn x) = (.ok [-v], o2) ∧ |v - F r'| ≤ P * Spec.fieldTol Nx Ny R ∧ LbfgsAt o args R rho r' o2 ∧ o2.objfn_list = o1.objfn_list) ∧
      ∃ (g : Grid Nx Ny ℝ) (o2 : Opt Nx Ny), Opt.lbfgsCall env o1 (.grad x) = (.ok ((Opt.desPts o).map fun p => -g p.1 p.2), o2) ∧ LbfgsAt o args R rho r' o2 ∧ o2.objfn_list = o1.objfn_list ∧
        ∀ i j, o.design_region i j = 1 → ∃ d, HasDerivAt (fun t => F (Spec.bump r' i j t)) d 0 ∧ |g i j - d| ≤ Spec.gradTol o m κ1 R ω P P1 := by
  obtain ⟨o2, r', hset, hs2, hst, hl2, hdist⟩ := LbfgsAt.set hs x hlx hxb
  have hk2 : KerrAt o r' o2 := by
    have : ({ o2 with fields_current := false } : Opt Nx Ny) = o2 := by rw [← hst]
    have h1 := hs2.2.2.1
    rwa [this] at h1
  refine ⟨r', hdist, ?_, ?_⟩
  · obtain ⟨v, o3, h1, h2, h3, h4⟩ := LbfgsAt.value h he hb hx hy hF hs2
    refine ⟨v, o3, ?_, h2, h3, h4.trans hl2⟩
    simp only [Opt.lbfgsCall]
    rw [hset]
    simp only [pySeq]
    rw [h1]
  · obtain ⟨g, hg, hgd⟩ := h.gradient he hb hx hy hF hs2.1 hk2
    obtain ⟨E, hE⟩ := h.cached_dJ he hb hx hy (box_near h.room hs2.1) hk2
    have hkeep := OptKeep.dJ_self env o2
    have hdj : Opt.dJ_self env o2 = (.ok g, (Opt.dJ_self env o2).2) := Prod.ext hg rfl
    refine ⟨g, (Opt.dJ_self env o2).2, ?_, ⟨hs2.1, hs2.2.1, keep hk2 hkeep, Or.inr ⟨E, hE⟩⟩, hkeep.objfn_list.trans hl2, hgd⟩
    simp only [Opt.lbfgsCall]
    rw [hset]
    simp only [pySeq]
    rw [hdj]
    simp only
    rw [show (fun p : Fin Nx × Fin Ny => -g p.1 p.2) = (fun b : ℝ => -b) ∘ fun p : Fin Nx × Fin Ny => g p.1 p.2 from rfl, ← List.map_map, desPts_read, Opt.get_design_region, Opt.get_design_region,
      desIdx_congr (hkeep.design.trans hk2.at'.same.design)]

/-- One call. -/
theorem lbfgsCall (h : Spec.KerrProblem o J args m κ κ1 R ω P P1 a) {env : Env} (he : env.Exact) (hb : env.backend = .pardiso) (hx : 1 < Nx) (hy : 1 < Ny) {F : Grid Nx Ny ℝ → ℝ}
    (hF : Spec.IsKerrObjective o J a F) {rho r : Grid Nx Ny ℝ} {o1 : Opt Nx Ny} (hs : LbfgsAt o args R rho r o1) (c : Opt.LbfgsCall) (hlx : (Spec.callArg c).length = (Opt.desPts o).length)
    (hxb : ∀ y ∈ Spec.callArg c, 0 ≤ y ∧ y ≤ 1) :
    ∃ res o2 r', Opt.lbfgsCall env o1 c = (.ok res, o2) ∧ LbfgsAt o args R rho r' o2 ∧ Spec.distance (Spec.callArg c) ((Opt.desPts o).map fun p => r' p.1 p.2) ≤ 1e-10 * Spec.len (Spec.callArg c) ∧
      ((∃ x, c = .callback x) ∧ (∃ v, o2.objfn_list = o1.objfn_list ++ [v] ∧ |v - F r| ≤ P * Spec.fieldTol Nx Ny R) ∨ (¬∃ x, c = .callback x) ∧ o2.objfn_list = o1.objfn_list) := by
  rcases c with x | x | x
  · obtain ⟨r', hd, ⟨v, o2, h1, -, h3, h4⟩, -⟩ := h.lbfgs_eval he hb hx hy hF hs x hlx hxb
    exact ⟨_, o2, r', h1, h3, hd, Or.inr ⟨(fun ⟨y, hc⟩ => nomatch hc), h4⟩⟩
  · obtain ⟨r', hd, -, ⟨g, o2, h1, h3, h4, -⟩⟩ := h.lbfgs_eval he hb hx hy hF hs x hlx hxb
    exact ⟨_, o2, r', h1, h3, hd, Or.inr ⟨(fun ⟨y, hc⟩ => nomatch hc), h4⟩⟩
  · obtain ⟨v, o2, h1, h2, h3, h4⟩ := LbfgsAt.value h he hb hx hy hF hs
    have hs3 : LbfgsAt o args R rho r { o2 with objfn_list := o2.objfn_list ++ [v] } := by
      obtain ⟨a1, a2, a3, a4⟩ := h3
      refine ⟨a1, a2, ⟨⟨⟨a3.at'.same.objective, a3.at'.same.W, a3.at'.same.design, a3.at'.same.eps_m, a3.at'.same.eta, a3.at'.same.beta, a3.at'.same.shift, a3.at'.same.omega, a3.at'.same.L0,
        a3.at'.same.NPML, a3.at'.same.pol, a3.at'.same.src, a3.at'.same.xrange, a3.at'.same.yrange⟩, a3.at'.valid, rfl, a3.at'.rho, a3.at'.eps⟩, a3.dl, a3.nonlin⟩, ?_⟩
      exact a4
    obtain ⟨o3, r', hset, hs4, hst, hl, hdist⟩ := LbfgsAt.set hs3 x hlx hxb
    have hn : o3.max_ind_shift = none := hs4.2.2.1.at'.same.shift.trans h.shift
    let o4 : Opt Nx Ny := { o3 with src_amplitudes := o3.src_amplitudes ++ [gridMax fun i j => ‖o3.simulation.src i j‖], fields_current := false }
    have hamp : Opt.set_source_amplitude env o3 = (.ok (), o4) := by
      unfold Opt.set_source_amplitude
      simp only [hn, o4]
    refine ⟨[], o4, r', ?_, ?_, hdist, Or.inl ⟨⟨x, rfl⟩, v, ?_, h2⟩⟩
    · simp only [Opt.lbfgsCall]
      rw [h1]
      simp only [pySeq]
      rw [hset]
      simp only
      rw [hamp]
    · obtain ⟨a1, a2, a3, -⟩ := hs4
      exact ⟨a1, a2, ⟨⟨⟨a3.at'.same.objective, a3.at'.same.W, a3.at'.same.design, a3.at'.same.eps_m, a3.at'.same.eta, a3.at'.same.beta, a3.at'.same.shift, a3.at'.same.omega, a3.at'.same.L0,
        a3.at'.same.NPML, a3.at'.same.pol, a3.at'.same.src, a3.at'.same.xrange, a3.at'.same.yrange⟩, a3.at'.valid, rfl, a3.at'.rho, a3.at'.eps⟩, a3.dl, a3.nonlin⟩, Or.inl rfl⟩
    · show o3.objfn_list = _
      rw [hl]
      show o2.objfn_list ++ [v] = _
      rw [h4]

theorem lbfgsCalls (h : Spec.KerrProblem o J args m κ κ1 R ω P P1 a) {env : Env} (he : env.Exact) (hb : env.backend = .pardiso) (hx : 1 < Nx) (hy : 1 < Ny) {F : Grid Nx Ny ℝ → ℝ}
    (hF : Spec.IsKerrObjective o J a F) {rho : Grid Nx Ny ℝ} (cs : List Opt.LbfgsCall) (hcs : ∀ c ∈ cs, (Spec.callArg c).length = (Opt.desPts o).length ∧ ∀ y ∈ Spec.callArg c, 0 ≤ y ∧ y ≤ 1) :
    ∀ (x0 : List ℝ) {r : Grid Nx Ny ℝ} {o1 : Opt Nx Ny}, LbfgsAt o args R rho r o1 → Spec.distance x0 ((Opt.desPts o).map fun p => r p.1 p.2) ≤ 1e-10 * Spec.len x0 →
    ∃ o2 r' l, Opt.lbfgsCalls env cs o1 = (.ok (), o2) ∧ LbfgsAt o args R rho r' o2 ∧ o2.objfn_list = o1.objfn_list ++ l ∧
      List.Forall₂ (fun x v => ∃ q, Spec.NearVector o.design_region rho (Opt.desPts o) x q ∧ |v - F q| ≤ P * Spec.fieldTol Nx Ny R) (Spec.beforeCallbacks x0 cs) l := by
  induction cs with
  | nil => exact fun x0 {r o1} hs _ => ⟨o1, r, [], rfl, hs, by simp, List.Forall₂.nil⟩
  | cons c cs ih =>
    intro x0 r o1 hs hd0
    obtain ⟨h1, h2⟩ := hcs c List.mem_cons_self
    obtain ⟨res, o2, r', e1, e2, e3, e4⟩ := h.lbfgsCall he hb hx hy hF hs c h1 h2
    obtain ⟨o3, r'', l, f1, f2, f3, f4⟩ := ih (fun c' hc' => hcs c' (List.mem_cons_of_mem _ hc')) (Spec.callArg c) e2 e3
    have hrun : Opt.lbfgsCalls env (c :: cs) o1 = (.ok (), o3) := by
      show pySeq (Opt.lbfgsCall env o1 c) _ = _
      rw [e1]
      exact f1
    rcases e4 with ⟨⟨x, rfl⟩, v, hl, hv⟩ | ⟨hc, hl⟩
    · refine ⟨o3, r'', v :: l, hrun, f2, by rw [f3, hl, List.append_assoc, List.singleton_append], List.Forall₂.cons ⟨r, ⟨hs.1, hs.2.1, hd0⟩, hv⟩ f4⟩
    · refine ⟨o3, r'', l, hrun, f2, by rw [f3, hl], ?_⟩
      rcases c with x | x | x
      · exact f4
      · exact f4
      · exact absurd ⟨x, rfl⟩ hc

/-! ## Start -/

theorem start (h : Spec.KerrProblem o J args m κ κ1 R ω P P1 a) {x : Grid Nx Ny ℝ} (hrho : o.simulation.rho = some (some x))
    (heps : o.simulation.eps_r = fun i j => ((rho2eps x o.eps_m o.W o.eta o.beta i j : ℝ) : ℂ)) : KerrAt o x { o with fields_current := false } :=
  ⟨⟨⟨rfl, rfl, rfl, rfl, rfl, rfl, rfl, rfl, rfl, rfl, rfl, rfl, rfl, rfl⟩, h.valid, rfl, hrho, heps⟩, rfl, rfl⟩

end Spec.KerrProblem

end Angler
