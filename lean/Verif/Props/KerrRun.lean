import Verif.Lemmas.KerrRun
import Verif.Props.GradientApprox
import Verif.Props.AscentConverge

/-! # C88 — optimising weakly nonlinear devices

For objectives of the nonlinear field every number the optimiser works with comes from a field that the nonlinear solver has stopped improving at a threshold.  On weakly nonlinear devices the values
and gradients are nevertheless those of the exact Kerr fields up to explicit small errors, in every pass of a run. -/

namespace Angler

open Matrix Filter Topology

variable {Nx Ny : ℕ}

/-! ## The property -/

/-- How well the code knows the objective `F` and its derivatives at a density: the value it works with and the gradient it works with, on the pixels of the design region. -/
def Spec.KnowsTo (design : Grid Nx Ny ℝ) (F : Grid Nx Ny ℝ → ℝ) (tv tg : ℝ) (x : Grid Nx Ny ℝ) (v : ℝ) (g : Grid Nx Ny ℝ) : Prop :=
  |v - F x| ≤ tv ∧ ∀ i j, design i j = 1 → ∃ d, HasDerivAt (fun t => F (Spec.bump x i j t)) d 0 ∧ |g i j - d| ≤ tg

/-- **C88, one evaluation.** On a weakly nonlinear device the objective of the exact nonlinear fields is a well-defined function `F` of the density, and the value and the gradient the code computes
differ from `F` and its derivatives by at most explicit tolerances, which are proportional to the threshold `1e-10` of the nonlinear solver. -/
theorem C88_evaluation (env : Env) (he : env.Exact) (hb : env.backend = .pardiso) (hx : 1 < Nx) (hy : 1 < Ny) (o : Opt Nx Ny) (J : ObjFn Nx Ny) (args : List ObjArg) (m κ κ1 R ω P P1 a : ℝ)
    (h : Spec.KerrProblem o J args m κ κ1 R ω P P1 a) (rho : Grid Nx Ny ℝ) (hbox : Spec.Box rho) (hrho : o.simulation.rho = some (some rho))
    (heps : o.simulation.eps_r = fun i j => ((rho2eps rho o.eps_m o.W o.eta o.beta i j : ℝ) : ℂ)) (hst : o.fields_current = false) :
    ∃ F, Spec.IsKerrObjective o J a F ∧ ∃ v g, (Opt.compute_J env o).1 = .ok v ∧ (Opt.compute_dJ env o).1 = .ok g ∧
      Spec.KnowsTo o.design_region F (P * Spec.fieldTol Nx Ny R) (Spec.gradTol o m κ1 R ω P P1) rho v g := by
  obtain ⟨F, hF⟩ := h.exists_objective hx hy
  have hs : KerrAt o rho o := by
    have := h.start hrho heps
    have e : ({ o with fields_current := false } : Opt Nx Ny) = o := by rw [← hst]
    rwa [e] at this
  obtain ⟨v, hv, hvF⟩ := h.value_self he hb hx hy hF (box_near h.room hbox) hs
  obtain ⟨g, hg, hgd⟩ := h.gradient he hb hx hy hF hbox hs
  exact ⟨F, hF, v, g, hv, hg, hvF, hgd⟩

/-- **C88, gradient ascent.** `run('gd')` succeeds, and every one of its passes moves by the step size times a gradient that is within tolerance of the derivatives of the exact objective at the
current density; the recorded values are within tolerance of the objective at the densities passed through. -/
theorem C88_gd (env : Env) (he : env.Exact) (hb : env.backend = .pardiso) (hx : 1 < Nx) (hy : 1 < Ny) (o : Opt Nx Ny) (J : ObjFn Nx Ny) (args : List ObjArg) (m κ κ1 R ω P P1 a : ℝ)
    (h : Spec.KerrProblem o J args m κ κ1 R ω P P1 a) (F : Grid Nx Ny ℝ → ℝ) (hF : Spec.IsKerrObjective o J a F) (rho : Grid Nx Ny ℝ) (hbox : Spec.Box rho)
    (hrho : o.simulation.rho = some (some rho)) (heps : o.simulation.eps_r = fun i j => ((rho2eps rho o.eps_m o.W o.eta o.beta i j : ℝ) : ℂ)) (n : ℕ) (s b1 b2 : ℝ)
    (calls : List Opt.LbfgsCall) (y : List ℝ) :
    ∃ (o' : Opt Nx Ny) (r g : ℕ → Grid Nx Ny ℝ) (v : ℕ → ℝ), Opt.run env "gd" n s b1 b2 calls y o = (.ok (), o') ∧ r 0 = rho ∧
      (∀ k < n, Spec.KnowsTo o.design_region F (P * Spec.fieldTol Nx Ny R) (Spec.gradTol o m κ1 R ω P P1) (r k) (v k) (g k) ∧
        r (k + 1) = Spec.move o.design_region (r k) fun i j => s * g k i j) ∧
      o'.simulation.rho = some (some (r n)) ∧ o'.simulation.eps_r = (fun i j => ((rho2eps (r n) o.eps_m o.W o.eta o.beta i j : ℝ) : ℂ)) ∧
      o'.objfn_list = o.objfn_list ++ (List.range n).map v := by
  obtain ⟨o', r, g, v, h1, h2, h3, h4, h5, h6⟩ := h.run_GD he hb hx hy hF s n hbox (h.start hrho heps)
  refine ⟨o', r, g, v, ?_, h2, fun k hk => ⟨h4 k hk, h3 k hk⟩, h5.at'.rho, h5.simFor.eps, h6⟩
  rw [run_gd hrho lower_gd]
  exact h1

/-- **C88, Adam.** The same for `run('adam')`: every pass moves by the step size times the Adam direction of the gradients so far, and all of these are within tolerance of the exact derivatives. -/
theorem C88_adam (env : Env) (he : env.Exact) (hb : env.backend = .pardiso) (hx : 1 < Nx) (hy : 1 < Ny) (o : Opt Nx Ny) (J : ObjFn Nx Ny) (args : List ObjArg) (m κ κ1 R ω P P1 a : ℝ)
    (h : Spec.KerrProblem o J args m κ κ1 R ω P P1 a) (F : Grid Nx Ny ℝ → ℝ) (hF : Spec.IsKerrObjective o J a F) (rho : Grid Nx Ny ℝ) (hbox : Spec.Box rho)
    (hrho : o.simulation.rho = some (some rho)) (heps : o.simulation.eps_r = fun i j => ((rho2eps rho o.eps_m o.W o.eta o.beta i j : ℝ) : ℂ)) (n : ℕ) (s b1 b2 : ℝ)
    (hb1 : 0 ≤ b1 ∧ b1 < 1) (hb2 : 0 ≤ b2 ∧ b2 < 1) (calls : List Opt.LbfgsCall) (y : List ℝ) :
    ∃ (o' : Opt Nx Ny) (r g : ℕ → Grid Nx Ny ℝ) (v : ℕ → ℝ), Opt.run env "adam" n s b1 b2 calls y o = (.ok (), o') ∧ r 0 = rho ∧
      (∀ k < n, Spec.KnowsTo o.design_region F (P * Spec.fieldTol Nx Ny R) (Spec.gradTol o m κ1 R ω P P1) (r k) (v k) (g k) ∧
        r (k + 1) = Spec.move o.design_region (r k) fun i j => s * Spec.adamStep b1 b2 g k i j) ∧
      o'.simulation.rho = some (some (r n)) ∧ o'.simulation.eps_r = (fun i j => ((rho2eps (r n) o.eps_m o.W o.eta o.beta i j : ℝ) : ℂ)) ∧
      o'.objfn_list = o.objfn_list ++ (List.range n).map v := by
  obtain ⟨o', r, g, v, h1, -, h2, h3, h4, h5, h6⟩ := h.loopADAM he hb hx hy hF s hb1 hb2 n 0 (fun _ _ _ => 0) (fun _ _ => 0, fun _ _ => 0) (fun _ _ => ⟨rfl, rfl⟩) (fun _ => rfl) hbox (h.start hrho heps)
  simp only [zero_add] at h5 h6
  refine ⟨o', r, g, v, ?_, h2, fun k hk => ⟨h4 k k.zero_le (by omega), h3 k k.zero_le (by omega)⟩, h5.at'.rho, h5.simFor.eps, h6⟩
  rw [run_adam hrho lower_adam]
  exact h1

/-- **C88, L-BFGS.** Let `L` list the design pixels and let `fmin_l_bfgs_b` make any calls with vectors of that length within the bounds `[0, 1]` it was given.  Then `run('LBFGS')` succeeds, its final
density is the vector `y` returned by `fmin_l_bfgs_b` (up to the relative tolerance `1e-10` of `_set_design_region`), and it records one value per callback: the objective, within tolerance, at the
vector of the call before it.  In every state in between, `_objfn` and `_grad` return the negated objective and its negated gradient at the vector they are given, within tolerance. -/
theorem C88_lbfgs (env : Env) (he : env.Exact) (hb : env.backend = .pardiso) (hx : 1 < Nx) (hy : 1 < Ny) (o : Opt Nx Ny) (J : ObjFn Nx Ny) (args : List ObjArg) (m κ κ1 R ω P P1 a : ℝ)
    (h : Spec.KerrProblem o J args m κ κ1 R ω P P1 a) (F : Grid Nx Ny ℝ → ℝ) (hF : Spec.IsKerrObjective o J a F) (rho : Grid Nx Ny ℝ) (hbox : Spec.Box rho)
    (hrho : o.simulation.rho = some (some rho)) (heps : o.simulation.eps_r = fun i j => ((rho2eps rho o.eps_m o.W o.eta o.beta i j : ℝ) : ℂ)) (n : ℕ) (s b1 b2 : ℝ) :
    ∃ L : List (Fin Nx × Fin Ny), Spec.Enumerates o.design_region L ∧
      ∀ calls : List Opt.LbfgsCall, (∀ c ∈ calls, (Spec.callArg c).length = L.length ∧ ∀ t ∈ Spec.callArg c, 0 ≤ t ∧ t ≤ 1) →
      ∀ y : List ℝ, y.length = L.length → (∀ t ∈ y, 0 ≤ t ∧ t ≤ 1) →
      (∃ o' r l, Opt.run env "LBFGS" n s b1 b2 calls y o = (.ok (), o') ∧ Spec.NearVector o.design_region rho L y r ∧ o'.simulation.rho = some (some r) ∧
        o'.simulation.eps_r = (fun i j => ((rho2eps r o.eps_m o.W o.eta o.beta i j : ℝ) : ℂ)) ∧ o'.objfn_list = o.objfn_list ++ l ∧
        List.Forall₂ (fun x v => ∃ q, Spec.NearVector o.design_region rho L x q ∧ |v - F q| ≤ P * Spec.fieldTol Nx Ny R)
          (Spec.beforeCallbacks (L.map fun p => rho p.1 p.2) calls) l) ∧
      ∃ o1, Opt.lbfgsCalls env calls { o with fields_current := false } = (.ok (), o1) ∧ ∃ r v g, Spec.NearVector o.design_region rho L y r ∧
        (Opt.lbfgsCall env o1 (.objfn y)).1 = .ok [-v] ∧ (Opt.lbfgsCall env o1 (.grad y)).1 = .ok (L.map fun p => -g p.1 p.2) ∧
        Spec.KnowsTo o.design_region F (P * Spec.fieldTol Nx Ny R) (Spec.gradTol o m κ1 R ω P P1) r v g := by
  refine ⟨Opt.desPts o, desPts_enumerates o, fun calls hc y hy1 hy2 => ?_⟩
  have hs0 : Spec.KerrProblem.LbfgsAt o args R rho rho { o with fields_current := false } := ⟨hbox, fun _ _ _ => rfl, h.start hrho heps, Or.inl rfl⟩
  obtain ⟨o1, r1, l, e1, e2, e3, e4⟩ := h.lbfgsCalls he hb hx hy hF calls hc ((Opt.desPts o).map fun p => rho p.1 p.2) hs0 (by
    rw [distance_self]
    exact mul_nonneg (by norm_num) (Real.sqrt_nonneg _))
  obtain ⟨o2, r2, f1, f2, -, f3, f4⟩ := Spec.KerrProblem.LbfgsAt.set e2 y hy1 hy2
  obtain ⟨r', g0, ⟨v, o3, g1, g2, g3, -⟩, g, o4, k1, -, -, k4⟩ := h.lbfgs_eval he hb hx hy hF e2 y hy1 hy2
  refine ⟨⟨o2, r2, l, ?_, ⟨f2.1, f2.2.1, f4⟩, f2.2.2.1.at'.rho, f2.2.2.1.simFor.eps, f3.trans e3, e4⟩, o1, e1, r', v, g, ⟨g3.1, g3.2.1, g0⟩, by rw [g1], by rw [k1], g2, k4⟩
  rw [run_lbfgs hrho lower_lbfgs]
  unfold Opt.run_LBFGS
  rw [e1]
  exact f1

/-- **C88, `check_deriv`.** With increments up to the room around the box, `check_deriv` returns for every draw the gradient entry at the drawn design pixel, within tolerance of the derivative of the
exact objective, and a difference quotient that differs from that of the exact objective by at most twice the tolerance of the values divided by the increment. -/
theorem C88_check_deriv (env : Env) (he : env.Exact) (hb : env.backend = .pardiso) (hx : 1 < Nx) (hy : 1 < Ny) (o : Opt Nx Ny) (J : ObjFn Nx Ny) (args : List ObjArg) (m κ κ1 R ω P P1 a : ℝ)
    (h : Spec.KerrProblem o J args m κ κ1 R ω P P1 a) (F : Grid Nx Ny ℝ → ℝ) (hF : Spec.IsKerrObjective o J a F) (rho : Grid Nx Ny ℝ) (hbox : Spec.Box rho)
    (hrho : o.simulation.rho = some (some rho)) :
    ∃ L : List (Fin Nx × Fin Ny), Spec.Enumerates o.design_region L ∧ ∀ (d : ℝ) (picks : List ℕ), d ≠ 0 → |d| < a → (∀ p ∈ picks, p < L.length) →
      ∃ res, (Opt.check_deriv env picks d o).1 = .ok res ∧ List.Forall₂ (fun p r => ∃ i j D, L[p]? = some (i, j) ∧ HasDerivAt (fun t => F (Spec.bump rho i j t)) D 0 ∧
        |r.1 - D| ≤ Spec.gradTol o m κ1 R ω P P1 ∧ |r.2 - (F (Spec.bump rho i j d) - F rho) / d| ≤ 2 * (P * Spec.fieldTol Nx Ny R) / |d|) picks res := by
  refine ⟨Opt.desPts o, desPts_enumerates o, fun d picks hd hda hp => ?_⟩
  have hs1 : KerrAt o rho { Opt.putRho o rho with fields_current := false } := ⟨⟨SameProblem.putRho o rho, valid_putRho h.valid rho, rfl, rfl, rfl⟩, rfl, rfl⟩
  obtain ⟨g, hg, hgd⟩ := h.gradient he hb hx hy hF hbox hs1
  have hnb := box_near h.room hbox
  obtain ⟨E, hE⟩ := h.cached_dJ he hb hx hy hnb hs1
  have hk := OptKeep.dJ_self env { Opt.putRho o rho with fields_current := false }
  have hg1 : (Opt.dJ_self env { Opt.putRho o rho with fields_current := false }).1 = .ok g := hg
  unfold Opt.check_deriv
  rw [hrho]
  simp only
  generalize Opt.dJ_self env { Opt.putRho o rho with fields_current := false } = Q at hk hg1 hE ⊢
  obtain ⟨r1, o2⟩ := Q
  simp only at hk hg1 hE
  subst hg1
  simp only [pySeq]
  obtain ⟨v0, hv0, hvF⟩ := h.cached_value hx hy hF hnb env (o1 := o2) (hk.objective.trans rfl) hE
  rw [hv0]
  simp only
  have hs2 := Spec.KerrProblem.keep hs1 hk
  obtain ⟨res, hr1, hr2⟩ := h.checkPts he hb hx hy hF g v0 d hd (fun i j => by
    intro i' j'
    have h2 := abs_lt.1 hda
    unfold Spec.bump
    split_ifs
    · exact ⟨by linarith [(hbox i' j').1, h2.1], by linarith [(hbox i' j').2, h2.2]⟩
    · rw [add_zero]; exact hnb i' j') picks hp o2 hs2
  refine ⟨res, hr1, hr2.imp ?_⟩
  rintro p ⟨r1, r2⟩ ⟨i, j, hpt, rfl, v, rfl, hv⟩
  obtain ⟨D, hD, hgD⟩ := hgd i j (((desPts_enumerates o).2 i j).1 (List.mem_of_getElem? hpt))
  refine ⟨i, j, D, hpt, hD, hgD, ?_⟩
  rw [← sub_div, abs_div]
  refine div_le_div_of_nonneg_right ?_ (abs_nonneg d)
  have : v - v0 - (F (Spec.bump rho i j d) - F rho) = (v - F (Spec.bump rho i j d)) - (v0 - F rho) := by ring
  rw [this]
  refine (abs_sub _ _).trans ?_
  linarith

/-! ## A concrete case -/

theorem tanh_half_ge : (2 / 5 : ℝ) ≤ Real.tanh (1 / 2) := by
  rw [Real.tanh_eq_sinh_div_cosh, le_div_iff₀ (Real.cosh_pos _), Real.sinh_eq, Real.cosh_eq]
  have h1 : Real.exp (1 / 2) * Real.exp (-(1 / 2)) = 1 := by rw [← Real.exp_add]; simp
  have h2 : Real.exp (1 / 2) * Real.exp (1 / 2) = Real.exp 1 := by rw [← Real.exp_add]; norm_num
  have h3 : 0 < Real.exp (-(1 / 2) : ℝ) := Real.exp_pos _
  have h4 : Real.exp (1 / 2) = Real.exp 1 * Real.exp (-(1 / 2)) := by rw [← h2, mul_assoc, h1, mul_one]
  have h5 : (7 / 3 : ℝ) ≤ Real.exp 1 := by
    have h6 : (5 / 4 : ℝ) ≤ Real.exp (1 / 4) := by linarith [Real.add_one_le_exp (1 / 4 : ℝ)]
    have h7 : Real.exp 1 = Real.exp (1 / 4) ^ 4 := by rw [← Real.exp_nat_mul]; norm_num
    rw [h7]
    calc (7 / 3 : ℝ) ≤ (5 / 4) ^ 4 := by norm_num
      _ ≤ _ := by gcongr
  rw [h4]
  nlinarith

theorem drhob_le (r : ℝ) : |drhob_drhot r (1 / 2) 1| ≤ 5 / 4 := by
  rw [abs_of_pos (drhob_drhot_pos r)]
  have h1 := tanh_half_ge
  unfold drhob_drhot
  norm_num
  rw [div_le_iff₀ (by linarith)]
  nlinarith [sq_nonneg (Real.tanh (r - 1 / 2))]

theorem rhob_ge {r : ℝ} (hr : -(1 / 100) < r) : -(1 / 80) ≤ rhot2rhob r (1 / 2) 1 := by
  obtain ⟨h0, -, hm, -⟩ := C01_projection_physical (1 / 2) 1 one_pos
  rcases le_or_gt 0 r with h | h
  · have : rhot2rhob 0 (1 / 2) 1 ≤ rhot2rhob r (1 / 2) 1 := hm.monotone h
    rw [h0] at this
    linarith
  · have hl := (convex_univ (E := ℝ) (𝕜 := ℝ)).norm_image_sub_le_of_norm_hasDerivWithin_le (f := fun x => rhot2rhob x (1 / 2) 1) (f' := fun x => drhob_drhot x (1 / 2) 1) (C := 5 / 4)
      (fun x _ => (C02_projection_derivative (1 / 2) 1 x one_ne_zero).hasDerivWithinAt) (fun x _ => by rw [Real.norm_eq_abs]; exact drhob_le x) (Set.mem_univ r) (Set.mem_univ 0)
    simp only [h0, zero_sub, norm_neg, Real.norm_eq_abs] at hl
    rw [abs_of_neg h] at hl
    have := (abs_le.1 hl).1
    linarith

/-- The Kerr device `copt` with a source of strength at most 1/1000 and the total intensity as objective. -/
theorem copt_kerrProblem (P : ℕ) (src : Grid Nx Ny ℂ) (hs : ∀ i j, ‖src i j‖ ≤ 1 / 1000) (h0 : src ≠ 0) :
    Spec.KerrProblem (copt P src (intensityJ Nx Ny)) (intensityJ Nx Ny) [⟨.Ez, true, .kerr_Ez⟩] (17 / 18) 3 0 (18 / 1000) 5 (2 * (Nx * Ny) * (18 / 1000)) (2 * (Nx * Ny)) (1 / 100) := by
  have hE : (1 : ℝ) ^ 2 * EPSILON_0 * (1 / EPSILON_0) = 1 := by rw [one_pow, one_mul, mul_one_div_cancel EPSILON_0_pos.ne']
  have h9 : (8 : ℝ) / (MU_0 * (1 / EPSILON_0) * (3 / ETA_0) ^ 2) = 8 / 9 := by
    have h1 : ETA_0 ^ 2 * (3 / ETA_0) ^ 2 = 9 := by
      have := ETA_0_pos.ne'
      field_simp; norm_num
    rw [mu0_norm, h1]
  have hmar : ∀ s : Sim Nx Ny, s.omega = 1 → s.L0 = 1 / EPSILON_0 → s.dl = 3 / ETA_0 → Spec.margin s (17 / 18) = 1 / 18 := by
    intro s e1 e2 e3
    unfold Spec.margin
    rw [e1, e2, e3, hE, h9]
    norm_num
  refine
    { obj := rfl
      kinds := fun b hb => by rw [List.mem_singleton] at hb; rw [hb]; rfl
      nonempty := by simp
      valid := { cksim_valid P 1 (fun _ _ => 1) src with }
      pol := rfl
      beta := one_ne_zero
      shift := rfl
      mask := fun _ _ => Or.inr rfl
      filter := fun i j _ => filterSym_one (fun _ _ => Or.inr rfl) rfl
      source := h0
      room := by norm_num
      weak := fun x hx => ?_
      rate := ?_
      slope := fun e e' i j => ?_
      chain := fun x _ i0 j0 i j => ?_
      autograd := fun y _ => intensityJ_autograd y
      size := fun (y : Fin 1 → Grid Nx Ny ℂ) hy => ?_
      lip := by positivity
      smooth := fun (y z : Fin 1 → Grid Nx Ny ℂ) hy hz => ?_ }
  · have hm := hmar (Spec.simAt (copt P src (intensityJ Nx Ny)) x) rfl rfl rfl
    refine ⟨fun i j => ?_, ⟨fsim_dl_pos P (fun _ _ => 1) src, ?_⟩, fun n hn => ?_, fun i j => ?_, fun i j => ?_, ?_⟩
    · show (17 / 18 : ℝ) ≤ (((rho2eps x 5 1 (1 / 2) 1 i j : ℝ) : ℂ)).re
      rw [Complex.ofReal_re]
      unfold rho2eps rhob2eps
      simp only [rho2rhot_one]
      linarith [rhob_ge (hx i j).1]
    · show 8 / (MU_0 * (1 / EPSILON_0) * (3 / ETA_0) ^ 2) < (1 : ℝ) ^ 2 * EPSILON_0 * (1 / EPSILON_0) * (17 / 18)
      rw [hE, h9]
      norm_num
    · obtain rfl : n = ⟨1, fun _ _ => 1, none⟩ := List.mem_singleton.1 hn
      exact fun i j => ⟨by norm_num, trivial⟩
    · have : Spec.kerrSum (Spec.simAt (copt P src (intensityJ Nx Ny)) x).nonlinearity (Spec.simAt (copt P src (intensityJ Nx Ny)) x).eps_r i j = 3 := by
        simp [Spec.kerrSum, Spec.kerrCoef, Spec.simAt, copt, cksim, Sim.set_eps_r]
      rw [this]
      norm_num
    · rw [hm]
      show (1 : ℝ) * ‖src i j‖ ≤ _
      linarith [hs i j]
    · rw [hm]
      show 2 * ((1 : ℝ) ^ 2 * EPSILON_0 * (1 / EPSILON_0)) * 3 * (18 / 1000) ^ 2 < 1 / 18
      rw [hE]
      norm_num
  · unfold Spec.bornRate
    rw [hmar (copt P src (intensityJ Nx Ny)).simulation rfl rfl rfl]
    show 2 * ((1 : ℝ) ^ 2 * EPSILON_0 * (1 / EPSILON_0)) * 3 * (18 / 1000) ^ 2 / (1 / 18) ≤ 1 / 2
    rw [hE]
    norm_num
  · simp [Spec.kerrSum, Spec.kerrCoef, copt, cksim]
  · show |(5 - 1 : ℝ) * drhob_drhot (rho2rhot x 1 i j) (1 / 2) 1 * ((1 : Mat (Nx * Ny) ℝ) (finProdFinEquiv (i0, j0)) (finProdFinEquiv (i, j)) * 1)| ≤ 5
    have h1 := drhob_le (rho2rhot x 1 i j)
    have h2 : |(1 : Mat (Nx * Ny) ℝ) (finProdFinEquiv (i0, j0)) (finProdFinEquiv (i, j))| ≤ 1 := by
      rw [Matrix.one_apply]
      split_ifs <;> simp
    rw [mul_one, abs_mul, abs_mul]
    calc _ ≤ |(5 - 1 : ℝ)| * (5 / 4) * 1 := by gcongr
      _ = 5 := by norm_num
  · calc ∑ k : Fin 1, ∑ i, ∑ j, ‖(2 : ℂ) * (starRingEnd ℂ) (y 0 i j)‖ ≤ ∑ _k : Fin 1, ∑ _i : Fin Nx, ∑ _j : Fin Ny, (2 * (18 / 1000) : ℝ) := by
          refine Finset.sum_le_sum fun k _ => Finset.sum_le_sum fun i _ => Finset.sum_le_sum fun j _ => ?_
          rw [norm_mul, RCLike.norm_conj, Complex.norm_ofNat]
          exact mul_le_mul_of_nonneg_left ((norm_entry_le _ i j).trans (hy (0 : Fin 1))) (by norm_num)
      _ = 2 * (Nx * Ny) * (18 / 1000) := by simp; ring
  · calc ∑ k : Fin 1, ∑ i, ∑ j, ‖(2 : ℂ) * (starRingEnd ℂ) (y 0 i j) - 2 * (starRingEnd ℂ) (z 0 i j)‖ ≤ ∑ _k : Fin 1, ∑ _i : Fin Nx, ∑ _j : Fin Ny, (2 * ‖y - z‖ : ℝ) := by
          refine Finset.sum_le_sum fun k _ => Finset.sum_le_sum fun i _ => Finset.sum_le_sum fun j _ => ?_
          rw [← mul_sub, ← map_sub, norm_mul, RCLike.norm_conj, Complex.norm_ofNat]
          exact mul_le_mul_of_nonneg_left ((norm_entry_le (y 0 - z 0) i j).trans (norm_le_pi_norm (y - z) (0 : Fin 1))) (by norm_num)
      _ = 2 * (Nx * Ny) * ‖y - z‖ := by simp; ring

/-- A point source of strength 1/1000 anywhere on any grid of at least 2 × 2 pixels with any absorbing layers: every run of gradient ascent on the total nonlinear intensity is an ascent with nearly exact
gradients. -/
example (env : Env) (he : env.Exact) (hb : env.backend = .pardiso) (hx : 1 < Nx) (hy : 1 < Ny) (P : ℕ) (p : Fin Nx) (q : Fin Ny) (n : ℕ) (s : ℝ) :
    let o : Opt Nx Ny := copt P (fun i j => if i = p ∧ j = q then 1 / 1000 else 0) (intensityJ Nx Ny)
    ∃ F, Spec.IsKerrObjective o (intensityJ Nx Ny) (1 / 100) F ∧ ∃ (o' : Opt Nx Ny) (r g : ℕ → Grid Nx Ny ℝ) (v : ℕ → ℝ), Opt.run env "gd" n s 0 0 [] [] o = (.ok (), o') ∧ r 0 = (fun _ _ => 0) ∧
      (∀ k < n, Spec.KnowsTo (fun _ _ => 1) F (2 * (Nx * Ny) * (18 / 1000) * Spec.fieldTol Nx Ny (18 / 1000))
        (Spec.gradTol o (17 / 18) 0 (18 / 1000) 5 (2 * (Nx * Ny) * (18 / 1000)) (2 * (Nx * Ny))) (r k) (v k) (g k) ∧ r (k + 1) = Spec.move (fun _ _ => 1) (r k) fun i j => s * g k i j) := by
  intro o
  have hp := copt_kerrProblem (Nx := Nx) (Ny := Ny) P (fun i j => if i = p ∧ j = q then 1 / 1000 else 0) (fun i j => by split_ifs <;> simp) (fun h => by
    have := congrFun (congrFun h p) q
    simp at this)
  obtain ⟨F, hF⟩ := hp.exists_objective hx hy
  obtain ⟨o', r, g, v, h1, h2, h3, -⟩ := C88_gd env he hb hx hy o _ _ _ _ _ _ _ _ _ _ hp F hF (fun _ _ => 0) (fun _ _ => ⟨le_rfl, zero_le_one⟩) rfl (by
    show (fun _ _ => (1 : ℂ)) = fun i j => ((rho2eps (fun _ _ => 0) 5 1 (1 / 2) 1 i j : ℝ) : ℂ)
    rw [rho2eps_zero]
    simp) n s 0 0 [] []
  exact ⟨F, hF, o', r, g, v, h1, h2, h3⟩

end Angler
