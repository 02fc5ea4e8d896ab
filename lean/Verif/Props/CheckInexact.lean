import Verif.Props.CheckDeriv
import Verif.Props.BornInexact
import Verif.Props.Plots
import Verif.Props.Projection
import Verif.Lemmas.SymAscent

/-! # C115: `check_deriv` with an inexact linear solver -/

namespace Angler

open Matrix Filter Topology

variable {Nx Ny : ℕ}

/-- What `check_deriv` returns, whatever the linear solver does. -/
theorem check_deriv_any (env : Env) (o : Opt Nx Ny) (J : ObjFn Nx Ny) (args : List ObjArg) (rho : Grid Nx Ny ℝ) (hS : Spec.LinearEz env o J args rho)
    (hargs : ∀ a ∈ args, ∃ c, c ∈ ["Ez", "Hx", "Hy"] ∧ ObjArg.init c false = .ok a) (hlen : args.length = J.arity) :
    ∃ g, (Opt.compute_dJ env o).1 = .ok g ∧ (∀ rho', (Opt.compute_J env o (some (Spec.simAt o rho'))).1 = .ok (linObj env o J args hlen rho')) ∧
      ∀ (d : ℝ) (picks : List ℕ), d ≠ 0 → (∀ p ∈ picks, p < (Opt.desPts o).length) → ∃ res, (Opt.check_deriv env picks d o).1 = .ok res ∧
        List.Forall₂ (fun p r => ∃ i j, (Opt.desPts o)[p]? = some (i, j) ∧ r = (g i j, (linObj env o J args hlen (Spec.bump rho i j d) - linObj env o J args hlen rho) / d)) picks res := by
  have ha := args_of_init hargs
  have hmk := (objective_init_ok hS.obj).2
  have hL : Spec.LinearObjective o J args o.simulation := ⟨hS.obj, fun a h => (ha a h).1, fun a h => by
    rw [hS.pol]
    have := (ha a h).2.1
    revert this
    cases a.component <;> intro h <;> trivial⟩
  have hF : ∀ rho', (Opt.compute_J env o (some (Spec.simAt o rho'))).1 = .ok (Spec.freshJ env J args hlen (Spec.simAt o rho')) :=
    fun rho' => C35_fresh_partial env o (some (Spec.simAt o rho')) J args ⟨hL.obj, hL.lin, hL.comps⟩ hlen hS.stale
  have hJl := compute_J_linObj env o J args hmk hS.stale hS.pol (fun a h => ⟨(ha a h).1, (ha a h).2.1⟩) hlen
  have hFl : ∀ rho', Spec.freshJ env J args hlen (Spec.simAt o rho') = linObj env o J args hlen rho' := fun rho' => Except.ok.inj ((hF rho').symm.trans (hJl rho'))
  have hg := (dJ_Ez_formula env o J args rho hS ha hlen).2
  have hs1 := SameProblem.putRho o rho
  have hS1 := hS.same ha hs1 (valid_putRho hS.valid rho) rfl rfl rfl
  have hg1 := (compute_dJ_same hS hS1 ha hs1).trans hg
  refine ⟨_, hg, hJl, fun d picks hd hp => ?_⟩
  obtain ⟨res, h1, h2, -⟩ := check_deriv_ok env hL hlen hS.valid hS.density hg1 d hd picks hp
  exact ⟨res, h1, h2.imp fun p r ⟨pt, e1, e2⟩ => ⟨pt.1, pt.2, e1, by rw [e2, hFl, hFl]⟩⟩

/-- The objective at a density whose system is nonsingular, with better and better solvers. -/
theorem linObj_tendsto {env : ℕ → Env} (h : ∀ k : ℕ, (env k).Within (1 / ((k : ℝ) + 1))) {env0 : Env} (he : env0.Exact) (o : Opt Nx Ny) (J : ObjFn Nx Ny) (args : List ObjArg)
    (hlen : args.length = J.arity) (hJ : ∀ x, Spec.Autograd J x) (rho' : Grid Nx Ny ℝ) (hdet : (Spec.simAt o rho').A.det ≠ 0) :
    Tendsto (fun n => linObj (env n) o J args hlen rho') atTop (𝓝 (linObj env0 o J args hlen rho')) := by
  have hX := solver_tendsto h (Spec.simAt o rho').A hdet (tendsto_const_nhds (x := (Spec.simAt o rho').rhs)) he
  have hx : Tendsto (fun n => fun k : Fin J.arity => linField (Spec.simAt o rho') (solver_direct (env n) (Spec.simAt o rho').A (Spec.simAt o rho').rhs) (args.get (k.cast hlen.symm)).component) atTop
      (𝓝 fun k : Fin J.arity => linField (Spec.simAt o rho') (solver_direct env0 (Spec.simAt o rho').A (Spec.simAt o rho').rhs) (args.get (k.cast hlen.symm)).component) :=
    tendsto_pi_nhds.2 fun k => ((linField_continuous (Spec.simAt o rho') _).tendsto _).comp hX
  obtain ⟨L, -, hL⟩ := hJ fun k : Fin J.arity => linField (Spec.simAt o rho') (solver_direct env0 (Spec.simAt o rho').A (Spec.simAt o rho').rhs) (args.get (k.cast hlen.symm)).component
  exact hL.continuousAt.tendsto.comp hx

/-- **C115, fixed step.** For an Ez problem, a step `d_rho ≠ 0` that meets no resonance and any `δ > 0`, there is an accuracy of the linear solves that makes both numbers of every pair that
`check_deriv` reports, for whatever draws, within `δ` of the numbers of the exact solver. -/
theorem C115_fixed_step (env0 : Env) (he : env0.Exact) (o : Opt Nx Ny) (J : ObjFn Nx Ny) (args : List ObjArg) (rho : Grid Nx Ny ℝ) (hS : Spec.LinearEz env0 o J args rho)
    (hargs : ∀ a ∈ args, ∃ c, c ∈ ["Ez", "Hx", "Hy"] ∧ ObjArg.init c false = .ok a) (hJ : ∀ x, Spec.Autograd J x) (hc : ∀ k, Continuous (J.partials k)) (d : ℝ) (hd : d ≠ 0)
    (hdet : ∀ i j, o.design_region i j = 1 → (Spec.simAt o (Spec.bump rho i j d)).A.det ≠ 0) (L : List (Fin Nx × Fin Ny)) (hL : Spec.Enumerates o.design_region L) (δ : ℝ) (hδ : 0 < δ) :
    ∃ τ, 0 < τ ∧ ∀ env : Env, env.Within τ → ∀ picks : List ℕ, (∀ p ∈ picks, p < L.length) →
      ∃ res0 res, (Opt.check_deriv env0 picks d o).1 = .ok res0 ∧ (Opt.check_deriv env picks d o).1 = .ok res ∧ res.length = picks.length ∧
        List.Forall₂ (fun r r0 => |r.1 - r0.1| < δ ∧ |r.2 - r0.2| < δ) res res0 := by
  have hlen : args.length = J.arity := (objective_init_ok hS.obj).1
  have hSe : ∀ env : Env, Spec.LinearEz env o J args rho := fun env => ⟨hS.obj, hS.valid, hS.pol, hS.det, hS.stale, hS.density, hS.eps, hS.beta, fun x _ => hJ x⟩
  have hLl : L.length = (Opt.desPts o).length :=
    ((List.perm_ext_iff_of_nodup hL.1 (desPts_enumerates o).1).2 fun q => (hL.2 q.1 q.2).trans ((desPts_enumerates o).2 q.1 q.2).symm).length_eq
  set η : ℝ := min δ (δ * |d| / 2) with hη
  have hd0 : 0 < |d| := abs_pos.2 hd
  have hη0 : 0 < η := lt_min hδ (by positivity)
  obtain ⟨f0, g0, hf0, hg0, hcl⟩ := C101_gradient env0 he o J args rho hS hargs hJ hc
  obtain ⟨τ1, hτ1, hcl⟩ := hcl η hη0
  obtain ⟨τ2, hτ2, hbp⟩ := uniform_of_sequences (fun env => ∀ i j, o.design_region i j = 1 → |linObj env o J args hlen (Spec.bump rho i j d) - linObj env0 o J args hlen (Spec.bump rho i j d)| < η)
    (fun env h => by
      have ev : ∀ᶠ n in atTop, ∀ i j, o.design_region i j = 1 → |linObj (env n) o J args hlen (Spec.bump rho i j d) - linObj env0 o J args hlen (Spec.bump rho i j d)| < η := by
        refine Filter.eventually_all.2 fun i => Filter.eventually_all.2 fun j => ?_
        by_cases hij : o.design_region i j = 1
        · have := Metric.tendsto_nhds.1 (linObj_tendsto h he o J args hlen hJ (Spec.bump rho i j d) (hdet i j hij)) η hη0
          simp only [Real.dist_eq] at this
          exact this.mono fun n hn _ => hn
        · exact Filter.Eventually.of_forall fun n hn => absurd hn hij
      exact ev.exists)
  obtain ⟨g0', hg0', hJ0, hres0⟩ := check_deriv_any env0 o J args rho hS hargs hlen
  obtain rfl : g0' = g0 := Except.ok.inj (hg0'.symm.trans hg0)
  refine ⟨min τ1 τ2, lt_min hτ1 hτ2, fun env hw picks hp => ?_⟩
  have hw1 : env.Within τ1 := fun A b hA => (hw A b hA).trans (mul_le_mul_of_nonneg_right (min_le_left _ _) (norm_nonneg _))
  have hw2 : env.Within τ2 := fun A b hA => (hw A b hA).trans (mul_le_mul_of_nonneg_right (min_le_right _ _) (norm_nonneg _))
  obtain ⟨f, g', hf, hg', hff, hgg⟩ := hcl env hw1
  obtain ⟨g, hg, hJe, hres⟩ := check_deriv_any env o J args rho (hSe env) hargs hlen
  obtain rfl : g = g' := Except.ok.inj (hg.symm.trans hg')
  have ef : f = linObj env o J args hlen rho := Except.ok.inj (hf.symm.trans (hJe rho))
  have ef0 : f0 = linObj env0 o J args hlen rho := Except.ok.inj (hf0.symm.trans (hJ0 rho))
  rw [ef, ef0] at hff
  have hp' : ∀ p ∈ picks, p < (Opt.desPts o).length := fun p h => hLl ▸ hp p h
  obtain ⟨res0, e0, a0⟩ := hres0 d picks hd hp'
  obtain ⟨res, e1, a1⟩ := hres d picks hd hp'
  refine ⟨res0, res, e0, e1, a1.length_eq.symm, List.forall₂_iff_get.2 ⟨a1.length_eq.symm.trans a0.length_eq, fun k k1 k2 => ?_⟩⟩
  have kp : k < picks.length := by rw [a0.length_eq]; exact k2
  obtain ⟨i, j, c1, c2⟩ := (List.forall₂_iff_get.1 a1).2 k kp k1
  obtain ⟨i', j', b1, b2⟩ := (List.forall₂_iff_get.1 a0).2 k kp k2
  obtain ⟨rfl, rfl⟩ : i = i' ∧ j = j' := Prod.mk.inj (Option.some.inj (c1.symm.trans b1))
  have hij : o.design_region i j = 1 := ((desPts_enumerates o).2 i j).1 (List.mem_of_getElem? c1)
  rw [c2, b2]
  refine ⟨(hgg i j).trans_le (min_le_left _ _), ?_⟩
  have hb := hbp env hw2 i j hij
  have hη2 : η ≤ δ * |d| / 2 := min_le_right _ _
  generalize linObj env o J args hlen (Spec.bump rho i j d) = x1 at *
  generalize linObj env0 o J args hlen (Spec.bump rho i j d) = x2 at *
  generalize linObj env o J args hlen rho = x3 at *
  generalize linObj env0 o J args hlen rho = x4 at *
  simp only
  rw [← sub_div, abs_div, div_lt_iff₀ hd0, show x1 - x3 - (x2 - x4) = (x1 - x2) - (x3 - x4) by ring]
  have := abs_sub (x1 - x2) (x3 - x4)
  linarith

/-! ## Steps below the accuracy of the solves -/

/-- The entries of the matrix of a perturbed vacuum add up to more than those of the vacuum. -/
theorem gopt_flip (P : ℕ) (src : Grid Nx Ny ℂ) (ob : Objective Nx Ny) (i0 : Fin Nx) (j0 : Fin Ny) (d : ℝ) (hd : 0 < d) :
    (∑ k, ∑ l, (Spec.simAt (gopt P src ob (fun _ _ => 1) 1) (fun _ _ => 0)).A k l).re < (∑ k, ∑ l, (Spec.simAt (gopt P src ob (fun _ _ => 1) 1) (Spec.bump (fun _ _ => 0) i0 j0 d)).A k l).re := by
  set o := gopt P src ob (fun _ _ => 1) 1 with ho
  have hA : ∀ x : Grid Nx Ny ℝ, (∑ k, ∑ l, (Spec.simAt o x).A k l).re =
      (∑ k, ∑ l, (construct_A o.simulation.omega o.simulation.xrange o.simulation.yrange (fun _ _ => 0 : Grid Nx Ny ℂ) o.simulation.NPML .Ez o.simulation.L0).1 k l).re +
        ∑ i, ∑ j, rho2eps x 5 1 (1 / 2) 1 i j := by
    intro x
    have e : (Spec.simAt o x).A = _ := construct_A_Ez_split o.simulation.omega o.simulation.xrange o.simulation.yrange (fun i j => ((rho2eps x o.eps_m o.W o.eta o.beta i j : ℝ) : ℂ)) o.simulation.NPML o.simulation.L0
    rw [e]
    simp only [Matrix.add_apply, Finset.sum_add_distrib, Complex.add_re]
    congr 1
    simp only [spdiag, Matrix.diagonal_apply, Finset.sum_ite_eq, Finset.mem_univ, if_true]
    rw [sum_flat]
    simp only [flatten_pair, Complex.re_sum]
    refine Finset.sum_congr rfl fun i _ => Finset.sum_congr rfl fun j _ => ?_
    show (((1 : ℝ) : ℂ) ^ 2 * ((EPSILON_0 * (1 / EPSILON_0) : ℝ) : ℂ) * ((rho2eps x 5 1 (1 / 2) 1 i j : ℝ) : ℂ)).re = _
    rw [mul_one_div_cancel EPSILON_0_pos.ne']
    simp
  rw [hA, hA]
  have hm := (C01_projection_physical (1 / 2) 1 one_pos).2.2.1
  have hle : ∀ i j, rho2eps (fun _ _ => 0 : Grid Nx Ny ℝ) 5 1 (1 / 2) 1 i j ≤ rho2eps (Spec.bump (fun _ _ => 0) i0 j0 d) 5 1 (1 / 2) 1 i j := by
    intro i j
    unfold rho2eps rhob2eps
    simp only [rho2rhot_one]
    have : rhot2rhob 0 (1 / 2) 1 ≤ rhot2rhob (Spec.bump (fun _ _ => 0) i0 j0 d i j) (1 / 2) 1 := by
      refine hm.monotone ?_
      unfold Spec.bump
      split_ifs <;> simp [hd.le]
    linarith
  have hlt : rho2eps (fun _ _ => 0 : Grid Nx Ny ℝ) 5 1 (1 / 2) 1 i0 j0 < rho2eps (Spec.bump (fun _ _ => 0) i0 j0 d) 5 1 (1 / 2) 1 i0 j0 := by
    unfold rho2eps rhob2eps
    simp only [rho2rhot_one]
    have : rhot2rhob 0 (1 / 2) 1 < rhot2rhob (Spec.bump (fun _ _ => 0) i0 j0 d i0 j0) (1 / 2) 1 := by
      refine hm ?_
      unfold Spec.bump
      simp [hd]
    linarith
  refine add_lt_add_of_le_of_lt le_rfl (Finset.sum_lt_sum (fun i _ => Finset.sum_le_sum fun j _ => hle i j) ⟨i0, Finset.mem_univ _, Finset.sum_lt_sum (fun j _ => hle i0 j) ⟨j0, Finset.mem_univ _, hlt⟩⟩)

/-- **C115, small steps.** No accuracy is enough for all steps.  On every grid, for every source that is not zero, every `τ > 0` and every pixel: some solver with relative residuals of at most `τ`
makes the numerical derivative that `check_deriv` reports larger than any bound as `d_rho → 0`, while that of the exact solver tends to the reported analytical one. -/
theorem C115_small_steps (hx : 1 < Nx) (hy : 1 < Ny) (src : Grid Nx Ny ℂ) (hsrc : ∃ i j, src i j ≠ 0) (τ : ℝ) (h0 : 0 < τ) (i0 : Fin Nx) (j0 : Fin Ny) :
    let o := gopt 1 src (Objective.mk' (intensityJ Nx Ny) [⟨.Ez, false, .linear_Ez⟩]) (fun _ _ => 1) 1
    (∀ env, Spec.LinearEz env o (intensityJ Nx Ny) [⟨.Ez, false, .linear_Ez⟩] (fun _ _ => 0)) ∧
    ∃ env : Env, env.Within τ ∧ ∃ (p : ℕ) (g g0 : Grid Nx Ny ℝ) (q q0 : ℝ → ℝ),
      (∀ d, d ≠ 0 → (Opt.check_deriv env [p] d o).1 = .ok [(g i0 j0, q d)] ∧ (Opt.check_deriv (exactEnv .pardiso) [p] d o).1 = .ok [(g0 i0 j0, q0 d)]) ∧
      Tendsto q0 (𝓝[≠] 0) (𝓝 (g0 i0 j0)) ∧ Tendsto (fun d => |q d|) (𝓝[>] 0) atTop := by
  intro o
  have hSe : ∀ env, Spec.LinearEz env o (intensityJ Nx Ny) [⟨.Ez, false, .linear_Ez⟩] (fun _ _ => 0) := fun env =>
    gopt_setup env hx hy 1 src (intensityJ Nx Ny) [⟨.Ez, false, .linear_Ez⟩] (fun _ _ => 1) 1 rfl intensityJ_autograd
  have hargs : ∀ a ∈ [(⟨.Ez, false, .linear_Ez⟩ : ObjArg)], ∃ c, c ∈ ["Ez", "Hx", "Hy"] ∧ ObjArg.init c false = .ok a := by
    intro a ha
    rw [List.mem_singleton] at ha
    rw [ha]
    exact ⟨"Ez", by simp, rfl⟩
  set T : ℝ := (∑ k, ∑ l, (Spec.simAt o (fun _ _ => 0)).A k l).re with hT
  set F : Env → Grid Nx Ny ℝ → ℝ := fun env x => linObj env o (intensityJ Nx Ny) [⟨.Ez, false, .linear_Ez⟩] rfl x with hFd
  obtain ⟨g, hg, hJ, hres⟩ := check_deriv_any (flipEnv τ T) o _ _ _ (hSe _) hargs rfl
  obtain ⟨g0, hg0, hJ0, hres0⟩ := check_deriv_any (exactEnv .pardiso) o _ _ _ (hSe _) hargs rfl
  obtain ⟨p, hp, hpe⟩ := List.getElem_of_mem (((desPts_enumerates o).2 i0 j0).2 rfl)
  have one : ∀ (env : Env) (g : Grid Nx Ny ℝ), (∀ (d : ℝ) (picks : List ℕ), d ≠ 0 → (∀ p ∈ picks, p < (Opt.desPts o).length) → ∃ res, (Opt.check_deriv env picks d o).1 = .ok res ∧
        List.Forall₂ (fun p r => ∃ i j, (Opt.desPts o)[p]? = some (i, j) ∧ r = (g i j, (F env (Spec.bump (fun _ _ => 0) i j d) - F env fun _ _ => 0) / d)) picks res) →
      ∀ d, d ≠ 0 → (Opt.check_deriv env [p] d o).1 = .ok [(g i0 j0, (F env (Spec.bump (fun _ _ => 0) i0 j0 d) - F env fun _ _ => 0) / d)] := by
    intro env g h d hd
    obtain ⟨res, e1, e2⟩ := h d [p] hd (fun q hq => by rw [List.mem_singleton] at hq; rw [hq]; exact hp)
    rw [e1]
    rcases e2 with _ | ⟨⟨i, j, c1, c2⟩, h3⟩
    rcases h3
    rw [List.getElem?_eq_getElem hp, Option.some.injEq, hpe, Prod.mk.injEq] at c1
    rw [c2, c1.1, c1.2]
  -- the exact objective
  obtain ⟨g0', f, k1, k2, k3⟩ := C30_gradient_exact_unfiltered (exactEnv .pardiso) (exactEnv_exact _) o _ _ _ (hSe _) hargs rfl (fun _ _ => Or.inr rfl) i0 j0 rfl
  obtain rfl : g0' = g0 := Except.ok.inj (k1.symm.trans hg0)
  have hf : ∀ t, f t = F (exactEnv .pardiso) (Spec.bump (fun _ _ => 0) i0 j0 t) := fun t => Except.ok.inj ((k2 t).symm.trans (hJ0 _))
  -- the objective of the inexact solver
  have hb0 : ∀ x, (Spec.simAt o x).rhs ≠ 0 := by
    intro x hz
    obtain ⟨i, j, hij⟩ := hsrc
    have h2 := congrFun hz (finProdFinEquiv (i, j))
    have h3 : flatten src (finProdFinEquiv (i, j)) * Complex.I * ((1 : ℝ) : ℂ) = 0 := h2
    rw [flatten_pair] at h3
    simp [hij] at h3
  have hflip : ∀ x, F (flipEnv τ T) x = (1 + if (∑ k, ∑ l, (Spec.simAt o x).A k l).re ≤ T then τ else -τ) ^ 2 * F (exactEnv .pardiso) x := by
    intro x
    have hsol : solver_direct (flipEnv τ T) (Spec.simAt o x).A (Spec.simAt o x).rhs =
        (1 + ((if (∑ k, ∑ l, (Spec.simAt o x).A k l).re ≤ T then τ else -τ : ℝ) : ℂ)) • solver_direct (exactEnv .pardiso) (Spec.simAt o x).A (Spec.simAt o x).rhs := by
      unfold solver_direct
      rw [if_neg (hb0 x), if_neg (hb0 x)]
      show (Spec.simAt o x).A⁻¹ *ᵥ (_ • _) = _ • ((Spec.simAt o x).A⁻¹ *ᵥ _)
      rw [Matrix.mulVec_smul]
    have hq := intensityJ_quadratic (Nx := Nx) (Ny := Ny) (1 + ((if (∑ k, ∑ l, (Spec.simAt o x).A k l).re ≤ T then τ else -τ : ℝ) : ℂ))
      (fun _ => unflatten (solver_direct (exactEnv .pardiso) (Spec.simAt o x).A (Spec.simAt o x).rhs))
    have hn : ‖(1 : ℂ) + ((if (∑ k, ∑ l, (Spec.simAt o x).A k l).re ≤ T then τ else -τ : ℝ) : ℂ)‖ ^ 2 = (1 + if (∑ k, ∑ l, (Spec.simAt o x).A k l).re ≤ T then τ else -τ) ^ 2 := by
      rw [← Complex.ofReal_one, ← Complex.ofReal_add, Complex.norm_real, Real.norm_eq_abs, sq_abs]
    rw [hn] at hq
    show (intensityJ Nx Ny).eval (fun _ => unflatten (solver_direct (flipEnv τ T) (Spec.simAt o x).A (Spec.simAt o x).rhs)) = _
    rw [hsol]
    exact hq
  have hpos : 0 < F (exactEnv .pardiso) fun _ _ => 0 := by
    set x0 : Grid Nx Ny ℝ := fun _ _ => 0
    have hdet : (Spec.simAt o x0).A.det ≠ 0 := by
      rw [(simAt_self (hSe (exactEnv .pardiso)).valid (hSe (exactEnv .pardiso)).eps).1]
      exact (hSe (exactEnv .pardiso)).det
    have hAX := solver_direct_spec (exactEnv_exact .pardiso) (Or.inl hdet) (b := (Spec.simAt o x0).rhs)
    show 0 < ∑ i, ∑ j, ((unflatten (solver_direct (exactEnv .pardiso) (Spec.simAt o x0).A (Spec.simAt o x0).rhs) i j).re ^ 2 + (unflatten (solver_direct (exactEnv .pardiso) (Spec.simAt o x0).A (Spec.simAt o x0).rhs) i j).im ^ 2)
    set X := solver_direct (exactEnv .pardiso) (Spec.simAt o x0).A (Spec.simAt o x0).rhs with hX
    by_contra hc
    have hnn : ∀ i j, 0 ≤ (unflatten X i j : ℂ).re ^ 2 + (unflatten X i j : ℂ).im ^ 2 := fun i j => by positivity
    have hz : ∑ i, ∑ j, ((unflatten X i j : ℂ).re ^ 2 + (unflatten X i j : ℂ).im ^ 2) = 0 :=
      le_antisymm (not_lt.1 hc) (Finset.sum_nonneg fun i _ => Finset.sum_nonneg fun j _ => hnn i j)
    have hX0 : X = 0 := by
      rw [← flatten_unflatten X]
      have : (unflatten X : Grid Nx Ny ℂ) = fun _ _ => 0 := by
        funext i j
        have h2 := (Finset.sum_eq_zero_iff_of_nonneg fun j _ => hnn i j).1 ((Finset.sum_eq_zero_iff_of_nonneg fun i _ => Finset.sum_nonneg fun j _ => hnn i j).1 hz i (Finset.mem_univ _)) j (Finset.mem_univ _)
        refine Complex.ext ?_ ?_
        · show _ = (0 : ℝ)
          nlinarith [sq_nonneg (unflatten X i j : ℂ).re, sq_nonneg (unflatten X i j : ℂ).im]
        · show _ = (0 : ℝ)
          nlinarith [sq_nonneg (unflatten X i j : ℂ).re, sq_nonneg (unflatten X i j : ℂ).im]
      rw [this]
      rfl
    rw [hX0, Matrix.mulVec_zero] at hAX
    exact hb0 x0 hAX.symm
  refine ⟨hSe, flipEnv τ T, flipEnv_within τ T h0.le, p, g, g0', _, _, fun d hd => ⟨one _ g hres d hd, one _ g0' hres0 d hd⟩, ?_, ?_⟩
  · have h2 := k3.tendsto_slope_zero
    simp only [zero_add, smul_eq_mul, hf, bump_zero] at h2
    refine h2.congr fun t => ?_
    rw [div_eq_inv_mul]
  · have hcont : Tendsto (fun d => F (exactEnv .pardiso) (Spec.bump (fun _ _ => 0) i0 j0 d)) (𝓝[>] 0) (𝓝 (F (exactEnv .pardiso) fun _ _ => 0)) := by
      have := k3.continuousAt.tendsto
      rw [hf 0, bump_zero] at this
      exact (this.congr hf).mono_left nhdsWithin_le_nhds
    have hnum : Tendsto (fun d => |F (flipEnv τ T) (Spec.bump (fun _ _ => 0) i0 j0 d) - F (flipEnv τ T) fun _ _ => 0|) (𝓝[>] 0) (𝓝 (4 * τ * F (exactEnv .pardiso) fun _ _ => 0)) := by
      have e : ∀ᶠ d in 𝓝[>] (0 : ℝ), |(1 - τ) ^ 2 * F (exactEnv .pardiso) (Spec.bump (fun _ _ => 0) i0 j0 d) - (1 + τ) ^ 2 * F (exactEnv .pardiso) fun _ _ => 0| =
          |F (flipEnv τ T) (Spec.bump (fun _ _ => 0) i0 j0 d) - F (flipEnv τ T) fun _ _ => 0| := by
        refine eventually_nhdsWithin_of_forall fun d (hd : 0 < d) => ?_
        have hlt := gopt_flip 1 src (Objective.mk' (intensityJ Nx Ny) [⟨.Ez, false, .linear_Ez⟩]) i0 j0 d hd
        rw [hflip, hflip, if_neg (not_le.2 hlt), if_pos le_rfl]
        ring_nf
      refine Tendsto.congr' e ?_
      have h3 := (((hcont.const_mul ((1 - τ) ^ 2)).sub (tendsto_const_nhds (x := (1 + τ) ^ 2 * F (exactEnv .pardiso) fun _ _ => 0)))).abs
      have h4 : |(1 - τ) ^ 2 * (F (exactEnv .pardiso) fun _ _ => 0) - (1 + τ) ^ 2 * F (exactEnv .pardiso) fun _ _ => 0| = 4 * τ * F (exactEnv .pardiso) fun _ _ => 0 := by
        rw [← sub_mul, abs_mul, abs_of_pos hpos, show (1 - τ) ^ 2 - (1 + τ) ^ 2 = -(4 * τ) by ring, abs_neg, abs_of_pos (by linarith)]
      rwa [h4] at h3
    have hinv : Tendsto (fun d : ℝ => d⁻¹) (𝓝[>] 0) atTop := tendsto_inv_nhdsGT_zero
    refine (hnum.pos_mul_atTop (by positivity) hinv).congr' ?_
    refine eventually_nhdsWithin_of_forall fun d (hd : 0 < d) => ?_
    beta_reduce
    rw [abs_div, abs_of_pos hd, div_eq_mul_inv]

/-- The hypotheses of `C115_fixed_step` hold for the vacuum of the witness with every small step. -/
example (hx : 1 < Nx) (hy : 1 < Ny) (src : Grid Nx Ny ℂ) : ∃ d0 > 0, ∀ d, d ≠ 0 → |d| < d0 → ∀ δ, 0 < δ → ∃ τ, 0 < τ ∧ ∀ env : Env, env.Within τ → ∀ p, p < Nx * Ny →
    ∃ r r0, (Opt.check_deriv (exactEnv .pardiso) [p] d (gopt 1 src (Objective.mk' (intensityJ Nx Ny) [⟨.Ez, false, .linear_Ez⟩]) (fun _ _ => 1) 1)).1 = .ok [r0] ∧
      (Opt.check_deriv env [p] d (gopt 1 src (Objective.mk' (intensityJ Nx Ny) [⟨.Ez, false, .linear_Ez⟩]) (fun _ _ => 1) 1)).1 = .ok [r] ∧ |r.1 - r0.1| < δ ∧ |r.2 - r0.2| < δ := by
  set o := gopt 1 src (Objective.mk' (intensityJ Nx Ny) [⟨.Ez, false, .linear_Ez⟩]) (fun _ _ => 1) 1 with ho
  have hS : Spec.LinearEz (exactEnv .pardiso) o (intensityJ Nx Ny) [⟨.Ez, false, .linear_Ez⟩] (fun _ _ => 0) :=
    gopt_setup _ hx hy 1 src (intensityJ Nx Ny) [⟨.Ez, false, .linear_Ez⟩] (fun _ _ => 1) 1 rfl intensityJ_autograd
  have hdet : (Spec.simAt o fun _ _ => 0).A.det ≠ 0 := by
    rw [(simAt_self hS.valid hS.eps).1]
    exact hS.det
  have hev : ∀ᶠ t in 𝓝 (0 : ℝ), ∀ i j, (Spec.simAt o (Spec.bump (fun _ _ => 0) i j t)).A.det ≠ 0 :=
    Filter.eventually_all.2 fun i => Filter.eventually_all.2 fun j => eventually_det o hS.pol hS.beta _ hdet i j
  obtain ⟨d0, h0, hd0⟩ := Metric.eventually_nhds_iff.1 hev
  refine ⟨d0, h0, fun d hd hlt δ hδ => ?_⟩
  have hlen : (Opt.desPts o).length = Nx * Ny := by
    have hperm : (Opt.desPts o).toFinset = Finset.univ := Finset.eq_univ_iff_forall.2 fun q => List.mem_toFinset.2 (((desPts_enumerates o).2 q.1 q.2).2 rfl)
    rw [← List.toFinset_card_of_nodup (desPts_enumerates o).1, hperm]
    simp
  obtain ⟨τ, hτ, h⟩ := C115_fixed_step (exactEnv .pardiso) (exactEnv_exact _) o _ _ _ hS (by
    intro a ha
    rw [List.mem_singleton] at ha
    rw [ha]
    exact ⟨"Ez", by simp, rfl⟩) intensityJ_autograd (fun k => by
      refine continuous_pi fun i => continuous_pi fun j => ?_
      show Continuous fun x : Fin 1 → Grid Nx Ny ℂ => 2 * (starRingEnd ℂ) (x 0 i j)
      fun_prop) d hd (fun i j _ => hd0 (by rwa [Real.dist_eq, sub_zero]) i j) (Opt.desPts o) (desPts_enumerates o) δ hδ
  refine ⟨τ, hτ, fun env hw p hp => ?_⟩
  obtain ⟨res0, res, e0, e1, e2, e3⟩ := h env hw [p] (fun q hq => by rw [List.mem_singleton] at hq; rw [hq, hlen]; exact hp)
  obtain ⟨r, rfl⟩ := List.length_eq_one_iff.1 e2
  rcases e3 with _ | ⟨h4, h5⟩
  rcases h5
  exact ⟨_, _, e0, e1, h4⟩

end Angler
