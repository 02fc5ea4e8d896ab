import Verif.Lemmas.SameProblem
import Verif.Props.GradientEz
import Verif.Props.Adam

/-! # C67, C68: what one step of gradient ascent does to the objective -/

namespace Angler

open Matrix Filter Topology

variable {Nx Ny : ℕ}

/-- The density at a pixel can follow the sign of the gradient without leaving `[0, 1]`. -/
def Spec.CanMove (rho g : Grid Nx Ny ℝ) (i : Fin Nx) (j : Fin Ny) : Prop := (0 < g i j ∧ rho i j < 1) ∨ (g i j < 0 ∧ 0 < rho i j)

/-- A function with positive derivative at 0 exceeds its value at 0 shortly after. -/
theorem eventually_lt_of_deriv {f : ℝ → ℝ} {d : ℝ} (h : HasDerivAt f d 0) (hd : 0 < d) : ∀ᶠ t in 𝓝[>] (0 : ℝ), f 0 < f t := by
  have h1 := hasDerivAt_iff_tendsto_slope.1 h
  have h2 : ∀ᶠ t in 𝓝[≠] (0 : ℝ), 0 < slope f 0 t := h1.eventually (lt_mem_nhds hd)
  have h3 : ∀ᶠ t in 𝓝[>] (0 : ℝ), 0 < slope f 0 t := nhdsWithin_mono _ (fun x hx => ne_of_gt hx) h2
  filter_upwards [h3, self_mem_nhdsWithin] with t ht htp
  rw [slope_def_field, sub_zero] at ht
  have htp' : (0 : ℝ) < t := htp
  have := (div_pos_iff_of_pos_right htp').1 ht
  linarith

/-- For small steps, clipping only blocks the pixels that cannot move. -/
theorem clip_path {x u : ℝ} (hx : 0 ≤ x ∧ x ≤ 1) : ∀ᶠ t in 𝓝[>] (0 : ℝ), Opt.clip01 (x + t * u) = x + t * (if (0 < u ∧ x < 1) ∨ (u < 0 ∧ 0 < x) then u else 0) := by
  have hcont : Tendsto (fun t : ℝ => x + t * u) (𝓝[>] 0) (𝓝 x) := by
    have : Tendsto (fun t : ℝ => x + t * u) (𝓝 0) (𝓝 (x + 0 * u)) := (continuous_const.add (continuous_id.mul continuous_const)).tendsto 0
    rw [zero_mul, add_zero] at this
    exact this.mono_left nhdsWithin_le_nhds
  by_cases hu : (0 < u ∧ x < 1) ∨ (u < 0 ∧ 0 < x)
  · rw [if_pos hu]
    rcases hu with ⟨hu, h1⟩ | ⟨hu, h0⟩
    · filter_upwards [hcont.eventually (gt_mem_nhds h1), self_mem_nhdsWithin] with t ht htp
      have htp' : (0 : ℝ) < t := htp
      exact clip01_of_mem ⟨by have := mul_pos htp' hu; linarith [hx.1], ht.le⟩
    · filter_upwards [hcont.eventually (lt_mem_nhds h0), self_mem_nhdsWithin] with t ht htp
      have htp' : (0 : ℝ) < t := htp
      exact clip01_of_mem ⟨ht.le, by have := mul_neg_of_pos_of_neg htp' hu; linarith [hx.2]⟩
  · rw [if_neg hu]
    filter_upwards [self_mem_nhdsWithin] with t htp
    have htp' : (0 : ℝ) < t := htp
    rw [mul_zero, add_zero]
    rw [not_or, not_and_or, not_and_or, not_lt, not_lt, not_lt, not_lt] at hu
    rcases lt_trichotomy u 0 with h | h | h
    · have hx0 : x = 0 := le_antisymm (hu.2.resolve_left (not_le.2 h)) hx.1
      have : t * u < 0 := mul_neg_of_pos_of_neg htp' h
      rw [hx0, zero_add, Opt.clip01, if_pos this]
      simp
    · rw [h, mul_zero, add_zero]
      exact clip01_of_mem hx
    · have hx1 : x = 1 := le_antisymm hx.2 (hu.1.resolve_left (not_le.2 h))
      have : 0 < t * u := mul_pos htp' h
      have h1 : ¬ (1 + t * u < 0) := by linarith
      have h2 : 1 < 1 + t * u := by linarith
      rw [hx1]
      simp only [Opt.clip01, if_neg h1, if_pos h2]

/-- The generic step: a direction `u` with the sign of the gradient, followed for a short distance with clipping, increases the objective. -/
theorem ascent_step (env : Env) (he : env.Exact) (o : Opt Nx Ny) (J : ObjFn Nx Ny) (args : List ObjArg) (rho : Grid Nx Ny ℝ) (hS : Spec.LinearEz env o J args rho)
    (hargs : EzArgs args) (hlen : args.length = J.arity) (hm : Spec.Mask o.design_region)
    (hbox : ∀ i j, 0 ≤ rho i j ∧ rho i j ≤ 1) (hW : ∀ i j, o.design_region i j = 1 → Spec.FilterSym o.W o.design_region i j) (g : Grid Nx Ny ℝ)
    (hg : (Opt.compute_dJ env o).1 = .ok g) (u : Grid Nx Ny ℝ) (hpos : ∀ i j, 0 < u i j ↔ 0 < g i j) (hneg : ∀ i j, u i j < 0 ↔ g i j < 0)
    (i0 : Fin Nx) (j0 : Fin Ny) (hd : o.design_region i0 j0 = 1) (hmv : Spec.CanMove rho g i0 j0) :
    ∃ s0 : ℝ, 0 < s0 ∧ ∀ s, 0 < s → s < s0 →
      linObj env o J args hlen rho < linObj env o J args hlen (fun i j => Opt.clip01 (rho i j + o.design_region i j * s * u i j)) := by
  classical
  obtain ⟨g', hg', hder⟩ := gradient_path_Ez env he o J args rho hS hargs hlen
  have hgg : g' = g := Except.ok.inj (hg'.symm.trans hg)
  subst hgg
  let v : Grid Nx Ny ℝ := fun i j => if (0 < o.design_region i j * u i j ∧ rho i j < 1) ∨ (o.design_region i j * u i j < 0 ∧ 0 < rho i j) then o.design_region i j * u i j else 0
  have hmc : ∀ i j, ((0 < o.design_region i j * u i j ∧ rho i j < 1) ∨ (o.design_region i j * u i j < 0 ∧ 0 < rho i j)) ↔ (o.design_region i j = 1 ∧ Spec.CanMove rho g' i j) := by
    intro i j
    unfold Spec.CanMove
    rcases hm i j with h | h
    · simp [h]
    · rw [h, one_mul, hpos, hneg]
      simp
  have hv1 : ∀ i j, o.design_region i j = 1 → Spec.CanMove rho g' i j → v i j = u i j := by
    intro i j h1 h2
    simp only [v]
    rw [if_pos ((hmc i j).2 ⟨h1, h2⟩), h1, one_mul]
  have hv0 : ∀ i j, ¬ (o.design_region i j = 1 ∧ Spec.CanMove rho g' i j) → v i j = 0 := by
    intro i j h
    simp only [v]
    rw [if_neg (fun h' => h ((hmc i j).1 h'))]
  have hgu : ∀ i j, Spec.CanMove rho g' i j → 0 < g' i j * u i j := by
    rintro i j (⟨h, -⟩ | ⟨h, -⟩)
    · exact mul_pos h ((hpos i j).2 h)
    · exact mul_pos_of_neg_of_neg h ((hneg i j).2 h)
  have hnn : ∀ i j, 0 ≤ g' i j * v i j := by
    intro i j
    by_cases h : o.design_region i j = 1 ∧ Spec.CanMove rho g' i j
    · rw [hv1 i j h.1 h.2]; exact (hgu i j h.2).le
    · rw [hv0 i j h, mul_zero]
  have hsum : 0 < ∑ i, ∑ j, g' i j * v i j := by
    refine Finset.sum_pos' (fun i _ => Finset.sum_nonneg fun j _ => hnn i j) ⟨i0, Finset.mem_univ _, ?_⟩
    refine Finset.sum_pos' (fun j _ => hnn i0 j) ⟨j0, Finset.mem_univ _, ?_⟩
    rw [hv1 i0 j0 hd hmv]
    exact hgu i0 j0 hmv
  have hlin : ∀ i j, HasDerivAt (fun t : ℝ => rho i j + t * v i j) (v i j) 0 := by
    intro i j
    have := ((hasDerivAt_id (0 : ℝ)).mul_const (v i j)).const_add (rho i j)
    rw [one_mul] at this
    exact this
  have hD := hder (fun t i j => rho i j + t * v i j) v (by funext i j; rw [zero_mul, add_zero]) hlin (fun i j h => by
    by_contra hcon
    by_cases h1 : o.design_region i j = 1
    · exact hcon (hW i j h1)
    · exact h (hv0 i j fun h' => h1 h'.1))
  have hup := eventually_lt_of_deriv hD hsum
  have hclip : ∀ᶠ t in 𝓝[>] (0 : ℝ), ∀ i j, Opt.clip01 (rho i j + t * (o.design_region i j * u i j)) = rho i j + t * v i j :=
    eventually_all.2 fun i => eventually_all.2 fun j => clip_path (hbox i j)
  obtain ⟨s0, hs0, hsub⟩ := mem_nhdsGT_iff_exists_Ioo_subset.1 (hup.and hclip)
  refine ⟨s0, hs0, fun s h0 h1 => ?_⟩
  obtain ⟨hlt, hc⟩ := hsub ⟨h0, h1⟩
  have e0 : (fun i j => rho i j + 0 * v i j) = rho := by funext i j; rw [zero_mul, add_zero]
  have e1 : (fun i j => Opt.clip01 (rho i j + o.design_region i j * s * u i j)) = fun i j => rho i j + s * v i j := by
    funext i j
    rw [← hc i j]
    congr 2
    ring
  rw [e1]
  rw [e0] at hlt
  exact hlt

/-- **C67.** Linear Ez problem without source control, densities in `[0, 1]`, filter symmetric on the design pixels (as `get_W` makes it away from the border of the design
region): if at some design pixel the gradient is not zero and the density can follow it, then for every sufficiently small positive step size one step of `run('gd')`
strictly increases the objective. -/
theorem C67_gd_ascent_partial (env : Env) (he : env.Exact) (o : Opt Nx Ny) (J : ObjFn Nx Ny) (args : List ObjArg) (rho : Grid Nx Ny ℝ) (hS : Spec.LinearEz env o J args rho)
    (hargs : ∀ a ∈ args, ∃ c, c ∈ ["Ez", "Hx", "Hy"] ∧ ObjArg.init c false = .ok a) (hsh : o.max_ind_shift = none) (hm : Spec.Mask o.design_region)
    (hbox : ∀ i j, 0 ≤ rho i j ∧ rho i j ≤ 1) (hW : ∀ i j, o.design_region i j = 1 → Spec.FilterSym o.W o.design_region i j) (g : Grid Nx Ny ℝ)
    (hg : (Opt.compute_dJ env o).1 = .ok g) (i0 : Fin Nx) (j0 : Fin Ny) (hd : o.design_region i0 j0 = 1) (hmv : Spec.CanMove rho g i0 j0)
    (b1 b2 : ℝ) (calls : List Opt.LbfgsCall) (x : List ℝ) :
    ∃ s0 : ℝ, 0 < s0 ∧ ∀ s, 0 < s → s < s0 → ∃ o' v v', Opt.run env "gd" 1 s b1 b2 calls x o = (.ok (), o') ∧
      (Opt.J_self env o).1 = .ok v ∧ (Opt.J_self env o').1 = .ok v' ∧ v < v' := by
  have ha := args_of_init hargs
  obtain ⟨hlen, hmk⟩ := objective_init_ok hS.obj
  obtain ⟨s0, hs0, hup⟩ := ascent_step env he o J args rho hS ha hlen hm hbox hW g hg g (fun _ _ => Iff.rfl) (fun _ _ => Iff.rfl) i0 j0 hd hmv
  obtain ⟨o1, o2, o3, g', h1, h2, h3, h4, h5⟩ := iteration_Ez env hS ha hlen hsh
  have hgg : g' = g := Except.ok.inj (h4.symm.trans hg)
  subst hgg
  refine ⟨s0, hs0, fun s hsp hs => ?_⟩
  obtain ⟨o', hu, hsame, hv', hst, -, -, heps⟩ := h5 g' s
  have hstep : Opt.stepGD env s o = (.ok (), o') := by
    unfold Opt.stepGD
    rw [h1]
    simp only [pySeq]
    rw [h2]
    simp only
    rw [h3]
    exact hu
  have hcur : { o with fields_current := false } = o := by rw [← hS.stale]
  refine ⟨o', _, _, ?_, congrArg Prod.fst h1, J_self_linObj env (hsame.objective.trans hmk) hv' (hsame.pol.trans hS.pol) hst heps ha hlen, ?_⟩
  · rw [run_gd hS.density lower_gd, hcur]
    unfold Opt.run_GD
    rw [hstep]
    rfl
  · rw [hsame.linObj]
    exact hup s hsp hs

/-- **C67, Adam.** The same holds for the first step of `run('adam')`, for all decay rates in `[0, 1)`. -/
theorem C67_adam_ascent_partial (env : Env) (he : env.Exact) (o : Opt Nx Ny) (J : ObjFn Nx Ny) (args : List ObjArg) (rho : Grid Nx Ny ℝ) (hS : Spec.LinearEz env o J args rho)
    (hargs : ∀ a ∈ args, ∃ c, c ∈ ["Ez", "Hx", "Hy"] ∧ ObjArg.init c false = .ok a) (hsh : o.max_ind_shift = none) (hm : Spec.Mask o.design_region)
    (hbox : ∀ i j, 0 ≤ rho i j ∧ rho i j ≤ 1) (hW : ∀ i j, o.design_region i j = 1 → Spec.FilterSym o.W o.design_region i j) (g : Grid Nx Ny ℝ)
    (hg : (Opt.compute_dJ env o).1 = .ok g) (i0 : Fin Nx) (j0 : Fin Ny) (hd : o.design_region i0 j0 = 1) (hmv : Spec.CanMove rho g i0 j0)
    (b1 b2 : ℝ) (hb1 : 0 ≤ b1 ∧ b1 < 1) (hb2 : 0 ≤ b2 ∧ b2 < 1) (calls : List Opt.LbfgsCall) (x : List ℝ) :
    ∃ s0 : ℝ, 0 < s0 ∧ ∀ s, 0 < s → s < s0 → ∃ o' v v', Opt.run env "adam" 1 s b1 b2 calls x o = (.ok (), o') ∧
      (Opt.J_self env o).1 = .ok v ∧ (Opt.J_self env o').1 = .ok v' ∧ v < v' := by
  have ha := args_of_init hargs
  obtain ⟨hlen, hmk⟩ := objective_init_ok hS.obj
  let u : Grid Nx Ny ℝ := fun i j => g i j / (|g i j| + 1e-8)
  have hden : ∀ i j, (0 : ℝ) < |g i j| + 1e-8 := fun i j => add_pos_of_nonneg_of_pos (abs_nonneg _) (by norm_num)
  obtain ⟨s0, hs0, hup⟩ := ascent_step env he o J args rho hS ha hlen hm hbox hW g hg u (fun i j => div_pos_iff_of_pos_right (hden i j))
    (fun i j => by rw [show u i j = g i j / (|g i j| + 1e-8) from rfl, div_lt_iff₀ (hden i j), zero_mul]) i0 j0 hd hmv
  obtain ⟨o1, o2, o3, g', h1, h2, h3, h4, h5⟩ := iteration_Ez env hS ha hlen hsh
  have hgg : g' = g := Except.ok.inj (h4.symm.trans hg)
  subst hgg
  refine ⟨s0, hs0, fun s hsp hs => ?_⟩
  obtain ⟨mv', hadam, -⟩ := step_adam_spec (Nx := Nx) (Ny := Ny) hb1 hb2 (fun _ => g') 0 (fun _ _ => 0, fun _ _ => 0) (fun i j => ⟨rfl, rfl⟩)
  have hstepdir : Spec.adamStep b1 b2 (fun _ => g') 0 = u := by
    funext i j
    have hw : ∀ b : ℝ, b < 1 → Spec.weight b 0 0 = 1 := by
      intro b hb
      unfold Spec.weight
      have : 1 - b ≠ 0 := by linarith
      simp [this]
    unfold Spec.adamStep Spec.average
    simp only [zero_add, Finset.range_one, Finset.sum_singleton]
    rw [hw b1 hb1.2, hw b2 hb2.2, one_mul, one_mul, Real.sqrt_sq_eq_abs]
  rw [hstepdir] at hadam
  obtain ⟨o', hu, hsame, hv', hst, -, -, heps⟩ := h5 u s
  have hstep : Opt.stepADAM env s b1 b2 0 (fun _ _ => 0, fun _ _ => 0) o = (.ok mv', o') := by
    unfold Opt.stepADAM
    rw [h1]
    simp only [pySeq]
    rw [h2]
    simp only
    rw [h3]
    simp only [if_true]
    rw [hadam]
    simp only
    rw [hu]
  have hcur : { o with fields_current := false } = o := by rw [← hS.stale]
  refine ⟨o', _, _, ?_, congrArg Prod.fst h1, J_self_linObj env (hsame.objective.trans hmk) hv' (hsame.pol.trans hS.pol) hst heps ha hlen, ?_⟩
  · rw [run_adam hS.density lower_adam, hcur]
    unfold Opt.run_ADAM Opt.loopADAM
    rw [hstep]
    rfl
  · rw [hsame.linObj]
    exact hup s hsp hs

/-- A problem with a known gradient: a source and a linear objective for which the field and the adjoint field are concentrated at one pixel. -/
theorem unit_witness (env : Env) (he : env.Exact) (hx : 1 < Nx) (hy : 1 < Ny) (P : ℕ) (design : Grid Nx Ny ℝ) (W : Mat (Nx * Ny) ℝ) (i1 : Fin Nx) (j1 : Fin Ny) (c : ℝ) :
    ∃ (p src : Grid Nx Ny ℂ),
      let o := gopt P src (Objective.mk' (linearJ p) [⟨.Ez, false, .linear_Ez⟩]) design W
      Spec.LinearEz env o (linearJ p) [⟨.Ez, false, .linear_Ez⟩] (fun _ _ => 0) ∧
      (Opt.compute_dJ env o).1 = .ok fun i j =>
        c * (4 * drhob_drhot (rho2rhot (fun _ _ => 0) W i1 j1) (1 / 2) 1 * (W (finProdFinEquiv (i, j)) (finProdFinEquiv (i1, j1)) * design i1 j1)) := by
  have hdet := fun src => gsim_det hx hy P src
  have hAs : ∀ src, (gsim Nx Ny P src).A = (gsim Nx Ny P (fun _ _ => 0)).A := fun _ => rfl
  generalize hA : (gsim Nx Ny P (fun _ _ => 0)).A = A at hAs
  let d : Grid Nx Ny ℂ := Spec.single i1 j1
  let src : Grid Nx Ny ℂ := unflatten fun k => (A *ᵥ flatten d) k / Complex.I
  let p : Grid Nx Ny ℂ := unflatten (-(Aᵀ *ᵥ ((c : ℂ) • flatten d)))
  have hS := gopt_setup env hx hy P src (linearJ p) [⟨.Ez, false, .linear_Ez⟩] design W rfl (linearJ_autograd p)
  refine ⟨p, src, hS, ?_⟩
  obtain ⟨x, g, f, h1, -, -, h3, -⟩ := gradient_Ez_formula env he _ _ _ _ hS (by
    intro a ha
    rw [List.mem_singleton] at ha
    rw [ha]; exact ⟨rfl, trivial, rfl⟩) i1 j1
  rw [h1]
  congr 1
  funext i j
  rw [h3]
  have hX : solver_direct env (gsim Nx Ny P src).A (gsim Nx Ny P src).rhs = flatten d := by
    refine solver_direct_unique he (hdet src) ?_
    rw [hAs]
    funext k
    show (A *ᵥ flatten d) k = flatten src k * Complex.I * ((1 : ℝ) : ℂ)
    rw [show (flatten src : Vec (Nx * Ny) ℂ) = fun k => (A *ᵥ flatten d) k / Complex.I from flatten_unflatten _, div_mul_cancel₀ _ Complex.I_ne_zero]
    simp
  have haj : solver_direct env (gsim Nx Ny P src).Aᵀ (-(flatten p)) = (c : ℂ) • flatten d := by
    refine solver_direct_unique he (by rw [Matrix.det_transpose]; exact hdet src) ?_
    rw [show (flatten p : Vec (Nx * Ny) ℂ) = -(Aᵀ *ᵥ ((c : ℂ) • flatten d)) from flatten_unflatten _, neg_neg, hAs]
  have e : ∀ k : Fin 1, unflatten (solver_direct env (gopt P src (Objective.mk' (linearJ p) [⟨.Ez, false, .linear_Ez⟩]) design W).simulation.Aᵀ
      (-(linPart (gopt P src (Objective.mk' (linearJ p) [⟨.Ez, false, .linear_Ez⟩]) design W).simulation ((linearJ p).partials k x)
        ((([⟨.Ez, false, .linear_Ez⟩] : List ObjArg)[(k : ℕ)]?.map ObjArg.component).getD .Ez)))) = fun i j => (c : ℂ) * d i j := by
    intro k
    obtain rfl : k = 0 := Subsingleton.elim _ _
    refine (congrArg unflatten haj).trans ?_
    funext i j
    show (c : ℂ) * flatten d (finProdFinEquiv (i, j)) = _
    rw [flatten_pair]
  have e2 : (unflatten (solver_direct env (gopt P src (Objective.mk' (linearJ p) [⟨.Ez, false, .linear_Ez⟩]) design W).simulation.A
      (gopt P src (Objective.mk' (linearJ p) [⟨.Ez, false, .linear_Ez⟩]) design W).simulation.rhs) : Grid Nx Ny ℂ) = d := (congrArg unflatten hX).trans (unflatten_flatten _)
  rw [e2, show (∑ k : Fin (linearJ p).arity, _ : ℝ) = ∑ k : Fin 1, _ from rfl, Fin.sum_univ_one]
  beta_reduce
  rw [e 0, tail_Ez_apply]
  have hmul : ∀ (a b : Fin Nx → Fin Ny → ℂ), ∑ i, ∑ j, (c : ℂ) * d i j * (a i j * (b i j * d i j)) = (c : ℂ) * (a i1 j1 * b i1 j1) := by
    intro a b
    have : ∀ i j, (c : ℂ) * d i j * (a i j * (b i j * d i j)) = Spec.single i1 j1 i j * ((c : ℂ) * (a i j * (b i j * d i j))) := by
      intro i j
      show (c : ℂ) * Spec.single i1 j1 i j * _ = _
      ring
    simp only [this]
    rw [sum_single]
    have hd : d i1 j1 = 1 := if_pos ⟨rfl, rfl⟩
    rw [hd, mul_one]
  rw [hmul (fun _ _ => _) (fun i' j' => _)]
  have hE : ((EPSILON_0 * (gsim Nx Ny P src).L0 : ℝ) : ℂ) = 1 := by rw [show EPSILON_0 * (gsim Nx Ny P src).L0 = 1 from eps0_norm]; simp
  show ((c : ℂ) * (((1 : ℝ) : ℂ) ^ 2 * ((EPSILON_0 * (gsim Nx Ny P src).L0 : ℝ) : ℂ) *
    (((5 - 1) * drhob_drhot (rho2rhot (fun _ _ => 0) W i1 j1) (1 / 2) 1 * (W (finProdFinEquiv (i, j)) (finProdFinEquiv (i1, j1)) * design i1 j1) : ℝ) : ℂ))).re = _
  rw [hE, Complex.ofReal_one, one_pow, one_mul, one_mul, ← Complex.ofReal_mul, Complex.ofReal_re]
  norm_num

/-- The hypotheses of `C67_gd_ascent_partial` and `C67_adam_ascent_partial` can be met, on any grid with at least two cells each way: at zero density every pixel can move up, and the gradient of the
witness is positive at the pixel. -/
example (env : Env) (he : env.Exact) (hx : 1 < Nx) (hy : 1 < Ny) (i1 : Fin Nx) (j1 : Fin Ny) :
    ∃ (p src : Grid Nx Ny ℂ) (s0 : ℝ), 0 < s0 ∧
      let o := gopt 1 src (Objective.mk' (linearJ p) [⟨.Ez, false, .linear_Ez⟩]) (fun _ _ => 1) 1
      ∀ s, 0 < s → s < s0 → ∃ o' v v', Opt.run env "gd" 1 s 0.9 0.999 [] [] o = (.ok (), o') ∧ (Opt.J_self env o).1 = .ok v ∧ (Opt.J_self env o').1 = .ok v' ∧ v < v' := by
  obtain ⟨p, src, hS, hg⟩ := unit_witness env he hx hy 1 (fun _ _ => 1) 1 i1 j1 1
  have hpos : 0 < 1 * (4 * drhob_drhot (rho2rhot (fun _ _ => 0) (1 : Mat (Nx * Ny) ℝ) i1 j1) (1 / 2) 1 * ((1 : Mat (Nx * Ny) ℝ) (finProdFinEquiv (i1, j1)) (finProdFinEquiv (i1, j1)) * 1)) := by
    rw [Matrix.one_apply_eq]
    have := drhob_drhot_pos (rho2rhot (fun _ _ => 0) (1 : Mat (Nx * Ny) ℝ) i1 j1)
    positivity
  obtain ⟨s0, hs0, h⟩ := C67_gd_ascent_partial env he _ _ _ _ hS (fun a ha => ⟨"Ez", by simp, by rw [List.mem_singleton] at ha; rw [ha]; rfl⟩) rfl (fun _ _ => Or.inr rfl)
    (fun _ _ => ⟨le_rfl, zero_le_one⟩) (fun i j h => filterSym_one (fun _ _ => Or.inr rfl) h) _ hg i1 j1 rfl
    (Or.inl ⟨hpos, zero_lt_one⟩) 0.9 0.999 [] []
  exact ⟨p, src, s0, hs0, h⟩

/-! ## C68 -/

/-- A direction in which the densities at the design pixels can be changed without leaving `[0, 1]`. -/
def Spec.Admissible (design rho v : Grid Nx Ny ℝ) : Prop := ∀ i j, (v i j ≠ 0 → design i j = 1) ∧ (0 < v i j → rho i j < 1) ∧ (v i j < 0 → 0 < rho i j)

theorem clip01_fixed {x u : ℝ} (hx : 0 ≤ x ∧ x ≤ 1) : Opt.clip01 (x + u) = x ↔ ¬ ((0 < u ∧ x < 1) ∨ (u < 0 ∧ 0 < x)) := by
  unfold Opt.clip01
  simp only
  by_cases h0 : x + u < 0
  · rw [if_pos h0, if_neg (by norm_num : ¬ ((1 : ℝ) < 0))]
    constructor
    · rintro rfl
      rintro (⟨h, -⟩ | ⟨-, h⟩) <;> linarith
    · intro h
      by_contra hne
      exact h (Or.inr ⟨by linarith [hx.1], lt_of_le_of_ne hx.1 hne⟩)
  · rw [if_neg h0]
    by_cases h1 : 1 < x + u
    · rw [if_pos h1]
      constructor
      · rintro rfl
        rintro (⟨-, h⟩ | ⟨h, -⟩) <;> linarith
      · intro h
        by_contra hne
        exact h (Or.inl ⟨by linarith [hx.2], lt_of_le_of_ne hx.2 (Ne.symm hne)⟩)
    · rw [if_neg h1]
      constructor
      · intro h
        have : u = 0 := by linarith
        rw [this]
        rintro (⟨h, -⟩ | ⟨h, -⟩) <;> exact lt_irrefl _ h
      · intro h
        rcases lt_trichotomy u 0 with hu | hu | hu
        · exact absurd (Or.inr ⟨hu, by linarith⟩) h
        · rw [hu, add_zero]
        · exact absurd (Or.inl ⟨hu, by linarith⟩) h

/-- **C68.** Under the conditions of C67 and for every positive step size: one step of `run('gd')` leaves the densities as they are exactly when the present density is a
first-order optimum under the bounds, i.e. the objective `F` (the value of `compute_J` as a function of the density) does not increase to first order in any admissible direction. -/
theorem C68_gd_stationary (env : Env) (he : env.Exact) (o : Opt Nx Ny) (J : ObjFn Nx Ny) (args : List ObjArg) (rho : Grid Nx Ny ℝ) (hS : Spec.LinearEz env o J args rho)
    (hargs : ∀ a ∈ args, ∃ c, c ∈ ["Ez", "Hx", "Hy"] ∧ ObjArg.init c false = .ok a) (hsh : o.max_ind_shift = none) (hm : Spec.Mask o.design_region)
    (hbox : ∀ i j, 0 ≤ rho i j ∧ rho i j ≤ 1) (hW : ∀ i j, o.design_region i j = 1 → Spec.FilterSym o.W o.design_region i j)
    (s : ℝ) (hs : 0 < s) (b1 b2 : ℝ) (calls : List Opt.LbfgsCall) (x : List ℝ) :
    ∃ (o' : Opt Nx Ny) (F : Grid Nx Ny ℝ → ℝ), Opt.run env "gd" 1 s b1 b2 calls x o = (.ok (), o') ∧
      (∀ rho', (Opt.compute_J env o (some (Spec.simAt o rho'))).1 = .ok (F rho')) ∧
      (∀ v : Grid Nx Ny ℝ, Spec.Admissible o.design_region rho v → DifferentiableAt ℝ (fun t : ℝ => F fun i j => rho i j + t * v i j) 0) ∧
      (o'.simulation.rho = some (some rho) ↔
        ∀ v : Grid Nx Ny ℝ, Spec.Admissible o.design_region rho v → deriv (fun t : ℝ => F fun i j => rho i j + t * v i j) 0 ≤ 0) := by
  have ha := args_of_init hargs
  obtain ⟨hlen, hmk⟩ := objective_init_ok hS.obj
  obtain ⟨g, hg, hder⟩ := gradient_path_Ez env he o J args rho hS ha hlen
  obtain ⟨o1, o2, o3, g', h1, h2, h3, h4, h5⟩ := iteration_Ez env hS ha hlen hsh
  have hgg : g' = g := Except.ok.inj (h4.symm.trans hg)
  subst hgg
  obtain ⟨o', hu, -, -, -, -, hrho, -⟩ := h5 g' s
  have hstep : Opt.stepGD env s o = (.ok (), o') := by
    unfold Opt.stepGD
    rw [h1]
    simp only [pySeq]
    rw [h2]
    simp only
    rw [h3]
    exact hu
  have hcur : { o with fields_current := false } = o := by rw [← hS.stale]
  have hlin : ∀ (v : Grid Nx Ny ℝ) i j, HasDerivAt (fun t : ℝ => rho i j + t * v i j) (v i j) 0 := by
    intro v i j
    have := ((hasDerivAt_id (0 : ℝ)).mul_const (v i j)).const_add (rho i j)
    rw [one_mul] at this
    exact this
  have hD : ∀ v : Grid Nx Ny ℝ, Spec.Admissible o.design_region rho v →
      HasDerivAt (fun t : ℝ => linObj env o J args hlen fun i j => rho i j + t * v i j) (∑ i, ∑ j, g' i j * v i j) 0 := by
    intro v hv
    exact hder (fun t i j => rho i j + t * v i j) v (by funext i j; rw [zero_mul, add_zero]) (hlin v) (fun i j h => hW i j ((hv i j).1 h))
  refine ⟨o', linObj env o J args hlen, ?_, fun rho' => compute_J_linObj env o J args hmk hS.stale hS.pol (fun a h => ⟨(ha a h).1, (ha a h).2.1⟩) hlen rho',
    fun v hv => (hD v hv).differentiableAt, ?_⟩
  · rw [run_gd hS.density lower_gd, hcur]
    unfold Opt.run_GD
    rw [hstep]
    rfl
  have hkey : o'.simulation.rho = some (some rho) ↔ ∀ i j, o.design_region i j = 1 → ¬ Spec.CanMove rho g' i j := by
    rw [hrho, Option.some.injEq, Option.some.injEq, funext_iff]
    constructor
    · intro h i j hd hmv
      have hij := congrFun (h i) j
      rw [hd, one_mul, clip01_fixed (hbox i j)] at hij
      refine hij ?_
      rcases hmv with ⟨h1, h2⟩ | ⟨h1, h2⟩
      · exact Or.inl ⟨mul_pos hs h1, h2⟩
      · exact Or.inr ⟨mul_neg_of_pos_of_neg hs h1, h2⟩
    · intro h i
      funext j
      rcases hm i j with hd | hd
      · rw [hd, zero_mul, zero_mul, add_zero]
        exact clip01_of_mem (hbox i j)
      · rw [hd, one_mul, clip01_fixed (hbox i j)]
        intro hc
        refine h i j hd ?_
        rcases hc with ⟨h1, h2⟩ | ⟨h1, h2⟩
        · exact Or.inl ⟨(mul_pos_iff_of_pos_left hs).1 h1, h2⟩
        · exact Or.inr ⟨by by_contra hcon; exact absurd h1 (not_lt.2 (mul_nonneg hs.le (not_lt.1 hcon))), h2⟩
  rw [hkey]
  constructor
  · intro h v hv
    rw [(hD v hv).deriv]
    refine Finset.sum_nonpos fun i _ => Finset.sum_nonpos fun j _ => ?_
    by_cases hv0 : v i j = 0
    · rw [hv0, mul_zero]
    · have hn := h i j ((hv i j).1 hv0)
      unfold Spec.CanMove at hn
      rw [not_or, not_and_or, not_and_or, not_lt, not_lt, not_lt, not_lt] at hn
      rcases lt_or_gt_of_ne hv0 with hneg | hpos
      · have := (hv i j).2.2 hneg
        exact mul_nonpos_of_nonneg_of_nonpos (hn.2.resolve_right (not_le.2 this)) hneg.le
      · have := (hv i j).2.1 hpos
        exact mul_nonpos_of_nonpos_of_nonneg (hn.1.resolve_right (not_le.2 this)) hpos.le
  · intro h i j hd hmv
    let v : Grid Nx Ny ℝ := fun i' j' => if i' = i ∧ j' = j then g' i j else 0
    have hvij : v i j = g' i j := if_pos ⟨rfl, rfl⟩
    have hne : ∀ i' j', ¬ (i' = i ∧ j' = j) → v i' j' = 0 := fun i' j' hc => if_neg hc
    have hadm : Spec.Admissible o.design_region rho v := by
      intro i' j'
      by_cases hc : i' = i ∧ j' = j
      · obtain ⟨rfl, rfl⟩ := hc
        rw [hvij]
        refine ⟨fun _ => hd, fun hp => ?_, fun hn => ?_⟩
        · rcases hmv with ⟨-, h2⟩ | ⟨h1, -⟩
          · exact h2
          · exact absurd h1 (not_lt.2 hp.le)
        · rcases hmv with ⟨h1, -⟩ | ⟨-, h2⟩
          · exact absurd h1 (not_lt.2 hn.le)
          · exact h2
      · rw [hne i' j' hc]
        exact ⟨fun h => absurd rfl h, fun h => absurd h (lt_irrefl _), fun h => absurd h (lt_irrefl _)⟩
    have hle := h v hadm
    rw [(hD v hadm).deriv] at hle
    have hsum : ∑ i', ∑ j', g' i' j' * v i' j' = g' i j ^ 2 := by
      rw [Finset.sum_eq_single i, Finset.sum_eq_single j]
      · rw [hvij]; ring
      · intro b _ hb; rw [hne i b (fun h => hb h.2), mul_zero]
      · intro h; exact absurd (Finset.mem_univ _) h
      · intro b _ hb; exact Finset.sum_eq_zero fun j' _ => by rw [hne b j' (fun h => hb h.1), mul_zero]
      · intro h; exact absurd (Finset.mem_univ _) h
    rw [hsum] at hle
    have hgne : g' i j ≠ 0 := by
      rcases hmv with ⟨h1, -⟩ | ⟨h1, -⟩
      · exact h1.ne'
      · exact h1.ne
    exact absurd hle (not_le.2 (by positivity))

/-- Both outcomes occur: with the sign of the objective of the witness reversed, zero density is stationary although the gradient is not zero; with the original sign it is not. -/
example (env : Env) (he : env.Exact) (hx : 1 < Nx) (hy : 1 < Ny) (i1 : Fin Nx) (j1 : Fin Ny) (s : ℝ) (hs : 0 < s) (c : ℝ) :
    ∃ (p src : Grid Nx Ny ℂ) (o' : Opt Nx Ny),
      let o := gopt 1 src (Objective.mk' (linearJ p) [⟨.Ez, false, .linear_Ez⟩]) (fun _ _ => 1) 1
      Opt.run env "gd" 1 s 0.9 0.999 [] [] o = (.ok (), o') ∧ (o'.simulation.rho = some (some fun _ _ => 0) ↔ c ≤ 0) := by
  obtain ⟨p, src, hS, hg⟩ := unit_witness env he hx hy 1 (fun _ _ => 1) 1 i1 j1 c
  have ha : ∀ a ∈ ([⟨.Ez, false, .linear_Ez⟩] : List ObjArg), ∃ n, n ∈ ["Ez", "Hx", "Hy"] ∧ ObjArg.init n false = .ok a :=
    fun a ha => ⟨"Ez", by simp, by rw [List.mem_singleton] at ha; rw [ha]; rfl⟩
  obtain ⟨o', F, h1, h2, h3, h4⟩ := C68_gd_stationary env he _ _ _ _ hS ha rfl (fun _ _ => Or.inr rfl) (fun _ _ => ⟨le_rfl, zero_le_one⟩)
    (fun i j h => filterSym_one (fun _ _ => Or.inr rfl) h) s hs 0.9 0.999 [] []
  refine ⟨p, src, o', h1, h4.trans ?_⟩
  obtain ⟨hlen, hmk⟩ := objective_init_ok hS.obj
  obtain ⟨g, hg', hder⟩ := gradient_path_Ez env he _ _ _ _ hS (args_of_init ha) hlen
  have hF : F = linObj env (gopt 1 src (Objective.mk' (linearJ p) [⟨.Ez, false, .linear_Ez⟩]) (fun _ _ => 1) 1) (linearJ p) [⟨.Ez, false, .linear_Ez⟩] hlen := by
    funext rho'
    exact Except.ok.inj ((h2 rho').symm.trans (compute_J_linObj env _ _ _ hmk hS.stale hS.pol (fun a h => ⟨(args_of_init ha a h).1, (args_of_init ha a h).2.1⟩) hlen rho'))
  have hgg : ∀ i j, g i j = c * (4 * drhob_drhot (rho2rhot (fun _ _ => 0) (1 : Mat (Nx * Ny) ℝ) i1 j1) (1 / 2) 1 *
      ((1 : Mat (Nx * Ny) ℝ) (finProdFinEquiv (i, j)) (finProdFinEquiv (i1, j1)) * 1)) := fun i j => congrFun (congrFun (Except.ok.inj (hg'.symm.trans hg)) i) j
  have hD : ∀ v : Grid Nx Ny ℝ, HasDerivAt (fun t : ℝ => F fun i j => (0 : ℝ) + t * v i j) (∑ i, ∑ j, g i j * v i j) 0 := by
    intro v
    rw [hF]
    refine hder (fun t i j => 0 + t * v i j) v (by funext i j; rw [zero_mul, add_zero]) (fun i j => ?_) (fun i j _ => filterSym_one (fun _ _ => Or.inr rfl) rfl)
    have := ((hasDerivAt_id (0 : ℝ)).mul_const (v i j)).const_add 0
    rw [one_mul] at this
    exact this
  have hdp := drhob_drhot_pos (rho2rhot (fun _ _ => 0) (1 : Mat (Nx * Ny) ℝ) i1 j1)
  have hsum : ∀ v : Grid Nx Ny ℝ, ∑ i, ∑ j, g i j * v i j = c * (4 * drhob_drhot (rho2rhot (fun _ _ => 0) (1 : Mat (Nx * Ny) ℝ) i1 j1) (1 / 2) 1) * v i1 j1 := by
    intro v
    have hz : ∀ i j, ¬ (i = i1 ∧ j = j1) → g i j = 0 := by
      intro i j hc
      rw [hgg, Matrix.one_apply_ne fun h => hc (by simpa only [Prod.mk.injEq] using finProdFinEquiv.injective h)]
      ring
    rw [Finset.sum_eq_single i1, Finset.sum_eq_single j1]
    · rw [hgg, Matrix.one_apply_eq]; ring
    · intro b _ hb; rw [hz i1 b (fun h => hb h.2), zero_mul]
    · intro h; exact absurd (Finset.mem_univ _) h
    · intro b _ hb; exact Finset.sum_eq_zero fun j' _ => by rw [hz b j' (fun h => hb h.1), zero_mul]
    · intro h; exact absurd (Finset.mem_univ _) h
  constructor
  · intro h
    have hone := h (fun _ _ => 1) (fun i j => ⟨fun _ => rfl, fun _ => zero_lt_one, fun h => absurd h (by norm_num)⟩)
    rw [(hD _).deriv, hsum] at hone
    by_contra hc
    have : 0 < c := not_le.1 hc
    have : 0 < c * (4 * drhob_drhot (rho2rhot (fun _ _ => 0) (1 : Mat (Nx * Ny) ℝ) i1 j1) (1 / 2) 1) * 1 := by positivity
    linarith
  · intro hc v hv
    rw [(hD v).deriv, hsum]
    have hv0 : 0 ≤ v i1 j1 := by
      by_contra hn
      exact absurd ((hv i1 j1).2.2 (not_le.1 hn)) (lt_irrefl _)
    exact mul_nonpos_of_nonpos_of_nonneg (mul_nonpos_of_nonpos_of_nonneg hc (by positivity)) hv0

end Angler
