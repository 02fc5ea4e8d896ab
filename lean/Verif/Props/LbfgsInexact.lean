import Verif.Props.RunInexact
import Verif.Props.LbfgsValues
import Verif.Props.KerrRun

/-! # C122: one accuracy of the linear solves for all densities; the values L-BFGS-B receives -/

namespace Angler

open Matrix Filter Topology

variable {Nx Ny : ℕ}

theorem exact_within_any {env : Env} (he : env.Exact) {τ : ℝ} (hτ : 0 ≤ τ) : env.Within τ := by
  intro n A b hA
  rw [he.solveC_spec A b hA, sub_self, norm_zero]
  positivity

theorem box_compact : IsCompact {x : Grid Nx Ny ℝ | Spec.Box x} := by
  have : {x : Grid Nx Ny ℝ | Spec.Box x} = Set.pi Set.univ fun _ => Set.pi Set.univ fun _ => Set.Icc (0 : ℝ) 1 := by
    ext x
    simp only [Set.mem_ofPred_eq, Set.mem_pi, Set.mem_univ, true_imp_iff, Set.mem_Icc]
    exact Iff.rfl
  rw [this]
  exact isCompact_univ_pi fun _ => isCompact_univ_pi fun _ => isCompact_Icc

namespace Spec.EzProblem
variable {o : Opt Nx Ny} {J : ObjFn Nx Ny} {args : List ObjArg}

/-- Values and gradients are accurate uniformly in the density. -/
theorem uniform_box (h : Spec.EzProblem o J args) (hc : ∀ k, Continuous (J.partials k)) {env0 : Env} (he : env0.Exact) (δ : ℝ) (hδ : 0 < δ) :
    ∃ τ, 0 < τ ∧ ∀ env : Env, env.Within τ → ∀ x, Spec.Box x → |Angler.linObj env o J args h.len x - Angler.linObj env0 o J args h.len x| < δ ∧
      ∀ i j, |gradAt env o J args h.len x i j - gradAt env0 o J args h.len x i j| < δ := by
  refine uniform_of_sequences _ fun env hw => ?_
  by_contra hcon
  have hbad : ∀ k, ∃ x, Spec.Box x ∧ ¬ (|Angler.linObj (env k) o J args h.len x - Angler.linObj env0 o J args h.len x| < δ ∧
      ∀ i j, |gradAt (env k) o J args h.len x i j - gradAt env0 o J args h.len x i j| < δ) := by
    intro k
    by_contra hk
    refine hcon ⟨k, fun x hx => ?_⟩
    by_contra hb
    exact hk ⟨x, hx, hb⟩
  choose x hx hb using hbad
  obtain ⟨x0, hx0, φ, hφ, ht⟩ := box_compact.tendsto_subseq hx
  have hw' : ∀ k : ℕ, (env (φ k)).Within (1 / ((k : ℝ) + 1)) := fun k => fun A b hA => ((hw (φ k)) A b hA).trans (by
    have : (k : ℝ) ≤ φ k := by exact_mod_cast hφ.id_le k
    gcongr)
  have hw0 : ∀ k : ℕ, env0.Within (1 / ((k : ℝ) + 1)) := fun k => exact_within_any he (by positivity)
  have l1 := h.linObj_tendsto_var hw' he (fun k => hx (φ k)) hx0 ht
  have l2 := h.linObj_tendsto_var hw0 he (fun k => hx (φ k)) hx0 ht
  have g1 := h.gradAt_tendsto hc hw' he (fun k => hx (φ k)) hx0 ht
  have g2 := h.gradAt_tendsto hc hw0 he (fun k => hx (φ k)) hx0 ht
  have e1 : ∀ᶠ k in atTop, |Angler.linObj (env (φ k)) o J args h.len (x (φ k)) - Angler.linObj env0 o J args h.len (x (φ k))| < δ := by
    have := l1.sub l2
    rw [sub_self] at this
    have := Metric.tendsto_nhds.1 this δ hδ
    simpa only [Real.dist_eq, sub_zero] using this
  have e2 : ∀ᶠ k in atTop, ∀ i j, |gradAt (env (φ k)) o J args h.len (x (φ k)) i j - gradAt env0 o J args h.len (x (φ k)) i j| < δ := by
    refine eventually_all.2 fun i => eventually_all.2 fun j => ?_
    have := (tendsto_pi_nhds.1 (tendsto_pi_nhds.1 g1 i) j).sub (tendsto_pi_nhds.1 (tendsto_pi_nhds.1 g2 i) j)
    rw [sub_self] at this
    have := Metric.tendsto_nhds.1 this δ hδ
    simpa only [Real.dist_eq, sub_zero] using this
  obtain ⟨k, k1, k2⟩ := (e1.and e2).exists
  exact hb (φ k) ⟨k1, k2⟩

end Spec.EzProblem

/-! ## States between the calls of L-BFGS-B -/

/-- Reachable states with a density in the box. -/
structure LbfgsBox (o : Opt Nx Ny) (rho : Grid Nx Ny ℝ) (o1 : Opt Nx Ny) : Prop where
  reach : LbfgsReach o rho o1
  box : ∀ r, o1.simulation.rho = some (some r) → Spec.Box r

theorem lbfgsBox_call (env : Env) (o : Opt Nx Ny) (rho : Grid Nx Ny ℝ) (hsh : o.max_ind_shift = none) : CallInv env (LbfgsBox o rho) where
  keep := fun o1 o2 hk h => ⟨(lbfgsReach_call env o rho hsh).keep o1 o2 hk h.reach, fun r hr => h.box r (hk.sim.rho.symm.trans hr)⟩
  log := fun o1 l h => ⟨(lbfgsReach_call env o rho hsh).log o1 l h.reach, h.box⟩
  stale := fun o1 h => ⟨(lbfgsReach_call env o rho hsh).stale o1 h.reach, h.box⟩
  amp := by
    intro o1 h
    refine ⟨(lbfgsReach_call env o rho hsh).amp o1 h.reach, ?_⟩
    have hn : o1.max_ind_shift = none := h.reach.same.shift.trans hsh
    unfold Opt.set_source_amplitude
    simp only [hn]
    exact h.box

/-- `_set_design_region(x)` within the bounds. -/
theorem lbfgsBox_set {o o1 : Opt Nx Ny} {rho : Grid Nx Ny ℝ} (hsh : o.max_ind_shift = none) (h : LbfgsBox o rho o1) (x : List ℝ) (hx : x.length = (Opt.desPts o).length) (hxb : ∀ t ∈ x, 0 ≤ t ∧ t ≤ 1) :
    ∃ o2 r, Opt.set_design_region o1 x = (.ok (), o2) ∧ LbfgsBox o rho o2 ∧ StateAt o r o2 ∧ Spec.NearVector o.design_region rho (Opt.desPts o) x r := by
  obtain ⟨r, hr, heps, hoff⟩ := h.reach.density
  have hd : o1.design_region = o.design_region := h.reach.same.design
  have hb := h.box r hr
  have hdi : Opt.desIdx o1 = Opt.desIdx o := desIdx_congr hd
  have hdp : ∀ r : Grid Nx Ny ℝ, Opt.get_design_region o1 r = (Opt.desPts o).map fun p => r p.1 p.2 := by
    intro r
    rw [desPts_read, Opt.get_design_region, Opt.get_design_region, hdi]
  have hlen : x.length = (Opt.desIdx o1).length := by rw [hx, hdi, Opt.desPts, List.length_map]
  rcases set_design_region_cases o1 r hr x hlen with ⟨h1, h2⟩ | ⟨h1, h2⟩
  · rw [hdp] at h2
    have hs := h.reach.same
    exact ⟨_, r, h1, (lbfgsBox_call (exactEnv .pardiso) o rho hsh).stale o1 h,
      ⟨⟨hs.objective, hs.W, hs.design, hs.eps_m, hs.eta, hs.beta, hs.shift, hs.omega, hs.L0, hs.NPML, hs.pol, hs.src, hs.xrange, hs.yrange⟩, h.reach.valid, rfl, hr, heps⟩, hb, hoff, h2⟩
  · have hread : (Opt.desPts o).map (fun p => (unflatten (Opt.maskAssign (Opt.desIdx o1) x (flatten r)) : Grid Nx Ny ℝ) p.1 p.2) = x := by
      rw [← hdp, Opt.get_design_region, flatten_unflatten]
      exact maskAssign_read _ (desIdx_nodup o1) x hlen _
    have hbox : Spec.Box (unflatten (Opt.maskAssign (Opt.desIdx o1) x (flatten r)) : Grid Nx Ny ℝ) := by
      intro i j
      by_cases hij : o.design_region i j = 1
      · refine hxb _ ?_
        have hmem := ((desPts_enumerates o).2 i j).2 hij
        have := List.mem_map_of_mem (f := fun p : Fin Nx × Fin Ny => (unflatten (Opt.maskAssign (Opt.desIdx o1) x (flatten r)) : Grid Nx Ny ℝ) p.1 p.2) hmem
        rwa [hread] at this
      · rw [unflatten_maskAssign_outside o1 x r i j (by rw [hd]; exact hij)]
        exact hb i j
    refine ⟨_, unflatten (Opt.maskAssign (Opt.desIdx o1) x (flatten r)), h1, ⟨lbfgsReach_put h.reach hr x, fun q hq => ?_⟩, ⟨h.reach.same.trans (SameProblem.putRho _ _), valid_putRho h.reach.valid _, rfl, rfl, rfl⟩,
      hbox, fun i j hij => ?_, ?_⟩
    · obtain rfl : unflatten (Opt.maskAssign (Opt.desIdx o1) x (flatten r)) = q := Option.some.inj (Option.some.inj hq)
      exact hbox
    · rw [unflatten_maskAssign_outside o1 x r i j (by rw [hd]; exact hij), hoff i j hij]
    · rw [hread, distance_self]
      exact mul_nonneg (by norm_num) (Real.sqrt_nonneg _)

/-- Any calls within the bounds lead to such states. -/
theorem lbfgsBox_calls (env : Env) (o : Opt Nx Ny) (rho : Grid Nx Ny ℝ) (hsh : o.max_ind_shift = none) (cs : List Opt.LbfgsCall)
    (hcs : ∀ c ∈ cs, (Spec.callArg c).length = (Opt.desPts o).length ∧ ∀ t ∈ Spec.callArg c, 0 ≤ t ∧ t ≤ 1) (o1 : Opt Nx Ny) (h1 : LbfgsBox o rho o1) : LbfgsBox o rho (Opt.lbfgsCalls env cs o1).2 := by
  have inv := lbfgsBox_call env o rho hsh
  have hset : ∀ c ∈ cs, ∀ o1, LbfgsBox o rho o1 → LbfgsBox o rho (Opt.set_design_region o1 (Spec.callArg c)).2 := by
    intro c hc o1 h
    obtain ⟨o2, r, e1, e2, -⟩ := lbfgsBox_set hsh h (Spec.callArg c) (hcs c hc).1 (hcs c hc).2
    rw [e1]
    exact e2
  clear hcs
  induction cs generalizing o1 with
  | nil => exact h1
  | cons c cs ih =>
    refine pySeq_snd (LbfgsBox o rho) _ _ ?_ fun _ o2 _ h2 => ih o2 h2 fun c' hc' => hset c' (List.mem_cons_of_mem _ hc')
    have hs := hset c List.mem_cons_self
    cases c with
    | objfn x =>
      refine pySeq_snd (LbfgsBox o rho) _ _ (hs o1 h1) fun _ o1 _ h1 => ?_
      exact pySeq_snd (LbfgsBox o rho) _ _ (inv.keep _ _ (OptKeep.J_self env o1) h1) fun _ o2 _ h2 => h2
    | grad x =>
      refine pySeq_snd (LbfgsBox o rho) _ _ (hs o1 h1) fun _ o1 _ h1 => ?_
      exact pySeq_snd (LbfgsBox o rho) _ _ (inv.keep _ _ (OptKeep.dJ_self env o1) h1) fun _ o2 _ h2 => h2
    | callback x =>
      refine pySeq_snd (LbfgsBox o rho) _ _ (inv.keep _ _ (OptKeep.J_self env o1) h1) fun J o1 _ h1 => ?_
      refine pySeq_snd (LbfgsBox o rho) _ _ (hs _ (inv.log _ _ h1)) fun _ o2 _ h2 => ?_
      exact pySeq_snd (LbfgsBox o rho) _ _ (inv.amp _ h2) fun _ o3 _ h3 => h3

/-! ## The theorems -/

theorem Spec.EzProblem.knows {o : Opt Nx Ny} {J : ObjFn Nx Ny} {args : List ObjArg} (h : Spec.EzProblem o J args) {env0 : Env} (he : env0.Exact) {F : Grid Nx Ny ℝ → ℝ} (hF : Spec.IsObjective env0 o F)
    {x : Grid Nx Ny ℝ} (hx : Spec.Box x) {δ v : ℝ} {g : Grid Nx Ny ℝ} (hv : |v - F x| ≤ δ) (hg : ∀ i j, |g i j - gradAt env0 o J args h.len x i j| ≤ δ) :
    Spec.KnowsTo o.design_region F δ δ x v g := by
  refine ⟨hv, fun i j hd => ⟨gradAt env0 o J args h.len x i j, ?_, hg i j⟩⟩
  have hder := (h.gradient env0 he hF hx (h.stateAt_putRho x) (h.compute_dJ_gradAt env0 hx _ (h.stateAt_putRho x))).2 (fun t => Spec.bump x i j t) (fun p q => if p = i ∧ q = j then 1 else 0)
    (bump_zero x i j) (hasDerivAt_bump x i j) (fun p q hpq => by
      have : p = i ∧ q = j := by by_contra hc; exact hpq (if_neg hc)
      rw [this.1, this.2]
      exact hd)
  have hsum : ∑ p, ∑ q, gradAt env0 o J args h.len x p q * (if p = i ∧ q = j then (1 : ℝ) else 0) = gradAt env0 o J args h.len x i j := by
    rw [Finset.sum_eq_single i, Finset.sum_eq_single j]
    · simp
    · intro q _ hq; simp [hq]
    · intro hc; exact absurd (Finset.mem_univ _) hc
    · intro p _ hp; simp [hp]
    · intro hc; exact absurd (Finset.mem_univ _) hc
  rwa [hsum] at hder

/-- **C122, uniform accuracy.** For an Ez problem whose objective has continuous derivatives and every `δ > 0` there is one accuracy of the linear solves with which, at every density in the box and for
every solver of that accuracy, the value and the gradient the code computes are within `δ` of the exact objective and of its derivatives at the design pixels. -/
theorem C122_uniform (env0 : Env) (he : env0.Exact) (o : Opt Nx Ny) (J : ObjFn Nx Ny) (args : List ObjArg) (h : Spec.EzProblem o J args) (hc : ∀ k, Continuous (J.partials k)) (F : Grid Nx Ny ℝ → ℝ)
    (hF : Spec.IsObjective env0 o F) (δ : ℝ) (hδ : 0 < δ) :
    ∃ τ, 0 < τ ∧ ∀ env : Env, env.Within τ → ∀ x, Spec.Box x → ∃ v g, (Opt.compute_J env { o with fields_current := false } (some (Spec.simAt o x))).1 = .ok v ∧
      (Opt.compute_dJ env { Opt.putRho o x with fields_current := false }).1 = .ok g ∧ Spec.KnowsTo o.design_region F δ δ x v g := by
  obtain ⟨τ, hτ, hu⟩ := h.uniform_box hc he δ hδ
  refine ⟨τ, hτ, fun env hw x hx => ⟨_, _, h.isObjective env x, h.compute_dJ_gradAt env hx _ (h.stateAt_putRho x), h.knows he hF hx ?_ fun i j => ((hu env hw x hx).2 i j).le⟩⟩
  rw [h.objective_eq env0 hF]
  exact (hu env hw x hx).1.le

/-- **C122, L-BFGS.** Let `L` list the design pixels.  For every `δ > 0` there is an accuracy of the linear solves with which, whatever the solver and whatever calls `fmin_l_bfgs_b` has made with vectors
within the bounds, `_objfn(y)` and `_grad(y)` return the negated value and the negated derivatives of the exact objective within `δ`, at a density that agrees with `y` up to the relative tolerance of
`_set_design_region`.  The accuracy does not depend on the calls or their number. -/
theorem C122_lbfgs (env0 : Env) (he : env0.Exact) (o : Opt Nx Ny) (J : ObjFn Nx Ny) (args : List ObjArg) (h : Spec.EzProblem o J args) (hc : ∀ k, Continuous (J.partials k)) (F : Grid Nx Ny ℝ → ℝ)
    (hF : Spec.IsObjective env0 o F) (rho : Grid Nx Ny ℝ) (hbox : Spec.Box rho) (hrho : o.simulation.rho = some (some rho))
    (heps : o.simulation.eps_r = fun i j => ((rho2eps rho o.eps_m o.W o.eta o.beta i j : ℝ) : ℂ)) :
    ∃ L : List (Fin Nx × Fin Ny), Spec.Enumerates o.design_region L ∧ ∀ δ > 0, ∃ τ > 0, ∀ env : Env, env.Within τ →
      ∀ calls : List Opt.LbfgsCall, (∀ c ∈ calls, (Spec.callArg c).length = L.length ∧ ∀ t ∈ Spec.callArg c, 0 ≤ t ∧ t ≤ 1) →
      ∀ y : List ℝ, y.length = L.length → (∀ t ∈ y, 0 ≤ t ∧ t ≤ 1) → ∀ o1, (Opt.lbfgsCalls env calls o).2 = o1 → ∃ r v g, Spec.NearVector o.design_region rho L y r ∧
        (Opt.lbfgsCall env o1 (.objfn y)).1 = .ok [-v] ∧ (Opt.lbfgsCall env o1 (.grad y)).1 = .ok (L.map fun p => -g p.1 p.2) ∧ Spec.KnowsTo o.design_region F δ δ r v g := by
  refine ⟨Opt.desPts o, desPts_enumerates o, fun δ hδ => ?_⟩
  obtain ⟨τ, hτ, hu⟩ := h.uniform_box hc he δ hδ
  refine ⟨τ, hτ, fun env hw calls hcs y hy1 hy2 o1 ho1 => ?_⟩
  have h0 : LbfgsBox o rho o := ⟨⟨SameProblem.refl o, h.valid, rho, hrho, heps, fun _ _ _ => rfl⟩, fun r hr => by
    obtain rfl : rho = r := Option.some.inj (Option.some.inj (hrho.symm.trans hr))
    exact hbox⟩
  have h1 : LbfgsBox o rho o1 := ho1 ▸ lbfgsBox_calls env o rho h.shift calls hcs o h0
  obtain ⟨o2, r, hset, -, hst, hnear⟩ := lbfgsBox_set h.shift h1 y hy1 hy2
  obtain ⟨hlen, hmk⟩ := objective_init_ok h.obj
  have hJv : (Opt.J_self env o2).1 = .ok (linObj env o J args h.len r) := by
    rw [← hst.same.linObj env J args h.len r]
    exact J_self_linObj env (hst.same.objective.trans hmk) hst.valid (hst.same.pol.trans h.pol) hst.stale hst.eps h.ezArgs h.len
  have hgv : (Opt.dJ_self env o2).1 = .ok (gradAt env o J args h.len r) := h.compute_dJ_gradAt env hnear.1 o2 hst
  have hk := (OptKeep.dJ_self env o2).design
  refine ⟨r, linObj env o J args h.len r, gradAt env o J args h.len r, hnear, ?_, ?_, h.knows he hF hnear.1 ?_ fun i j => ((hu env hw r hnear.1).2 i j).le⟩
  · simp only [Opt.lbfgsCall]
    rw [hset]
    simp only [pySeq]
    generalize Opt.J_self env o2 = R at hJv ⊢
    obtain ⟨e | v, q⟩ := R
    · cases hJv
    · cases hJv
      rfl
  · simp only [Opt.lbfgsCall]
    rw [hset]
    simp only [pySeq]
    generalize Opt.dJ_self env o2 = R at hgv hk ⊢
    obtain ⟨e | g, q⟩ := R
    · cases hgv
    · simp only [Except.ok.injEq] at hgv
      simp only at hk
      subst hgv
      simp only
      rw [show (fun p : Fin Nx × Fin Ny => -gradAt env o J args h.len r p.1 p.2) = (fun b : ℝ => -b) ∘ fun p : Fin Nx × Fin Ny => gradAt env o J args h.len r p.1 p.2 from rfl, ← List.map_map, desPts_read,
        Opt.get_design_region, Opt.get_design_region, desIdx_congr (hk.trans hst.same.design)]
  · rw [h.objective_eq env0 hF]
    exact (hu env hw r hnear.1).1.le

/-! ## Whole runs of L-BFGS-B -/

namespace Spec.EzProblem
variable {o : Opt Nx Ny} {J : ObjFn Nx Ny} {args : List ObjArg}

/-- States between two calls: a density in the box, as at the start off the design pixels, and a cache that is empty or holds fields of that density. -/
def CallAt (env : Env) (h : Spec.EzProblem o J args) (rho r : Grid Nx Ny ℝ) (o1 : Opt Nx Ny) : Prop :=
  LbfgsBox o rho o1 ∧ o1.simulation.rho = some (some r) ∧
    (o1.fields_current = false ∨ o1.fields_current = true ∧ ∃ fs, fs ≠ [] ∧ o1.field_arg_list = some fs ∧ J.call fs = .ok (linObj env o J args h.len r))

theorem CallAt.state {env : Env} {h : Spec.EzProblem o J args} {rho r : Grid Nx Ny ℝ} {o1 : Opt Nx Ny} (hc : CallAt env h rho r o1) (hst : o1.fields_current = false) : StateAt o r o1 := by
  obtain ⟨h1, h2, -⟩ := hc
  obtain ⟨r', hr', heps, -⟩ := h1.reach.density
  obtain rfl : r' = r := Option.some.inj (Option.some.inj (hr'.symm.trans h2))
  exact ⟨h1.reach.same, h1.reach.valid, hst, hr', heps⟩

/-- What the fields of a stale state are worth. -/
theorem solve_at (h : Spec.EzProblem o J args) (hne : args ≠ []) (env : Env) {r : Grid Nx Ny ℝ} {o1 : Opt Nx Ny} (hs : StateAt o r o1) :
    ∃ o2 fs, Opt.solveArgFields env o1 none = (.ok (), o2, none) ∧ o2.fields_current = true ∧ fs ≠ [] ∧ o2.field_arg_list = some fs ∧ J.call fs = .ok (linObj env o J args h.len r) := by
  obtain ⟨hlen, hmk⟩ := objective_init_ok h.obj
  obtain ⟨fl, hsol, -⟩ := solveArgFields_self env o1 J args (hs.same.objective.trans hmk) hs.stale (fun a ha => ⟨(h.ezArgs a ha).1, (h.ezArgs a ha).2.1⟩) (hs.same.pol.trans h.pol)
  refine ⟨_, _, hsol, rfl, by simpa using hne, rfl, ?_⟩
  have hv := J_self_linObj env (hs.same.objective.trans hmk) hs.valid (hs.same.pol.trans h.pol) hs.stale hs.eps h.ezArgs h.len
  rw [hs.same.linObj env J args h.len r] at hv
  have hv' : (Opt.compute_J env o1 none).1 = .ok (linObj env o J args h.len r) := hv
  unfold Opt.compute_J at hv'
  rw [hsol] at hv'
  simp only [Option.getD_some] at hv'
  rw [hs.same.objective, hmk] at hv'
  exact hv'

/-- The value between two calls. -/
theorem CallAt.value {env : Env} {h : Spec.EzProblem o J args} (hne : args ≠ []) {rho r : Grid Nx Ny ℝ} {o1 : Opt Nx Ny} (hc : CallAt env h rho r o1) :
    ∃ o2, Opt.J_self env o1 = (.ok (linObj env o J args h.len r), o2) ∧ CallAt env h rho r o2 ∧ o2.objfn_list = o1.objfn_list := by
  have hmk := (objective_init_ok h.obj).2
  have hobj : o1.objective = Objective.mk' J args := hc.1.reach.same.objective.trans hmk
  have hk := OptKeep.J_self env o1
  have key : ∃ o2 fs, Opt.solveArgFields env o1 none = (.ok (), o2, none) ∧ o2.fields_current = true ∧ fs ≠ [] ∧ o2.field_arg_list = some fs ∧ J.call fs = .ok (linObj env o J args h.len r) := by
    rcases hc.2.2 with hst | ⟨hcur, fs, h1, h2, h3⟩
    · exact h.solve_at hne env (hc.state hst)
    · refine ⟨o1, fs, ?_, hcur, h1, h2, h3⟩
      unfold Opt.solveArgFields
      rw [if_neg]
      rintro (h4 | h4)
      · rw [hcur] at h4; cases h4
      · rw [h2] at h4
        exact h1 (by simpa using h4)
  obtain ⟨o2, fs, h1, h2, h3, h4, h5⟩ := key
  have hJ : Opt.J_self env o1 = (.ok (linObj env o J args h.len r), o2) := by
    unfold Opt.J_self Opt.compute_J
    rw [h1]
    simp only [h4, Option.getD_some, hobj]
    exact congrArg (fun q => (q, o2)) h5
  rw [hJ] at hk
  exact ⟨o2, hJ, ⟨(lbfgsBox_call env o rho h.shift).keep _ _ hk hc.1, hk.sim.rho.trans hc.2.1, Or.inr ⟨h2, fs, h3, h4, h5⟩⟩, hk.objfn_list⟩

/-- The gradient at a stale state. -/
theorem CallAt.grad {env : Env} {h : Spec.EzProblem o J args} (hne : args ≠ []) {rho r : Grid Nx Ny ℝ} {o1 : Opt Nx Ny} (hc : CallAt env h rho r o1) (hst : o1.fields_current = false) :
    ∃ o2, Opt.dJ_self env o1 = (.ok (gradAt env o J args h.len r), o2) ∧ CallAt env h rho r o2 ∧ o2.objfn_list = o1.objfn_list := by
  have hs := hc.state hst
  have hg : (Opt.dJ_self env o1).1 = .ok (gradAt env o J args h.len r) := h.compute_dJ_gradAt env (hc.1.box r hc.2.1) o1 hs
  have hk := OptKeep.dJ_self env o1
  obtain ⟨o2, fs, h1, h2, h3, h4, h5⟩ := h.solve_at hne env hs
  have hca : (Opt.dJ_self env o1).2.field_arg_list = o2.field_arg_list ∧ (Opt.dJ_self env o1).2.fields_current = o2.fields_current := by
    show (Opt.compute_dJ env o1 none).2.1.field_arg_list = _ ∧ (Opt.compute_dJ env o1 none).2.1.fields_current = _
    unfold Opt.compute_dJ
    rw [h1]
    exact dJLoop_cache env _ _ _ _ _
  exact ⟨(Opt.dJ_self env o1).2, Prod.ext hg rfl, ⟨(lbfgsBox_call env o rho h.shift).keep _ _ hk hc.1, hk.sim.rho.trans hc.2.1, Or.inr ⟨hca.2.trans h2, fs, h3, hca.1.trans h4, h5⟩⟩, hk.objfn_list⟩

theorem set_at {env : Env} {h : Spec.EzProblem o J args} {rho : Grid Nx Ny ℝ} {o1 : Opt Nx Ny} (hc : LbfgsBox o rho o1) (x : List ℝ) (hx : x.length = (Opt.desPts o).length) (hxb : ∀ t ∈ x, 0 ≤ t ∧ t ≤ 1) :
    ∃ o2 r, Opt.set_design_region o1 x = (.ok (), o2) ∧ CallAt env h rho r o2 ∧ o2.fields_current = false ∧ Spec.NearVector o.design_region rho (Opt.desPts o) x r ∧ o2.objfn_list = o1.objfn_list := by
  obtain ⟨o2, r, h1, h2, h3, h4⟩ := lbfgsBox_set h.shift hc x hx hxb
  refine ⟨o2, r, h1, ⟨h2, h3.rho, Or.inl h3.stale⟩, h3.stale, h4, ?_⟩
  obtain ⟨r0, hr0, -⟩ := hc.reach.density
  have hlen : x.length = (Opt.desIdx o1).length := by rw [hx, desIdx_congr hc.reach.same.design, Opt.desPts, List.length_map]
  rcases set_design_region_cases o1 r0 hr0 x hlen with ⟨h5, -⟩ | ⟨h5, -⟩
  · rw [h5] at h1
    obtain rfl := (Prod.mk.inj h1).2
    rfl
  · rw [h5] at h1
    obtain rfl := (Prod.mk.inj h1).2
    rfl

/-- One call. -/
theorem call_at {env : Env} {h : Spec.EzProblem o J args} (hne : args ≠ []) {rho r : Grid Nx Ny ℝ} {o1 : Opt Nx Ny} (hc : CallAt env h rho r o1) (c : Opt.LbfgsCall)
    (hlx : (Spec.callArg c).length = (Opt.desPts o).length) (hxb : ∀ y ∈ Spec.callArg c, 0 ≤ y ∧ y ≤ 1) :
    ∃ res o2 r', Opt.lbfgsCall env o1 c = (.ok res, o2) ∧ CallAt env h rho r' o2 ∧ Spec.NearVector o.design_region rho (Opt.desPts o) (Spec.callArg c) r' ∧
      ((∃ x, c = .callback x) ∧ o2.objfn_list = o1.objfn_list ++ [linObj env o J args h.len r] ∨ (¬∃ x, c = .callback x) ∧ o2.objfn_list = o1.objfn_list) := by
  rcases c with x | x | x
  · obtain ⟨o2, r', h1, h2, h3, h4, h5⟩ := set_at (env := env) (h := h) hc.1 x hlx hxb
    obtain ⟨o3, e1, e2, e3⟩ := h2.value hne
    refine ⟨[-linObj env o J args h.len r'], o3, r', ?_, e2, h4, Or.inr ⟨(fun ⟨y, hc⟩ => nomatch hc), e3.trans h5⟩⟩
    simp only [Opt.lbfgsCall]
    rw [h1]
    simp only [pySeq]
    rw [e1]
  · obtain ⟨o2, r', h1, h2, h3, h4, h5⟩ := set_at (env := env) (h := h) hc.1 x hlx hxb
    obtain ⟨o3, e1, e2, e3⟩ := h2.grad hne h3
    refine ⟨(Opt.get_design_region o3 (gradAt env o J args h.len r')).map fun a => -a, o3, r', ?_, e2, h4, Or.inr ⟨(fun ⟨y, hc⟩ => nomatch hc), e3.trans h5⟩⟩
    simp only [Opt.lbfgsCall]
    rw [h1]
    simp only [pySeq]
    rw [e1]
  · obtain ⟨o2, e1, e2, e3⟩ := hc.value hne
    have inv := lbfgsBox_call env o rho h.shift
    obtain ⟨o3, r', h1, h2, h3, h4, h5⟩ := set_at (env := env) (h := h) (inv.log o2 (o2.objfn_list ++ [linObj env o J args h.len r]) e2.1) x hlx hxb
    have hn : o3.max_ind_shift = none := h2.1.reach.same.shift.trans h.shift
    have hamp : Opt.set_source_amplitude env o3 = (.ok (), { o3 with src_amplitudes := o3.src_amplitudes ++ [gridMax fun i j => ‖o3.simulation.src i j‖], fields_current := false }) := by
      unfold Opt.set_source_amplitude
      simp only [hn]
    have hb := inv.amp o3 h2.1
    rw [hamp] at hb
    refine ⟨[], _, r', ?_, ⟨hb, h2.2.1, Or.inl rfl⟩, h4, Or.inl ⟨⟨x, rfl⟩, ?_⟩⟩
    · simp only [Opt.lbfgsCall]
      rw [e1]
      simp only [pySeq]
      rw [h1]
      simp only
      rw [hamp]
    · show o3.objfn_list = _
      rw [h5]
      show o2.objfn_list ++ _ = _
      rw [e3]

theorem calls_at {env : Env} {h : Spec.EzProblem o J args} (hne : args ≠ []) {rho : Grid Nx Ny ℝ} (cs : List Opt.LbfgsCall)
    (hcs : ∀ c ∈ cs, (Spec.callArg c).length = (Opt.desPts o).length ∧ ∀ y ∈ Spec.callArg c, 0 ≤ y ∧ y ≤ 1) :
    ∀ (x0 : List ℝ) {r : Grid Nx Ny ℝ} {o1 : Opt Nx Ny}, CallAt env h rho r o1 → Spec.NearVector o.design_region rho (Opt.desPts o) x0 r →
    ∃ o2 r' l, Opt.lbfgsCalls env cs o1 = (.ok (), o2) ∧ CallAt env h rho r' o2 ∧ o2.objfn_list = o1.objfn_list ++ l ∧
      List.Forall₂ (fun x v => ∃ q, Spec.NearVector o.design_region rho (Opt.desPts o) x q ∧ v = linObj env o J args h.len q) (Spec.beforeCallbacks x0 cs) l := by
  induction cs with
  | nil => exact fun x0 {r o1} hs _ => ⟨o1, r, [], rfl, hs, by simp, List.Forall₂.nil⟩
  | cons c cs ih =>
    intro x0 r o1 hs hd0
    obtain ⟨h1, h2⟩ := hcs c List.mem_cons_self
    obtain ⟨res, o2, r', e1, e2, e3, e4⟩ := call_at hne hs c h1 h2
    obtain ⟨o3, r'', l, f1, f2, f3, f4⟩ := ih (fun c' hc' => hcs c' (List.mem_cons_of_mem _ hc')) (Spec.callArg c) e2 e3
    have hrun : Opt.lbfgsCalls env (c :: cs) o1 = (.ok (), o3) := by
      show pySeq (Opt.lbfgsCall env o1 c) _ = _
      rw [e1]
      exact f1
    rcases e4 with ⟨⟨x, rfl⟩, hl⟩ | ⟨hc, hl⟩
    · exact ⟨o3, r'', _ :: l, hrun, f2, by rw [f3, hl, List.append_assoc, List.singleton_append], List.Forall₂.cons ⟨r, hd0, rfl⟩ f4⟩
    · refine ⟨o3, r'', l, hrun, f2, by rw [f3, hl], ?_⟩
      rcases c with x | x | x
      · exact f4
      · exact f4
      · exact absurd ⟨x, rfl⟩ hc

end Spec.EzProblem

/-- **C122, runs of L-BFGS.** With that accuracy `run('LBFGS')` succeeds whatever `fmin_l_bfgs_b` does within its bounds: the final density is the vector it returns, and for each callback the exact
objective at the vector of the call before it is recorded within `δ`. -/
theorem C122_run (env0 : Env) (he : env0.Exact) (o : Opt Nx Ny) (J : ObjFn Nx Ny) (args : List ObjArg) (h : Spec.EzProblem o J args) (hne : args ≠ []) (hc : ∀ k, Continuous (J.partials k))
    (F : Grid Nx Ny ℝ → ℝ) (hF : Spec.IsObjective env0 o F) (rho : Grid Nx Ny ℝ) (hbox : Spec.Box rho) (hrho : o.simulation.rho = some (some rho))
    (heps : o.simulation.eps_r = fun i j => ((rho2eps rho o.eps_m o.W o.eta o.beta i j : ℝ) : ℂ)) (n : ℕ) (s b1 b2 : ℝ) :
    ∃ L : List (Fin Nx × Fin Ny), Spec.Enumerates o.design_region L ∧ ∀ δ > 0, ∃ τ > 0, ∀ env : Env, env.Within τ →
      ∀ calls : List Opt.LbfgsCall, (∀ c ∈ calls, (Spec.callArg c).length = L.length ∧ ∀ t ∈ Spec.callArg c, 0 ≤ t ∧ t ≤ 1) →
      ∀ y : List ℝ, y.length = L.length → (∀ t ∈ y, 0 ≤ t ∧ t ≤ 1) → ∃ o' r l, Opt.run env "LBFGS" n s b1 b2 calls y o = (.ok (), o') ∧ Spec.NearVector o.design_region rho L y r ∧
        o'.simulation.rho = some (some r) ∧ o'.simulation.eps_r = (fun i j => ((rho2eps r o.eps_m o.W o.eta o.beta i j : ℝ) : ℂ)) ∧ o'.objfn_list = o.objfn_list ++ l ∧
        List.Forall₂ (fun x v => ∃ q, Spec.NearVector o.design_region rho L x q ∧ |v - F q| < δ) (Spec.beforeCallbacks (L.map fun p => rho p.1 p.2) calls) l := by
  refine ⟨Opt.desPts o, desPts_enumerates o, fun δ hδ => ?_⟩
  obtain ⟨τ, hτ, hu⟩ := h.uniform_box hc he δ hδ
  refine ⟨τ, hτ, fun env hw calls hcs y hy1 hy2 => ?_⟩
  have h0 : LbfgsBox o rho o := ⟨⟨SameProblem.refl o, h.valid, rho, hrho, heps, fun _ _ _ => rfl⟩, fun r hr => by
    obtain rfl : rho = r := Option.some.inj (Option.some.inj (hrho.symm.trans hr))
    exact hbox⟩
  have hc0 : Spec.EzProblem.CallAt env h rho rho { o with fields_current := false } := ⟨(lbfgsBox_call env o rho h.shift).stale o h0, hrho, Or.inl rfl⟩
  obtain ⟨o1, r1, l, e1, e2, e3, e4⟩ := Spec.EzProblem.calls_at hne calls hcs ((Opt.desPts o).map fun p => rho p.1 p.2) hc0 ⟨hbox, fun _ _ _ => rfl, by
    rw [distance_self]
    exact mul_nonneg (by norm_num) (Real.sqrt_nonneg _)⟩
  obtain ⟨o2, r2, f1, f2, f3, f4, f5⟩ := Spec.EzProblem.set_at (env := env) (h := h) e2.1 y hy1 hy2
  have hs := f2.state f3
  refine ⟨o2, r2, l, ?_, f4, f2.2.1, ?_, f5.trans e3, e4.imp ?_⟩
  · rw [run_lbfgs hrho lower_lbfgs]
    unfold Opt.run_LBFGS
    rw [e1]
    exact f1
  · rw [hs.eps, hs.same.eps_m, hs.same.W, hs.same.eta, hs.same.beta]
  · rintro x v ⟨q, h1, rfl⟩
    refine ⟨q, h1, ?_⟩
    rw [h.objective_eq env0 hF]
    exact (hu env hw q h1.1).1

/-- Total intensity on a 9 × 9 grid, any source, a solver that is never exact: one accuracy for all densities, and for all calls of L-BFGS-B with 81 entries. -/
example (src : Grid 9 9 ℂ) (δ : ℝ) (hδ : 0 < δ) :
    let o := gopt 1 src (Objective.mk' (intensityJ 9 9) [⟨.Ez, false, .linear_Ez⟩]) (fun _ _ => 1) 1
    ∃ F, Spec.IsObjective (exactEnv .pardiso) o F ∧
      (∃ τ, 0 < τ ∧ ∀ x, Spec.Box x → ∃ v g, (Opt.compute_J (shiftEnv τ) { o with fields_current := false } (some (Spec.simAt o x))).1 = .ok v ∧
        (Opt.compute_dJ (shiftEnv τ) { Opt.putRho o x with fields_current := false }).1 = .ok g ∧ Spec.KnowsTo (fun _ _ => 1) F δ δ x v g) ∧
      ∃ L : List (Fin 9 × Fin 9), Spec.Enumerates (fun _ _ => 1) L ∧ ∃ τ, 0 < τ ∧ ∀ n : ℕ, ∃ r v g,
        Spec.NearVector (fun _ _ => 1) (fun _ _ => 0) L (List.replicate L.length (1 / 2)) r ∧
        (Opt.lbfgsCall (shiftEnv τ) (Opt.lbfgsCalls (shiftEnv τ) (List.replicate n (.grad (List.replicate L.length 1))) o).2 (.objfn (List.replicate L.length (1 / 2)))).1 = .ok [-v] ∧
        Spec.KnowsTo (fun _ _ => 1) F δ δ r v g := by
  intro o
  have he := exactEnv_exact Backend.pardiso
  have hp : Spec.EzProblem o (intensityJ 9 9) [⟨.Ez, false, .linear_Ez⟩] := gopt_problem (by norm_num) (by norm_num) 1 src _ intensityJ_autograd rfl _ fun _ _ => Or.inr rfl
  have hF := hp.isObjective (exactEnv .pardiso)
  have heps : o.simulation.eps_r = fun i j => ((rho2eps (fun _ _ => 0) o.eps_m o.W o.eta o.beta i j : ℝ) : ℂ) := by
    rw [rho2eps_zero]; funext i j; simp [o, gopt, gsim]
  refine ⟨_, hF, ?_, ?_⟩
  · obtain ⟨τ, hτ, h⟩ := C122_uniform (exactEnv .pardiso) he o _ _ hp intensityJ_partials_continuous _ hF δ hδ
    exact ⟨τ, hτ, fun x hx => h _ (shiftEnv_within τ hτ.le) x hx⟩
  · obtain ⟨L, hL, h⟩ := C122_lbfgs (exactEnv .pardiso) he o _ _ hp intensityJ_partials_continuous _ hF _ (fun _ _ => ⟨le_rfl, zero_le_one⟩) rfl heps
    obtain ⟨τ, hτ, h⟩ := h δ hδ
    refine ⟨L, hL, τ, hτ, fun n => ?_⟩
    obtain ⟨r, v, g, h1, h2, -, h4⟩ := h _ (shiftEnv_within τ hτ.le) (List.replicate n (.grad (List.replicate L.length 1))) (fun c hc => by
      rw [List.eq_of_mem_replicate hc]
      exact ⟨List.length_replicate, fun t ht => by rw [List.eq_of_mem_replicate ht]; norm_num⟩) (List.replicate L.length (1 / 2)) List.length_replicate
      (fun t ht => by rw [List.eq_of_mem_replicate ht]; norm_num) _ rfl
    exact ⟨r, v, g, h1, h2, h4⟩

/-- A run of two iterations on the same device: the two recorded values are those of the exact objective at the start and after the first step, within `δ`. -/
example (src : Grid 9 9 ℂ) (δ : ℝ) (hδ : 0 < δ) :
    let o := gopt 1 src (Objective.mk' (intensityJ 9 9) [⟨.Ez, false, .linear_Ez⟩]) (fun _ _ => 1) 1
    ∃ F, Spec.IsObjective (exactEnv .pardiso) o F ∧ ∃ L : List (Fin 9 × Fin 9), Spec.Enumerates (fun _ _ => 1) L ∧ ∃ τ, 0 < τ ∧ ∃ o' v1 v2 r1 r2, let z := L.map fun _ => (0 : ℝ); let y := L.map fun _ => (1 / 2 : ℝ)
      Opt.run (shiftEnv τ) "LBFGS" 2 0 0 0 [.objfn z, .grad z, .callback y, .objfn y, .callback y] y o = (.ok (), o') ∧ o'.objfn_list = o.objfn_list ++ [v1, v2] ∧
      Spec.NearVector (fun _ _ => 1) (fun _ _ => 0) L z r1 ∧ |v1 - F r1| < δ ∧ Spec.NearVector (fun _ _ => 1) (fun _ _ => 0) L y r2 ∧ |v2 - F r2| < δ := by
  intro o
  have he := exactEnv_exact Backend.pardiso
  have hp : Spec.EzProblem o (intensityJ 9 9) [⟨.Ez, false, .linear_Ez⟩] := gopt_problem (by norm_num) (by norm_num) 1 src _ intensityJ_autograd rfl _ fun _ _ => Or.inr rfl
  have hF := hp.isObjective (exactEnv .pardiso)
  have heps : o.simulation.eps_r = fun i j => ((rho2eps (fun _ _ => 0) o.eps_m o.W o.eta o.beta i j : ℝ) : ℂ) := by
    rw [rho2eps_zero]; funext i j; simp [o, gopt, gsim]
  obtain ⟨L, hL, h⟩ := C122_run (exactEnv .pardiso) he o _ _ hp (by simp) intensityJ_partials_continuous _ hF _ (fun _ _ => ⟨le_rfl, zero_le_one⟩) rfl heps 2 0 0 0
  obtain ⟨τ, hτ, h⟩ := h δ hδ
  have hz : ∀ t ∈ L.map fun _ => (0 : ℝ), 0 ≤ t ∧ t ≤ 1 := fun t ht => by obtain ⟨-, -, rfl⟩ := List.mem_map.1 ht; norm_num
  have hy : ∀ t ∈ L.map fun _ => (1 / 2 : ℝ), 0 ≤ t ∧ t ≤ 1 := fun t ht => by obtain ⟨-, -, rfl⟩ := List.mem_map.1 ht; norm_num
  obtain ⟨o', r, l, h1, -, -, -, h2, h3⟩ := h _ (shiftEnv_within τ hτ.le) [.objfn (L.map fun _ => 0), .grad (L.map fun _ => 0), .callback (L.map fun _ => 1 / 2), .objfn (L.map fun _ => 1 / 2),
      .callback (L.map fun _ => 1 / 2)] (fun c hc => by
    simp only [List.mem_cons, List.not_mem_nil, or_false] at hc
    rcases hc with rfl | rfl | rfl | rfl | rfl
    exacts [⟨List.length_map _, hz⟩, ⟨List.length_map _, hz⟩, ⟨List.length_map _, hy⟩, ⟨List.length_map _, hy⟩, ⟨List.length_map _, hy⟩]) (L.map fun _ => 1 / 2) (List.length_map _) hy
  simp only [Spec.beforeCallbacks] at h3
  obtain - | ⟨⟨q1, a1, a2⟩, h4⟩ := h3
  obtain - | ⟨⟨q2, b1, b2⟩, h5⟩ := h4
  obtain - | - := h5
  exact ⟨_, hF, L, hL, τ, hτ, o', _, _, q1, q2, h1, h2, a1, a2, b1, b2⟩

end Angler
