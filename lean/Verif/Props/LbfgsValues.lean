import Verif.Props.CheckDeriv

/-! # C70: the values and gradients that scipy's L-BFGS-B receives -/

namespace Angler

open Matrix Filter Topology

variable {Nx Ny : ℕ}

/-- States reachable by the callbacks: same problem, consistent simulation, densities off the design pixels as at the start. -/
structure LbfgsReach (o : Opt Nx Ny) (rho : Grid Nx Ny ℝ) (o1 : Opt Nx Ny) : Prop where
  same : SameProblem o o1
  valid : o1.simulation.Valid
  density : ∃ r1, o1.simulation.rho = some (some r1) ∧ (o1.simulation.eps_r = fun i j => ((rho2eps r1 o1.eps_m o1.W o1.eta o1.beta i j : ℝ) : ℂ)) ∧
    ∀ i j, o.design_region i j ≠ 1 → r1 i j = rho i j

theorem lbfgsReach_call (env : Env) (o : Opt Nx Ny) (rho : Grid Nx Ny ℝ) (hsh : o.max_ind_shift = none) : CallInv env (LbfgsReach o rho) where
  keep := by
    rintro o1 o2 hk ⟨hs, hv, r1, h1, h2, h3⟩
    refine ⟨hs.trans (SameProblem.of_keep hk), hk.sim.valid hv, r1, hk.sim.rho.trans h1, ?_, h3⟩
    rw [hk.sim.eps_r, h2, hk.eps_m, hk.W, hk.eta, hk.beta]
  log := fun o1 l h => ⟨⟨h.same.objective, h.same.W, h.same.design, h.same.eps_m, h.same.eta, h.same.beta, h.same.shift, h.same.omega, h.same.L0, h.same.NPML, h.same.pol, h.same.src,
    h.same.xrange, h.same.yrange⟩, h.valid, h.density⟩
  stale := fun o1 h => ⟨⟨h.same.objective, h.same.W, h.same.design, h.same.eps_m, h.same.eta, h.same.beta, h.same.shift, h.same.omega, h.same.L0, h.same.NPML, h.same.pol, h.same.src,
    h.same.xrange, h.same.yrange⟩, h.valid, h.density⟩
  amp := by
    intro o1 h
    have hn : o1.max_ind_shift = none := h.same.shift.trans hsh
    unfold Opt.set_source_amplitude
    simp only [hn]
    exact ⟨⟨h.same.objective, h.same.W, h.same.design, h.same.eps_m, h.same.eta, h.same.beta, hn.symm ▸ h.same.shift, h.same.omega, h.same.L0, h.same.NPML, h.same.pol, h.same.src,
      h.same.xrange, h.same.yrange⟩, h.valid, h.density⟩

/-- What `_set_design_region` does to a reachable state. -/
theorem lbfgsReach_put {o o1 : Opt Nx Ny} {rho r1 : Grid Nx Ny ℝ} (h : LbfgsReach o rho o1) (hr : o1.simulation.rho = some (some r1)) (x : List ℝ) :
    LbfgsReach o rho { Opt.putRho o1 (unflatten (Opt.maskAssign (Opt.desIdx o1) x (flatten r1))) with fields_current := false } := by
  obtain ⟨hs, hv, r2, h1, h2, h3⟩ := h
  obtain rfl : r2 = r1 := Option.some.inj (Option.some.inj (h1.symm.trans hr))
  refine ⟨hs.trans (SameProblem.putRho o1 _), valid_putRho hv _, _, rfl, rfl, fun i j hij => ?_⟩
  rw [unflatten_maskAssign_outside o1 x r2 i j (by rw [hs.design]; exact hij), h3 i j hij]

theorem lbfgsReach_set (o : Opt Nx Ny) (rho : Grid Nx Ny ℝ) (env : Env) (hsh : o.max_ind_shift = none) (o1 : Opt Nx Ny) (x : List ℝ) (h : LbfgsReach o rho o1) :
    LbfgsReach o rho (Opt.set_design_region o1 x).2 := by
  rcases set_design_region_state o1 x with hs | hs | ⟨r1, v, hr, hs⟩ <;> rw [hs]
  · exact h
  · exact (lbfgsReach_call env o rho hsh).stale o1 h
  · exact lbfgsReach_put h hr v

theorem desPts_read (o : Opt Nx Ny) (g : Grid Nx Ny ℝ) : (Opt.desPts o).map (fun p => g p.1 p.2) = Opt.get_design_region o g := by
  unfold Opt.desPts Opt.get_design_region
  rw [List.map_map]
  rfl

/-- `_set_design_region(x)` in a reachable state: the density it leaves. -/
theorem lbfgsReach_set_ok {o o1 : Opt Nx Ny} {rho : Grid Nx Ny ℝ} (env : Env) (hsh : o.max_ind_shift = none) (h : LbfgsReach o rho o1) (x : List ℝ) (hx : x.length = (Opt.desPts o).length) :
    ∃ o2 r2, Opt.set_design_region o1 x = (.ok (), o2) ∧ LbfgsReach o rho o2 ∧ o2.fields_current = false ∧ o2.simulation.rho = some (some r2) ∧
      Spec.distance x ((Opt.desPts o).map fun p => r2 p.1 p.2) ≤ 1e-10 * Spec.len x ∧
      (∀ r1, o1.simulation.rho = some (some r1) → Spec.distance x ((Opt.desPts o).map fun p => r1 p.1 p.2) ≤ 1e-10 * Spec.len x → r2 = r1) := by
  have hset := lbfgsReach_set o rho env hsh o1 x h
  obtain ⟨r1, hr, -, -⟩ := h.density
  have hdi : Opt.desIdx o1 = Opt.desIdx o := desIdx_congr h.same.design
  have hdp : ∀ r : Grid Nx Ny ℝ, Opt.get_design_region o1 r = (Opt.desPts o).map fun p => r p.1 p.2 := by
    intro r
    rw [desPts_read, Opt.get_design_region, Opt.get_design_region, hdi]
  have hlen : x.length = (Opt.desIdx o1).length := by rw [hx, hdi, Opt.desPts, List.length_map]
  rcases set_design_region_cases o1 r1 hr x hlen with ⟨h1, h2⟩ | ⟨h1, h2⟩
  · rw [h1] at hset
    rw [hdp] at h2
    exact ⟨_, r1, h1, hset, rfl, hr, h2, fun r hr' _ => Option.some.inj (Option.some.inj (hr.symm.trans hr'))⟩
  · rw [h1] at hset
    refine ⟨_, _, h1, hset, rfl, rfl, ?_, fun r hr' hd => ?_⟩
    · have hread : (Opt.desPts o).map (fun p => (unflatten (Opt.maskAssign (Opt.desIdx o1) x (flatten r1)) : Grid Nx Ny ℝ) p.1 p.2) = x := by
        rw [← hdp, Opt.get_design_region, flatten_unflatten]
        exact maskAssign_read _ (desIdx_nodup o1) x hlen _
      rw [hread, distance_self]
      exact mul_nonneg (by norm_num) (Real.sqrt_nonneg _)
    · obtain rfl : r1 = r := Option.some.inj (Option.some.inj (hr.symm.trans hr'))
      rw [hdp] at h2
      exact absurd hd (not_le.2 h2)

/-- **C70.** Ez objective of linear fields with a differentiable `J`, filter symmetric on the design region, no `max_ind_shift`.  Let `F` be the objective as a function of the density and `L` the
list of the design pixels (the order of the entries of `x`).  After any sequence `cs` of callbacks of scipy, for every vector `x` with one entry per design pixel there is a density `rho'`, equal to
the initial one off the design pixels and within the relative tolerance `1e-10` of `x` on them, such that
* `_objfn(x)` returns `-F(rho')`;
* if the system is regular at `rho'`, then `_grad(x)` — called right away or after `_objfn(x)` — returns the list of the partial derivatives of `-F` at `rho'`, in the order of `L`. -/
theorem C70_lbfgs_values (env : Env) (he : env.Exact) (o : Opt Nx Ny) (J : ObjFn Nx Ny) (args : List ObjArg) (rho : Grid Nx Ny ℝ) (hS : Spec.LinearEz env o J args rho)
    (hargs : ∀ a ∈ args, ∃ c, c ∈ ["Ez", "Hx", "Hy"] ∧ ObjArg.init c false = .ok a) (hJ : ∀ y, Spec.Autograd J y) (hsh : o.max_ind_shift = none)
    (hW : ∀ i j, o.design_region i j = 1 → Spec.FilterSym o.W o.design_region i j) :
    ∃ (F : Grid Nx Ny ℝ → ℝ) (L : List (Fin Nx × Fin Ny)), (∀ rho', (Opt.compute_J env o (some (Spec.simAt o rho'))).1 = .ok (F rho')) ∧ Spec.Enumerates o.design_region L ∧
      ∀ (cs : List Opt.LbfgsCall) (x : List ℝ) (o1 : Opt Nx Ny), (Opt.lbfgsCalls env cs o).2 = o1 → x.length = L.length →
        ∃ rho' : Grid Nx Ny ℝ, (∀ i j, o.design_region i j ≠ 1 → rho' i j = rho i j) ∧ Spec.distance x (L.map fun p => rho' p.1 p.2) ≤ 1e-10 * Spec.len x ∧
          (Opt.lbfgsCall env o1 (.objfn x)).1 = .ok [-F rho'] ∧
          ((Spec.simAt o rho').A.det ≠ 0 → ∃ G, (Opt.lbfgsCall env o1 (.grad x)).1 = .ok G ∧ (Opt.lbfgsCall env (Opt.lbfgsCall env o1 (.objfn x)).2 (.grad x)).1 = .ok G ∧
            List.Forall₂ (fun p v => HasDerivAt (fun t => -F (Spec.bump rho' p.1 p.2 t)) v 0) L G) := by
  have ha := args_of_init hargs
  obtain ⟨hlen, hmk⟩ := objective_init_ok hS.obj
  refine ⟨linObj env o J args hlen, Opt.desPts o, compute_J_linObj env o J args hmk hS.stale hS.pol (fun a h => ⟨(ha a h).1, (ha a h).2.1⟩) hlen, desPts_enumerates o, ?_⟩
  rintro cs x o1 ho1 hx
  have h0 : LbfgsReach o rho o := ⟨SameProblem.refl o, hS.valid, rho, hS.density, hS.eps, fun _ _ _ => rfl⟩
  have h1 : LbfgsReach o rho o1 := ho1 ▸ (lbfgsReach_call env o rho hsh).lbfgsCalls (lbfgsReach_set o rho env hsh) cs o h0
  obtain ⟨o2, r2, hset, h2, hst, hr2, hdist, -⟩ := lbfgsReach_set_ok env hsh h1 x hx
  obtain ⟨r2', hr2', heps2, hoff⟩ := h2.density
  obtain rfl : r2' = r2 := Option.some.inj (Option.some.inj (hr2'.symm.trans hr2))
  have hJv : (Opt.J_self env o2).1 = .ok (linObj env o J args hlen r2') := by
    rw [← h2.same.linObj env J args hlen r2']
    exact J_self_linObj env (h2.same.objective.trans hmk) h2.valid (h2.same.pol.trans hS.pol) hst heps2 ha hlen
  obtain ⟨o3, hJ3⟩ : ∃ o3, Opt.J_self env o2 = (.ok (linObj env o J args hlen r2'), o3) := ⟨_, Prod.ext hJv rfl⟩
  have hobj : Opt.lbfgsCall env o1 (.objfn x) = (.ok [-linObj env o J args hlen r2'], o3) := by
    simp only [Opt.lbfgsCall]
    rw [hset]
    simp only [pySeq]
    rw [hJ3]
  refine ⟨r2', hoff, hdist, by rw [hobj], fun hdet => ?_⟩
  -- a state at the density `r2'` is a linear Ez problem there
  have hlin : ∀ q : Opt Nx Ny, LbfgsReach o rho q → q.fields_current = false → q.simulation.rho = some (some r2') → Spec.LinearEz env q J args r2' := by
    rintro q ⟨hs, hv, r, hr, he', -⟩ hst hrq
    obtain rfl : r = r2' := Option.some.inj (Option.some.inj (hr.symm.trans hrq))
    refine ⟨by rw [hs.objective]; exact hS.obj, hv, hs.pol.trans hS.pol, ?_, hst, hrq, he', by rw [hs.beta]; exact hS.beta, fun y _ => hJ y⟩
    rw [← (simAt_self hv he').1, hs.simAt_A]
    exact hdet
  have hS2 := hlin o2 h2 hst hr2
  obtain ⟨g, hg, hder⟩ := gradient_path_Ez env he o2 J args r2' hS2 ha hlen
  -- the gradient at any such state
  have hgrad : ∀ q : Opt Nx Ny, LbfgsReach o rho q → (∃ q', Opt.set_design_region q x = (.ok (), q') ∧ LbfgsReach o rho q' ∧ q'.fields_current = false ∧ q'.simulation.rho = some (some r2')) →
      (Opt.lbfgsCall env q (.grad x)).1 = .ok (((Opt.desPts o).map fun p => g p.1 p.2).map fun a => -a) := by
    rintro q hq ⟨q', hs', hq', hst', hrq'⟩
    have hSq := hlin q' hq' hst' hrq'
    have hsame : SameProblem o2 q' :=
      ⟨hq'.same.objective.trans h2.same.objective.symm, hq'.same.W.trans h2.same.W.symm, hq'.same.design.trans h2.same.design.symm, hq'.same.eps_m.trans h2.same.eps_m.symm,
        hq'.same.eta.trans h2.same.eta.symm, hq'.same.beta.trans h2.same.beta.symm, hq'.same.shift.trans h2.same.shift.symm, hq'.same.omega.trans h2.same.omega.symm,
        hq'.same.L0.trans h2.same.L0.symm, hq'.same.NPML.trans h2.same.NPML.symm, hq'.same.pol.trans h2.same.pol.symm, hq'.same.src.trans h2.same.src.symm,
        hq'.same.xrange.trans h2.same.xrange.symm, hq'.same.yrange.trans h2.same.yrange.symm⟩
    have hgq : (Opt.compute_dJ env q').1 = .ok g := (compute_dJ_same hS2 hSq ha hsame).trans hg
    have hk := OptKeep.dJ_self env q'
    have hdj : (Opt.dJ_self env q').1 = .ok g := hgq
    simp only [Opt.lbfgsCall]
    rw [hs']
    simp only [pySeq]
    generalize Opt.dJ_self env q' = R at hk hdj ⊢
    obtain ⟨e | g', q''⟩ := R
    · exact absurd hdj (by simp)
    · simp only at hk hdj
      cases hdj
      simp only
      rw [desPts_read, Opt.get_design_region, Opt.get_design_region, desIdx_congr (hk.design.trans hq'.same.design)]
  have h3 : LbfgsReach o rho o3 := by
    have := (lbfgsReach_call env o rho hsh).keep _ _ (OptKeep.J_self env o2) h2
    rwa [hJ3] at this
  have hr3 : o3.simulation.rho = some (some r2') := by
    have := (OptKeep.J_self env o2).sim.rho
    rw [hJ3] at this
    exact this.trans hr2
  refine ⟨_, hgrad o1 h1 ⟨o2, hset, h2, hst, hr2⟩, ?_, ?_⟩
  · rw [hobj]
    refine hgrad o3 h3 ?_
    obtain ⟨o4, r4, e1, e2, e3, e4, -, e6⟩ := lbfgsReach_set_ok env hsh h3 x hx
    exact ⟨o4, e1, e2, e3, by rw [e4, e6 r2' hr3 hdist]⟩
  · rw [List.map_map, List.forall₂_map_right_iff, List.forall₂_same]
    rintro ⟨i, j⟩ hij
    have hd := ((desPts_enumerates o).2 i j).1 hij
    have h := hder (fun t => Spec.bump r2' i j t) (fun p q => if p = i ∧ q = j then 1 else 0) (bump_zero r2' i j) (hasDerivAt_bump r2' i j) (fun p q hpq => by
      have : p = i ∧ q = j := by by_contra hc; exact hpq (if_neg hc)
      rw [this.1, this.2, h2.same.W, h2.same.design]
      exact hW i j hd)
    have hsum : ∑ p, ∑ q, g p q * (if p = i ∧ q = j then (1 : ℝ) else 0) = g i j := by
      rw [Finset.sum_eq_single i, Finset.sum_eq_single j]
      · simp
      · intro q _ hq; simp [hq]
      · intro hc; exact absurd (Finset.mem_univ _) hc
      · intro p _ hp; simp [hp]
      · intro hc; exact absurd (Finset.mem_univ _) hc
    rw [hsum] at h
    simp only [h2.same.linObj] at h
    exact h.neg

theorem distance_zero_le {α : Type} (L : List α) (f : α → ℝ) (h : Spec.distance (L.map fun _ => 0) (L.map f) ≤ 1e-10 * Spec.len (L.map fun _ => 0)) : ∀ p ∈ L, f p = 0 := by
  have h0 : Spec.len (L.map fun _ => (0 : ℝ)) = 0 := by
    unfold Spec.len
    rw [List.map_map]
    have : ((L.map ((fun a : ℝ => a ^ 2) ∘ fun _ => (0 : ℝ)))).sum = 0 := by
      clear h
      induction L with
      | nil => rfl
      | cons a L ih => rw [List.map_cons, List.sum_cons, ih]; simp
    rw [this, Real.sqrt_zero]
  rw [h0, mul_zero] at h
  have hs : Real.sqrt ((((L.map fun _ => (0 : ℝ)).zip (L.map f)).map fun p => (p.1 - p.2) ^ 2).sum) = 0 := le_antisymm h (Real.sqrt_nonneg _)
  have hnn : ∀ L : List α, 0 ≤ ((((L.map fun _ => (0 : ℝ)).zip (L.map f)).map fun p => (p.1 - p.2) ^ 2).sum) := by
    intro L
    refine List.sum_nonneg fun y hy => ?_
    obtain ⟨q, -, rfl⟩ := List.mem_map.1 hy
    positivity
  have hz := (Real.sqrt_eq_zero (hnn L)).1 hs
  clear h h0 hs
  induction L with
  | nil => exact fun p hp => absurd hp (by simp)
  | cons a L ih =>
    rw [List.map_cons, List.map_cons, List.zip_cons_cons, List.map_cons, List.sum_cons] at hz
    have h1 : 0 ≤ ((0 : ℝ) - f a) ^ 2 := sq_nonneg _
    have h2 := hnn L
    intro p hp
    rcases List.mem_cons.1 hp with rfl | hp
    · have : ((0 : ℝ) - f p) ^ 2 = 0 := by simp only at hz; linarith
      have := pow_eq_zero_iff (two_ne_zero) |>.1 this
      linarith
    · exact ih (by simp only at hz; linarith) p hp

/-- The hypotheses are met: in this problem (one objective pixel, no filter, all pixels design pixels) scipy, asking for the gradient at the zero vector, receives a list with a negative entry:
the objective grows in that direction. -/
example (env : Env) (he : env.Exact) (hx : 1 < Nx) (hy : 1 < Ny) (i1 : Fin Nx) (j1 : Fin Ny) :
    ∃ (p src : Grid Nx Ny ℂ) (G : List ℝ),
      let o := gopt 1 src (Objective.mk' (linearJ p) [⟨.Ez, false, .linear_Ez⟩]) (fun _ _ => 1) 1
      (Opt.lbfgsCall env o (.grad (List.replicate (Nx * Ny) 0))).1 = .ok G ∧ ∃ v ∈ G, v < 0 := by
  obtain ⟨p, src, hS, hg⟩ := unit_witness env he hx hy 1 (fun _ _ => 1) 1 i1 j1 1
  have ha : ∀ a ∈ ([⟨.Ez, false, .linear_Ez⟩] : List ObjArg), ∃ n, n ∈ ["Ez", "Hx", "Hy"] ∧ ObjArg.init n false = .ok a :=
    fun a ha => ⟨"Ez", by simp, by rw [List.mem_singleton] at ha; rw [ha]; rfl⟩
  set o := gopt 1 src (Objective.mk' (linearJ p) [⟨.Ez, false, .linear_Ez⟩]) (fun _ _ => 1) 1 with ho
  obtain ⟨F, L, hF, hL, h⟩ := C70_lbfgs_values env he o _ _ _ hS ha (linearJ_autograd p) rfl (fun i j h => filterSym_one (fun _ _ => Or.inr rfl) h)
  have hcard : L.length = Nx * Ny := by
    have h1 : L.toFinset = Finset.univ := by
      ext ⟨i, j⟩
      simp [hL.2 i j, ho, gopt]
    rw [← List.toFinset_card_of_nodup hL.1, h1, Finset.card_univ, Fintype.card_prod, Fintype.card_fin, Fintype.card_fin]
  have hrep : List.replicate (Nx * Ny) (0 : ℝ) = L.map fun _ => 0 := by rw [← hcard, List.map_const']
  obtain ⟨rho', -, hd, -, hG⟩ := h [] (List.replicate (Nx * Ny) 0) o rfl (by rw [List.length_replicate, hcard])
  rw [hrep] at hd
  have hz : rho' = fun _ _ => 0 := by
    funext i j
    exact distance_zero_le L (fun q => rho' q.1 q.2) hd (i, j) ((hL.2 i j).2 rfl)
  subst hz
  obtain ⟨G, hG1, -, hG2⟩ := hG (by rw [(simAt_self hS.valid hS.eps).1]; exact hS.det)
  refine ⟨p, src, G, hG1, ?_⟩
  obtain ⟨k, hk, hke⟩ := List.getElem_of_mem ((hL.2 i1 j1).2 rfl)
  obtain ⟨hl, hall⟩ := List.forall₂_iff_get.1 hG2
  have hv := hall k hk (hl ▸ hk)
  rw [List.get_eq_getElem, hke] at hv
  obtain ⟨g, f, h1, h2, h3⟩ := gradient_exact_Ez env he o _ _ _ hS (args_of_init ha) i1 j1 (filterSym_one (fun _ _ => Or.inr rfl) rfl)
  have hfF : ∀ t, f t = F (Spec.bump (fun _ _ => 0) i1 j1 t) := fun t => Except.ok.inj ((h2 t).symm.trans (hF _))
  have hneg : HasDerivAt (fun t => -F (Spec.bump (fun _ _ => 0) i1 j1 t)) (-g i1 j1) 0 := by
    have := h3.neg
    refine this.congr_of_eventuallyEq (Filter.Eventually.of_forall fun t => ?_)
    show _ = -f t
    rw [hfF]
  have hpos : 0 < g i1 j1 := by
    rw [Except.ok.inj (h1.symm.trans hg)]
    have hone : (1 : Mat (Nx * Ny) ℝ) (finProdFinEquiv (i1, j1)) (finProdFinEquiv (i1, j1)) = 1 := Matrix.one_apply_eq _
    show 0 < 1 * (4 * drhob_drhot (rho2rhot (fun _ _ => 0) (1 : Mat (Nx * Ny) ℝ) i1 j1) (1 / 2) 1 * ((1 : Mat (Nx * Ny) ℝ) (finProdFinEquiv (i1, j1)) (finProdFinEquiv (i1, j1)) * 1))
    rw [hone]
    have := drhob_drhot_pos (rho2rhot (fun _ _ => 0) (1 : Mat (Nx * Ny) ℝ) i1 j1)
    positivity
  refine ⟨_, List.get_mem G ⟨k, hl ▸ hk⟩, ?_⟩
  rw [hv.unique hneg]
  exact neg_lt_zero.2 hpos

end Angler
