import Verif.Props.AscentHz
import Verif.Props.Lbfgs

/-! # C69: what `check_deriv` reports -/

namespace Angler

open Matrix Filter Topology

variable {Nx Ny : ℕ}

theorem bumpRho_eq (rho : Grid Nx Ny ℝ) (pt : Fin Nx × Fin Ny) (d : ℝ) : Opt.bumpRho rho pt d = Spec.bump rho pt.1 pt.2 d := by
  funext i j
  obtain ⟨a, b⟩ := pt
  simp only [Opt.bumpRho, Spec.bump, Prod.mk.injEq]
  split_ifs <;> simp

/-- `L` lists every pixel of the design region exactly once. -/
def Spec.Enumerates (design : Grid Nx Ny ℝ) (L : List (Fin Nx × Fin Ny)) : Prop := L.Nodup ∧ ∀ i j, (i, j) ∈ L ↔ design i j = 1

theorem desPts_enumerates (o : Opt Nx Ny) : Spec.Enumerates o.design_region (Opt.desPts o) := by
  refine ⟨(desIdx_nodup o).map finProdFinEquiv.symm.injective, fun i j => ?_⟩
  unfold Opt.desPts Opt.desIdx
  simp only [List.mem_map, List.mem_filter, List.mem_finRange, true_and, decide_eq_true_eq]
  constructor
  · rintro ⟨k, hk, he⟩
    have : k = finProdFinEquiv (i, j) := by rw [← he, Equiv.apply_symm_apply]
    rw [this] at hk
    simpa [flatten] using hk
  · intro h
    exact ⟨finProdFinEquiv (i, j), by simpa [flatten] using h, Equiv.symm_apply_apply _ _⟩

/-- One pass of the loop. -/
theorem checkPt_ok (env : Env) {o o' : Opt Nx Ny} {J : ObjFn Nx Ny} {args : List ObjArg} (h : Spec.LinearObjective o J args o.simulation) (hlen : args.length = J.arity)
    (hv : o.simulation.Valid) (hs : SameProblem o o') (hv' : o'.simulation.Valid) (hdl : o'.simulation.dl = o.simulation.dl) {rho : Grid Nx Ny ℝ}
    (hr : o'.simulation.rho = some (some rho)) (g : Grid Nx Ny ℝ) (J0 d : ℝ) (hd : d ≠ 0) {p : ℕ} {pt : Fin Nx × Fin Ny} (hp : (Opt.desPts o)[p]? = some pt) :
    (Opt.checkPt env g J0 d p o').1 = .ok (g pt.1 pt.2, (Spec.freshJ env J args hlen (Spec.simAt o (Spec.bump rho pt.1 pt.2 d)) - J0) / d) ∧
      (Opt.checkPt env g J0 d p o').2.fields_current = true ∧
      (Opt.checkPt env g J0 d p o').2.field_arg_list = some (args.map fun a => Spec.freshField env (Spec.simAt o (Spec.bump rho pt.1 pt.2 d)) a.component) := by
  have hp' : (Opt.desPts o')[p]? = some pt := by
    unfold Opt.desPts at hp ⊢
    rw [desIdx_congr hs.design]
    exact hp
  unfold Opt.checkPt
  rw [hp', hr]
  simp only
  set sn : Sim Nx Ny := ({ o'.simulation with rho := some (some (Opt.bumpRho rho pt d)) } : Sim Nx Ny).set_eps_r
    (fun i j => ((rho2eps (Opt.bumpRho rho pt d) o'.eps_m o'.W o'.eta o'.beta i j : ℝ) : ℂ)) with hsn
  have hvn : sn.Valid := by
    have hb : ({ o'.simulation with rho := some (some (Opt.bumpRho rho pt d)) } : Sim Nx Ny).Valid := ⟨hv'.L0_pos, hv'.omega_pos, hv'.xr, hv'.yr, hv'.A_eq, hv'.derivs_eq⟩
    exact hb.set_eps_r _
  have hff : ∀ a ∈ args, Spec.freshField env sn a.component = Spec.freshField env (Spec.simAt o (Spec.bump rho pt.1 pt.2 d)) a.component := by
    intro a ha
    refine freshField_valid env (hv.set_eps_r _) hvn hs.omega hs.L0 hdl hs.NPML hs.pol ?_ hs.src _ (h.comps a ha)
    show (fun i j => ((rho2eps (Opt.bumpRho rho pt d) o'.eps_m o'.W o'.eta o'.beta i j : ℝ) : ℂ)) = fun i j => ((rho2eps (Spec.bump rho pt.1 pt.2 d) o.eps_m o.W o.eta o.beta i j : ℝ) : ℂ)
    rw [bumpRho_eq, hs.eps_m, hs.W, hs.eta, hs.beta]
  have hL : Spec.LinearObjective ({ o' with fields_current := false } : Opt Nx Ny) J args (Opt.target { o' with fields_current := false } (some sn)) :=
    ⟨by rw [show ({ o' with fields_current := false } : Opt Nx Ny).objective = o.objective from hs.objective]; exact h.obj, h.lin, fun a ha => by
      have : (Opt.target { o' with fields_current := false } (some sn)).pol = o.simulation.pol := hs.pol
      rw [this]; exact h.comps a ha⟩
  have hval := C35_fresh_partial env { o' with fields_current := false } (some sn) J args hL hlen rfl
  have hsol := solveArgFields_stale env { o' with fields_current := false } (some sn) J args hL (Or.inl rfl)
  have hst : (Opt.compute_J env { o' with fields_current := false } (some sn)).2.1.fields_current = true ∧
      (Opt.compute_J env { o' with fields_current := false } (some sn)).2.1.field_arg_list = some (args.map fun a => Spec.freshField env sn a.component) := by
    unfold Opt.compute_J
    rw [hsol]
    exact ⟨rfl, rfl⟩
  rw [List.map_congr_left hff] at hst
  have hJ : Spec.freshJ env J args hlen (Opt.target { o' with fields_current := false } (some sn)) = Spec.freshJ env J args hlen (Spec.simAt o (Spec.bump rho pt.1 pt.2 d)) := by
    unfold Spec.freshJ
    congr 1
    funext k
    exact hff _ (List.get_mem _ _)
  rw [hJ] at hval
  generalize Opt.compute_J env { o' with fields_current := false } (some sn) = R at hval hst ⊢
  obtain ⟨e | v, r⟩ := R
  · exact absurd hval (by simp)
  · simp only at hval
    cases hval
    simp only
    rw [if_neg hd]
    exact ⟨rfl, hst.1, hst.2⟩

/-- The loop. -/
theorem checkPts_ok (env : Env) {o : Opt Nx Ny} {J : ObjFn Nx Ny} {args : List ObjArg} (h : Spec.LinearObjective o J args o.simulation) (hlen : args.length = J.arity)
    (hv : o.simulation.Valid) {rho : Grid Nx Ny ℝ} (g : Grid Nx Ny ℝ) (J0 d : ℝ) (hd : d ≠ 0) (picks : List ℕ) (hp : ∀ p ∈ picks, p < (Opt.desPts o).length) :
    ∀ o' : Opt Nx Ny, SameProblem o o' → o'.simulation.Valid → o'.simulation.dl = o.simulation.dl → o'.simulation.rho = some (some rho) →
    ∃ res, (Opt.checkPts env g J0 d picks o').1 = .ok res ∧
      List.Forall₂ (fun p r => ∃ pt, (Opt.desPts o)[p]? = some pt ∧ r = (g pt.1 pt.2, (Spec.freshJ env J args hlen (Spec.simAt o (Spec.bump rho pt.1 pt.2 d)) - J0) / d)) picks res ∧
      ∀ p pt, picks.getLast? = some p → (Opt.desPts o)[p]? = some pt →
        (Opt.checkPts env g J0 d picks o').2.fields_current = true ∧
        (Opt.checkPts env g J0 d picks o').2.field_arg_list = some (args.map fun a => Spec.freshField env (Spec.simAt o (Spec.bump rho pt.1 pt.2 d)) a.component) := by
  induction picks with
  | nil => exact fun o' _ _ _ _ => ⟨[], rfl, List.Forall₂.nil, fun p pt hn => absurd hn (by simp)⟩
  | cons p ps ih =>
    intro o' hs hv' hdl hr
    have hpl := hp p List.mem_cons_self
    have hpt : (Opt.desPts o)[p]? = some (Opt.desPts o)[p] := List.getElem?_eq_getElem hpl
    obtain ⟨h1, h2, h3⟩ := checkPt_ok env h hlen hv hs hv' hdl hr g J0 d hd hpt
    have hk := checkPts_keep env g J0 d [p] o'
    have hk1 : OptKeep o' (Opt.checkPt env g J0 d p o').2 ∧ (Opt.checkPt env g J0 d p o').2.simulation = o'.simulation := by
      rw [Opt.checkPts] at hk
      generalize Opt.checkPt env g J0 d p o' = R at h1 hk ⊢
      obtain ⟨e | v, r⟩ := R
      · exact absurd h1 (by simp)
      · exact hk
    rw [Opt.checkPts]
    generalize Opt.checkPt env g J0 d p o' = R at h1 h2 h3 hk1 ⊢
    obtain ⟨e | v, o1⟩ := R
    · exact absurd h1 (by simp)
    · simp only at h1 h2 h3 hk1
      cases h1
      obtain ⟨res, hr1, hr2, hr3⟩ := ih (fun q hq => hp q (List.mem_cons_of_mem _ hq)) o1 (hs.trans (SameProblem.of_keep hk1.1)) (by rw [hk1.2]; exact hv') (by rw [hk1.2]; exact hdl)
        (by rw [hk1.2]; exact hr)
      simp only [pySeq]
      have hnil : ps = [] → (Opt.checkPts env g J0 d ps o1).2 = o1 := by rintro rfl; rfl
      generalize Opt.checkPts env g J0 d ps o1 = R at hr1 hr3 hnil ⊢
      obtain ⟨e | w, o2⟩ := R
      · exact absurd hr1 (by simp)
      · simp only at hr1 hr3 hnil
        cases hr1
        refine ⟨_, rfl, List.Forall₂.cons ⟨_, hpt, rfl⟩ hr2, fun q qt hq hqt => ?_⟩
        rcases ps with _ | ⟨b, ps⟩
        · rw [List.getLast?_singleton, Option.some.injEq] at hq
          subst hq
          rw [hpt, Option.some.injEq] at hqt
          subst hqt
          rw [hnil rfl]
          exact ⟨h2, h3⟩
        · exact hr3 q qt (by rw [← hq]; simp) hqt

/-- What `check_deriv` returns for a linear objective of either polarisation, and what it leaves in the cache. -/
theorem check_deriv_ok (env : Env) {o : Opt Nx Ny} {J : ObjFn Nx Ny} {args : List ObjArg} (h : Spec.LinearObjective o J args o.simulation) (hlen : args.length = J.arity)
    (hv : o.simulation.Valid) {rho : Grid Nx Ny ℝ} (hr : o.simulation.rho = some (some rho)) {g : Grid Nx Ny ℝ}
    (hg : (Opt.compute_dJ env { Opt.putRho o rho with fields_current := false }).1 = .ok g) (d : ℝ) (hd : d ≠ 0) (picks : List ℕ) (hp : ∀ p ∈ picks, p < (Opt.desPts o).length) :
    ∃ res, (Opt.check_deriv env picks d o).1 = .ok res ∧
      List.Forall₂ (fun p r => ∃ pt, (Opt.desPts o)[p]? = some pt ∧
        r = (g pt.1 pt.2, (Spec.freshJ env J args hlen (Spec.simAt o (Spec.bump rho pt.1 pt.2 d)) - Spec.freshJ env J args hlen (Spec.simAt o rho)) / d)) picks res ∧
      ∀ p pt, picks.getLast? = some p → (Opt.desPts o)[p]? = some pt →
        (Opt.check_deriv env picks d o).2.fields_current = true ∧
        (Opt.check_deriv env picks d o).2.field_arg_list = some (args.map fun a => Spec.freshField env (Spec.simAt o (Spec.bump rho pt.1 pt.2 d)) a.component) := by
  set o1 : Opt Nx Ny := { Opt.putRho o rho with fields_current := false } with ho1
  have hv1 : o1.simulation.Valid := valid_putRho hv rho
  have hL1 : Spec.LinearObjective o1 J args o1.simulation := ⟨h.obj, h.lin, h.comps⟩
  have hJ := C35_repeated_partial env o1 J args hL1 hlen rfl [SelfCall.dJ]
  have hk := OptKeep.dJ_self env o1
  unfold Opt.check_deriv
  rw [hr]
  simp only
  rw [← ho1]
  have hJ' : (Opt.J_self env (Opt.dJ_self env o1).2).1 = .ok (Spec.freshJ env J args hlen (Spec.simAt o rho)) := hJ
  have hg' : (Opt.dJ_self env o1).1 = .ok g := hg
  generalize Opt.dJ_self env o1 = R at hJ' hg' hk ⊢
  obtain ⟨e | g1, o2⟩ := R
  · exact absurd hg' (by simp)
  · simp only at hJ' hg' hk
    cases hg'
    simp only [pySeq]
    have hk2 := OptKeep.J_self env o2
    generalize Opt.J_self env o2 = R at hJ' hk2 ⊢
    obtain ⟨e | v, o3⟩ := R
    · exact absurd hJ' (by simp)
    · simp only at hJ' hk2
      cases hJ'
      simp only
      have hk3 := hk.trans hk2
      refine checkPts_ok env h hlen hv g _ d hd picks hp o3 ((SameProblem.putRho o rho).trans (SameProblem.of_keep hk3)) (hk3.sim.valid hv1) ?_ ?_
      · have : o3.simulation.dl = o1.simulation.dl := by rw [hk3.sim]
        rw [this]; rfl
      · exact hk3.sim.rho

/-- **C69 (partial), Ez.** For an objective of linear Ez, Hx, Hy fields and a filter that is symmetric on the design region: let `F` be the objective as a function of the density,
`g` the gradient of `compute_dJ` and `L` a list of the design pixels.  For every list of draws and every `d_rho ≠ 0`, `check_deriv` returns, draw by draw, the entry of `g` at the drawn design
pixel together with the difference quotient of `F` in the density of that pixel.  The quotients tend to the entries of `g` as `d_rho → 0`: the two lists agree in the limit.
Missing: pixels where the filter is not symmetric and Hz objectives, and objectives of nonlinear fields; for all of these the second part fails (`C69_false_near_border`, `C69_Hz_false`, `C69_Kerr_false`). -/
theorem C69_check_deriv_partial (env : Env) (he : env.Exact) (o : Opt Nx Ny) (J : ObjFn Nx Ny) (args : List ObjArg) (rho : Grid Nx Ny ℝ) (hS : Spec.LinearEz env o J args rho)
    (hargs : ∀ a ∈ args, ∃ c, c ∈ ["Ez", "Hx", "Hy"] ∧ ObjArg.init c false = .ok a) (hW : ∀ i j, o.design_region i j = 1 → Spec.FilterSym o.W o.design_region i j) :
    ∃ (F : Grid Nx Ny ℝ → ℝ) (g : Grid Nx Ny ℝ) (L : List (Fin Nx × Fin Ny)),
      (∀ rho', (Opt.compute_J env o (some (Spec.simAt o rho'))).1 = .ok (F rho')) ∧ (Opt.compute_dJ env o).1 = .ok g ∧ Spec.Enumerates o.design_region L ∧
      (∀ (d : ℝ) (picks : List ℕ), d ≠ 0 → (∀ p ∈ picks, p < L.length) → ∃ res, (Opt.check_deriv env picks d o).1 = .ok res ∧
        List.Forall₂ (fun p r => ∃ i j, L[p]? = some (i, j) ∧ r = (g i j, (F (Spec.bump rho i j d) - F rho) / d)) picks res) ∧
      ∀ i j, (i, j) ∈ L → Tendsto (fun d => (F (Spec.bump rho i j d) - F rho) / d) (𝓝[≠] 0) (𝓝 (g i j)) := by
  have ha := args_of_init hargs
  obtain ⟨hlen, hmk⟩ := objective_init_ok hS.obj
  have hL : Spec.LinearObjective o J args o.simulation := ⟨hS.obj, fun a h => (ha a h).1, fun a h => by
    rw [hS.pol]
    have := (ha a h).2.1
    revert this
    cases a.component <;> intro h <;> first | trivial | exact h.elim⟩
  have hF : ∀ rho', (Opt.compute_J env o (some (Spec.simAt o rho'))).1 = .ok (Spec.freshJ env J args hlen (Spec.simAt o rho')) :=
    fun rho' => C35_fresh_partial env o (some (Spec.simAt o rho')) J args ⟨hL.obj, hL.lin, hL.comps⟩ hlen hS.stale
  obtain ⟨g, hg, hder⟩ := gradient_path_Ez env he o J args rho hS ha hlen
  have hFl : ∀ rho', Spec.freshJ env J args hlen (Spec.simAt o rho') = linObj env o J args hlen rho' := fun rho' =>
    Except.ok.inj ((hF rho').symm.trans (compute_J_linObj env o J args hmk hS.stale hS.pol (fun a h => ⟨(ha a h).1, (ha a h).2.1⟩) hlen rho'))
  have hs1 := SameProblem.putRho o rho
  have hS1 := hS.same ha hs1 (valid_putRho hS.valid rho) rfl rfl rfl
  have hg1 : (Opt.compute_dJ env { Opt.putRho o rho with fields_current := false }).1 = .ok g := (compute_dJ_same hS hS1 ha hs1).trans hg
  refine ⟨fun rho' => Spec.freshJ env J args hlen (Spec.simAt o rho'), g, Opt.desPts o, hF, hg, desPts_enumerates o, fun d picks hd hp => ?_, fun i j hij => ?_⟩
  · obtain ⟨res, h1, h2, -⟩ := check_deriv_ok env hL hlen hS.valid hS.density hg1 d hd picks hp
    exact ⟨res, h1, h2.imp fun p r ⟨pt, e1, e2⟩ => ⟨pt.1, pt.2, e1, e2⟩⟩
  · have hd := ((desPts_enumerates o).2 i j).1 hij
    have h := hder (fun t => Spec.bump rho i j t) (fun p q => if p = i ∧ q = j then 1 else 0) (bump_zero rho i j) (hasDerivAt_bump rho i j) (fun p q hpq => by
      have : p = i ∧ q = j := by by_contra hc; exact hpq (if_neg hc)
      rw [this.1, this.2]
      exact hW i j hd)
    have hsum : ∑ p, ∑ q, g p q * (if p = i ∧ q = j then (1 : ℝ) else 0) = g i j := by
      rw [Finset.sum_eq_single i, Finset.sum_eq_single j]
      · simp
      · intro q _ hq; simp [hq]
      · intro hc; exact absurd (Finset.mem_univ _) hc
      · intro p _ hp; simp [hp]
      · intro hc; exact absurd (Finset.mem_univ _) hc
    rw [hsum] at h
    have h2 := h.tendsto_slope_zero
    simp only [zero_add, smul_eq_mul, bump_zero] at h2
    refine h2.congr fun t => ?_
    beta_reduce
    rw [hFl, hFl, div_eq_inv_mul]

theorem checkPts_valid_picks (env : Env) (g : Grid Nx Ny ℝ) (J0 d : ℝ) (picks : List ℕ) : ∀ (o : Opt Nx Ny) (res : List (ℝ × ℝ)), (Opt.checkPts env g J0 d picks o).1 = .ok res →
    ∀ p ∈ picks, p < (Opt.desPts o).length := by
  induction picks with
  | nil => exact fun _ _ _ p hp => absurd hp (by simp)
  | cons q ps ih =>
    intro o res h p hp
    have hk := checkPts_keep env g J0 d [q] o
    have hq : (Opt.desPts o)[q]? = none → ∃ e, (Opt.checkPt env g J0 d q o).1 = .error e := by
      intro hn
      unfold Opt.checkPt
      rw [hn]
      exact ⟨_, rfl⟩
    rw [Opt.checkPts] at h hk
    generalize Opt.checkPt env g J0 d q o = R at h hk hq
    obtain ⟨e | v, o1⟩ := R
    · exact absurd h (by simp [pySeq])
    · have hql : q < (Opt.desPts o).length := by
        by_contra hc
        obtain ⟨e, he⟩ := hq (List.getElem?_eq_none (not_lt.1 hc))
        exact absurd he (by simp)
      rcases List.mem_cons.1 hp with rfl | hp
      · exact hql
      · have hdes : Opt.desPts o1 = Opt.desPts o := by
          unfold Opt.desPts
          rw [desIdx_congr (show o1.design_region = o.design_region from hk.1.design)]
        simp only [pySeq] at h
        have hi := ih o1
        generalize Opt.checkPts env g J0 d ps o1 = R at h hi
        obtain ⟨e | w, o2⟩ := R
        · exact absurd h (by simp)
        · rw [← hdes]
          exact hi w rfl p hp

/-- If `check_deriv` returns, the gradient was computed and every draw was the number of a design pixel. -/
theorem check_deriv_returns (env : Env) (o : Opt Nx Ny) (rho : Grid Nx Ny ℝ) (hr : o.simulation.rho = some (some rho)) (d : ℝ) (picks : List ℕ) (res : List (ℝ × ℝ))
    (hres : (Opt.check_deriv env picks d o).1 = .ok res) :
    (∃ g, (Opt.compute_dJ env { Opt.putRho o rho with fields_current := false }).1 = .ok g) ∧ ∀ p ∈ picks, p < (Opt.desPts o).length := by
  unfold Opt.check_deriv at hres
  rw [hr] at hres
  simp only at hres
  have hk := OptKeep.dJ_self env { Opt.putRho o rho with fields_current := false }
  have hdj : (Opt.dJ_self env { Opt.putRho o rho with fields_current := false }).1 = (Opt.compute_dJ env { Opt.putRho o rho with fields_current := false }).1 := rfl
  rw [← hdj]
  generalize Opt.dJ_self env { Opt.putRho o rho with fields_current := false } = R at hres hk ⊢
  obtain ⟨e | g, o2⟩ := R
  · exact absurd hres (by simp [pySeq])
  · refine ⟨⟨g, rfl⟩, ?_⟩
    simp only [pySeq] at hres hk
    have hk2 := OptKeep.J_self env o2
    generalize Opt.J_self env o2 = R at hres hk2
    obtain ⟨e | v, o3⟩ := R
    · exact absurd hres (by simp)
    · have h := checkPts_valid_picks env g v d picks o3 res hres
      have hdes : Opt.desPts o3 = Opt.desPts o := by
        unfold Opt.desPts
        rw [desIdx_congr (hk.trans hk2).design]
        rfl
      rwa [hdes] at h

/-- **C69, side effect.** Take an optimisation whose permittivity is the image of its density.  If `check_deriv` (with at least one draw) ends with the numerical derivative `q`, then the next
`compute_J` on the optimisation's own, unperturbed simulation returns the true value *plus* `q · d_rho`: the cached fields are those of the last perturbed copy. -/
theorem C69_stale_cache (env : Env) (o : Opt Nx Ny) (J : ObjFn Nx Ny) (args : List ObjArg) (h : Spec.LinearObjective o J args o.simulation) (hne : args ≠ []) (hcur : o.fields_current = false)
    (hv : o.simulation.Valid) (rho : Grid Nx Ny ℝ) (hr : o.simulation.rho = some (some rho))
    (heps : o.simulation.eps_r = fun i j => ((rho2eps rho o.eps_m o.W o.eta o.beta i j : ℝ) : ℂ)) (d : ℝ) (hd : d ≠ 0) (picks : List ℕ) (res : List (ℝ × ℝ))
    (hres : (Opt.check_deriv env picks d o).1 = .ok res) (a q : ℝ) (hlast : res.getLast? = some (a, q)) :
    ∃ v, (Opt.J_self env o).1 = .ok v ∧ (Opt.J_self env (Opt.check_deriv env picks d o).2).1 = .ok (v + q * d) := by
  obtain ⟨hlen, -⟩ := objective_init_ok h.obj
  obtain ⟨⟨g, hg⟩, hpk⟩ := check_deriv_returns env o rho hr d picks res hres
  obtain ⟨res', hres', hall, hend⟩ := check_deriv_ok env h hlen hv hr hg d hd picks hpk
  obtain rfl : res' = res := Except.ok.inj (hres'.symm.trans hres)
  have hl : picks.length = res'.length := hall.length_eq
  have hpos : res'.length - 1 < res'.length := by
    rw [List.getLast?_eq_getElem?] at hlast
    exact (List.getElem?_eq_some_iff.1 hlast).1
  have hp1 : picks.getLast? = some (picks[res'.length - 1]'(hl ▸ hpos)) := by
    rw [List.getLast?_eq_getElem?, show picks.length - 1 = res'.length - 1 by rw [hl], List.getElem?_eq_getElem]
  obtain ⟨pt, hpt, hr'⟩ := (List.forall₂_iff_get.1 hall).2 (res'.length - 1) (hl ▸ hpos) hpos
  have hq : (a, q) = res'.get ⟨res'.length - 1, hpos⟩ := by
    rw [List.getLast?_eq_getElem?, List.getElem?_eq_getElem hpos, Option.some.injEq] at hlast
    rw [← hlast]
    rfl
  rw [← hq, Prod.mk.injEq] at hr'
  obtain ⟨hc, hf⟩ := hend _ pt hp1 hpt
  have hob : (Opt.check_deriv env picks d o).2.objective = o.objective := (check_deriv_keep env picks d o rho hr).objective
  refine ⟨Spec.freshJ env J args hlen (Spec.simAt o rho), ?_, ?_⟩
  · rw [J_self_simAt env h hcur hv (SameProblem.refl o) hv hcur rfl heps]
    exact C35_fresh_partial env o (some (Spec.simAt o rho)) J args ⟨h.obj, h.lin, h.comps⟩ hlen hcur
  · have hval : Spec.freshJ env J args hlen (Spec.simAt o rho) + q * d = Spec.freshJ env J args hlen (Spec.simAt o (Spec.bump rho pt.1 pt.2 d)) := by
      rw [hr'.2, div_mul_cancel₀ _ hd]
      ring
    rw [hval]
    show (Opt.compute_J env (Opt.check_deriv env picks d o).2).1 = _
    unfold Opt.compute_J Opt.solveArgFields
    rw [if_neg]
    · simp only
      rw [hf, hob, show o.objective.J = J by rw [(objective_init_ok h.obj).2]; rfl]
      exact call_fresh env J args hlen _
    · rw [hc, hf]
      rintro (h | h)
      · exact absurd h (by simp)
      · rw [Option.getD_some, List.isEmpty_iff, List.map_eq_nil_iff] at h
        exact hne h

/-- Re-projecting the density of a freshly built, consistent simulation changes nothing. -/
theorem putRho_fresh {o : Opt Nx Ny} {rho : Grid Nx Ny ℝ} (hv : o.simulation.Valid) (hr : o.simulation.rho = some (some rho))
    (heps : o.simulation.eps_r = fun i j => ((rho2eps rho o.eps_m o.W o.eta o.beta i j : ℝ) : ℂ)) (hf : o.simulation.fields = fun _ => none) (hn : o.simulation.fields_nl = fun _ => none)
    (hcur : o.fields_current = false) : ({ Opt.putRho o rho with fields_current := false } : Opt Nx Ny) = o := by
  have hsim : (Opt.putRho o rho).simulation = o.simulation := by
    show ({ (o.simulation.set_eps_r fun i j => ((rho2eps rho o.eps_m o.W o.eta o.beta i j : ℝ) : ℂ)) with rho := some (some rho) } : Sim Nx Ny) = o.simulation
    rw [← heps]
    have hA := hv.A_eq
    have hd := hv.derivs_eq.trans (construct_A_derivs o.simulation.omega o.simulation.L0 o.simulation.NPML o.simulation.xrange o.simulation.yrange o.simulation.eps_r o.simulation.pol true).symm
    generalize o.simulation = S at *
    obtain ⟨⟩ := S
    simp only at hr hf hn hA hd
    subst hr hf hn
    simp only [Sim.set_eps_r]
    rw [← hA, ← hd]
  show ({ o with simulation := (Opt.putRho o rho).simulation, fields_current := false } : Opt Nx Ny) = o
  rw [hsim, ← hcur]

/-- One draw: the reported pair, and the limit of its second entry. -/
theorem check_deriv_one (env : Env) {o : Opt Nx Ny} {J : ObjFn Nx Ny} {args : List ObjArg} (h : Spec.LinearObjective o J args o.simulation) (hv : o.simulation.Valid) (hcur : o.fields_current = false)
    {rho : Grid Nx Ny ℝ} (hr : o.simulation.rho = some (some rho)) {g : Grid Nx Ny ℝ} (hg : (Opt.compute_dJ env { Opt.putRho o rho with fields_current := false }).1 = .ok g)
    {i : Fin Nx} {j : Fin Ny} (hd : o.design_region i j = 1) {f : ℝ → ℝ} {f' : ℝ} (hf : ∀ t, (Opt.compute_J env o (some (Spec.simAt o (Spec.bump rho i j t)))).1 = .ok (f t))
    (hder : HasDerivAt f f' 0) :
    ∃ (p : ℕ) (q : ℝ → ℝ), (∀ d, d ≠ 0 → (Opt.check_deriv env [p] d o).1 = .ok [(g i j, q d)]) ∧ Tendsto q (𝓝[≠] 0) (𝓝 f') := by
  obtain ⟨hlen, -⟩ := objective_init_ok h.obj
  have hF : ∀ t, f t = Spec.freshJ env J args hlen (Spec.simAt o (Spec.bump rho i j t)) := fun t =>
    Except.ok.inj ((hf t).symm.trans (C35_fresh_partial env o (some (Spec.simAt o (Spec.bump rho i j t))) J args ⟨h.obj, h.lin, h.comps⟩ hlen hcur))
  obtain ⟨p, hp, hpe⟩ := List.getElem_of_mem (((desPts_enumerates o).2 i j).2 hd)
  refine ⟨p, fun d => (f d - f 0) / d, fun d hd0 => ?_, ?_⟩
  · obtain ⟨res, h1, h2, -⟩ := check_deriv_ok env h hlen hv hr hg d hd0 [p] (fun q hq => by rw [List.mem_singleton] at hq; rw [hq]; exact hp)
    rw [h1]
    rcases h2 with _ | ⟨⟨pt, e1, e2⟩, h3⟩
    rcases h3
    rw [List.getElem?_eq_getElem hp, Option.some.injEq, hpe] at e1
    subst e1
    rw [e2]
    beta_reduce
    rw [hF d, hF 0, bump_zero]
  · have h2 := hder.tendsto_slope_zero
    simp only [zero_add, smul_eq_mul] at h2
    refine h2.congr fun t => ?_
    rw [div_eq_inv_mul]

/-- **C69 fails at the border of the filter.** 9×9 grid, PML of one cell, filter radius 2, the whole grid a design region: at the design pixel (4, 3) the analytical derivative reported by
`check_deriv` is 0 for every `d_rho`, while the numerical one tends to a number different from 0. -/
theorem C69_false_near_border (env : Env) (he : env.Exact) :
    ∃ (W : Mat (9 * 9) ℝ) (J : ObjFn 9 9) (src : Grid 9 9 ℂ), get_W 9 9 (fun _ _ => 1) (1, 1) 2 = .ok W ∧
      let o := gopt 1 src (Objective.mk' J [⟨.Ez, false, .linear_Ez⟩]) (fun _ _ => 1) W
      Spec.LinearEz env o J [⟨.Ez, false, .linear_Ez⟩] (fun _ _ => 0) ∧
      ∃ (p : ℕ) (q : ℝ → ℝ) (f' : ℝ), (∀ d, d ≠ 0 → (Opt.check_deriv env [p] d o).1 = .ok [(0, q d)]) ∧ Tendsto q (𝓝[≠] 0) (𝓝 f') ∧ f' ≠ 0 := by
  obtain ⟨W, J, src, hW, hS, g, f, f', h1, h2, h3, h4, h5⟩ := C29_false_near_border env he
  refine ⟨W, J, src, hW, hS, ?_⟩
  have hL : Spec.LinearObjective (gopt 1 src (Objective.mk' J [⟨.Ez, false, .linear_Ez⟩]) (fun _ _ => 1) W) J [⟨.Ez, false, .linear_Ez⟩] (gsim 9 9 1 src) :=
    ⟨hS.obj, fun a ha => by rw [List.mem_singleton] at ha; rw [ha], fun a ha => by rw [List.mem_singleton] at ha; rw [ha]; trivial⟩
  obtain ⟨p, q, e1, e2⟩ := check_deriv_one env hL hS.valid hS.stale hS.density
    (by rw [putRho_fresh hS.valid hS.density hS.eps rfl rfl rfl]; exact h1) (i := 4) (j := 3) rfl h2 h3
  rw [h4] at e1
  exact ⟨p, q, f', e1, e2, h5⟩

/-- **C69 fails for Hz.** On every grid with at least two cells each way and for every pixel there is an Hz problem in which the numerical derivative tends to a number different from 0 and the
analytical derivative is *minus* that number. -/
theorem C69_Hz_false (env : Env) (he : env.Exact) (hx : 1 < Nx) (hy : 1 < Ny) :
    ∃ (J : ObjFn Nx Ny) (src : Grid Nx Ny ℂ),
      let o := hopt src (Objective.mk' J [⟨.Hz, false, .linear_Hz⟩])
      Spec.LinearHz env o J [⟨.Hz, false, .linear_Hz⟩] (fun _ _ => 0) ∧
      ∃ (p : ℕ) (q : ℝ → ℝ) (f' : ℝ), (∀ d, d ≠ 0 → (Opt.check_deriv env [p] d o).1 = .ok [(-f', q d)]) ∧ Tendsto q (𝓝[≠] 0) (𝓝 f') ∧ f' ≠ 0 := by
  let i0 : Fin Nx := ⟨0, by omega⟩
  let j0 : Fin Ny := ⟨0, by omega⟩
  obtain ⟨J, src, hS, g, f, f', h1, h2, h3, h4, h5⟩ := C32_false env he hx hy i0 j0
  refine ⟨J, src, hS, ?_⟩
  have hL : Spec.LinearObjective (hopt src (Objective.mk' J [⟨.Hz, false, .linear_Hz⟩])) J [⟨.Hz, false, .linear_Hz⟩] (hsim Nx Ny src) :=
    ⟨hS.obj, fun a ha => by rw [List.mem_singleton] at ha; rw [ha], fun a ha => by rw [List.mem_singleton] at ha; rw [ha]; trivial⟩
  obtain ⟨p, q, e1, e2⟩ := check_deriv_one env hL hS.valid hS.stale hS.density
    (by rw [putRho_fresh hS.valid hS.density hS.eps rfl rfl rfl]; exact h1) (i := i0) (j := j0) rfl h2 h3
  rw [h4] at e1
  exact ⟨p, q, f', e1, e2, h5⟩

/-- **C69, empty design region.** Without design pixels there is nothing to draw: `check_deriv` raises `ValueError` (unless no point is asked for). -/
theorem C69_empty_region (env : Env) (o : Opt Nx Ny) (J : ObjFn Nx Ny) (args : List ObjArg) (rho : Grid Nx Ny ℝ) (hS : Spec.LinearEz env o J args rho)
    (hargs : ∀ a ∈ args, ∃ c, c ∈ ["Ez", "Hx", "Hy"] ∧ ObjArg.init c false = .ok a) (hd : ∀ i j, o.design_region i j ≠ 1) (d : ℝ) (p : ℕ) (ps : List ℕ) :
    (Opt.check_deriv env (p :: ps) d o).1 = .error .valueError := by
  have ha := args_of_init hargs
  obtain ⟨hlen, hmk⟩ := objective_init_ok hS.obj
  have hL : Spec.LinearObjective o J args o.simulation := ⟨hS.obj, fun a h => (ha a h).1, fun a h => by
    rw [hS.pol]
    have := (ha a h).2.1
    revert this
    cases a.component <;> intro h <;> first | trivial | exact h.elim⟩
  have hs1 := SameProblem.putRho o rho
  have hS1 := hS.same ha hs1 (valid_putRho hS.valid rho) rfl rfl rfl
  have hg := (dJ_Ez_formula env _ J args rho hS1 ha hlen).2
  set o1 : Opt Nx Ny := { Opt.putRho o rho with fields_current := false } with ho1
  have hJ := C35_repeated_partial env o1 J args ⟨hL.obj, hL.lin, hL.comps⟩ hlen rfl [SelfCall.dJ]
  have hJ' : (Opt.J_self env (Opt.dJ_self env o1).2).1 = .ok (Spec.freshJ env J args hlen o1.simulation) := hJ
  have hg' : (Opt.dJ_self env o1).1 = .ok _ := hg
  have hk := OptKeep.dJ_self env o1
  unfold Opt.check_deriv
  rw [hS.density]
  simp only
  rw [← ho1]
  generalize Opt.dJ_self env o1 = R at hJ' hg' hk ⊢
  obtain ⟨e | g1, o2⟩ := R
  · exact absurd hg' (by simp)
  · simp only at hJ' hk
    simp only [pySeq]
    have hk2 := OptKeep.J_self env o2
    generalize Opt.J_self env o2 = R at hJ' hk2 ⊢
    obtain ⟨e | v, o3⟩ := R
    · exact absurd hJ' (by simp)
    · simp only at hk2
      simp only
      have hnil : Opt.desPts o3 = [] := by
        rw [List.eq_nil_iff_forall_not_mem]
        rintro ⟨i, j⟩ hij
        have h3 := ((desPts_enumerates o3).2 i j).1 hij
        rw [(hk.trans hk2).design] at h3
        exact hd i j h3
      rw [Opt.checkPts]
      unfold Opt.checkPt
      rw [hnil]
      rfl

/-- The hypotheses are met, and the side effect is visible: in this problem (one objective pixel, no filter) and for every small enough `d_rho > 0` there is a draw after which the objective of the
untouched simulation is reported with another value than before. -/
example (env : Env) (he : env.Exact) (hx : 1 < Nx) (hy : 1 < Ny) (i1 : Fin Nx) (j1 : Fin Ny) :
    ∃ (p src : Grid Nx Ny ℂ),
      let o := gopt 1 src (Objective.mk' (linearJ p) [⟨.Ez, false, .linear_Ez⟩]) (fun _ _ => 1) 1
      ∀ᶠ d in 𝓝[>] (0 : ℝ), ∃ k v v', (Opt.J_self env o).1 = .ok v ∧ (Opt.J_self env (Opt.check_deriv env [k] d o).2).1 = .ok v' ∧ v < v' := by
  obtain ⟨p, src, hS, hg⟩ := unit_witness env he hx hy 1 (fun _ _ => 1) 1 i1 j1 1
  refine ⟨p, src, ?_⟩
  have ha : ∀ a ∈ ([⟨.Ez, false, .linear_Ez⟩] : List ObjArg), ∃ n, n ∈ ["Ez", "Hx", "Hy"] ∧ ObjArg.init n false = .ok a :=
    fun a ha => ⟨"Ez", by simp, by rw [List.mem_singleton] at ha; rw [ha]; rfl⟩
  set o := gopt 1 src (Objective.mk' (linearJ p) [⟨.Ez, false, .linear_Ez⟩]) (fun _ _ => 1) 1 with ho
  have hL : Spec.LinearObjective o (linearJ p) [⟨.Ez, false, .linear_Ez⟩] o.simulation :=
    ⟨hS.obj, fun a ha => by rw [List.mem_singleton] at ha; rw [ha], fun a ha => by rw [List.mem_singleton] at ha; rw [ha]; trivial⟩
  obtain ⟨g, f, h1, h2, h3⟩ := gradient_exact_Ez env he o _ _ _ hS (args_of_init ha) i1 j1 (filterSym_one (fun _ _ => Or.inr rfl) rfl)
  have hg1 : (Opt.compute_dJ env { Opt.putRho o (fun _ _ => 0) with fields_current := false }).1 = .ok g := by
    rw [putRho_fresh hS.valid hS.density hS.eps rfl rfl rfl]
    exact h1
  obtain ⟨k, q, e1, e2⟩ := check_deriv_one env hL hS.valid hS.stale hS.density hg1 (i := i1) (j := j1) rfl h2 h3
  have hpos : 0 < g i1 j1 := by
    rw [Except.ok.inj (h1.symm.trans hg)]
    have hone : (1 : Mat (Nx * Ny) ℝ) (finProdFinEquiv (i1, j1)) (finProdFinEquiv (i1, j1)) = 1 := Matrix.one_apply_eq _
    show 0 < 1 * (4 * drhob_drhot (rho2rhot (fun _ _ => 0) (1 : Mat (Nx * Ny) ℝ) i1 j1) (1 / 2) 1 * ((1 : Mat (Nx * Ny) ℝ) (finProdFinEquiv (i1, j1)) (finProdFinEquiv (i1, j1)) * 1))
    rw [hone]
    have := drhob_drhot_pos (rho2rhot (fun _ _ => 0) (1 : Mat (Nx * Ny) ℝ) i1 j1)
    positivity
  have hev : ∀ᶠ d in 𝓝[>] (0 : ℝ), 0 < q d := (e2.mono_left (nhdsWithin_mono _ fun x hx => ne_of_gt hx)).eventually (lt_mem_nhds hpos)
  filter_upwards [hev, self_mem_nhdsWithin] with d hq hd
  have hd' : (0 : ℝ) < d := hd
  obtain ⟨v, hv1, hv2⟩ := C69_stale_cache env o _ _ hL (by simp) rfl hS.valid _ hS.density hS.eps d hd'.ne' [k] _ (e1 d hd'.ne') _ _ rfl
  exact ⟨k, v, _, hv1, hv2, lt_add_of_pos_right _ (mul_pos hq hd')⟩

end Angler
