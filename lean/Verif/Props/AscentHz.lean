import Verif.Props.Ascent
import Verif.Props.GradientHz
import Verif.Props.Scan

/-! # C67 for the Hz polarisation: a step of gradient ascent can decrease the objective -/

namespace Angler

open Matrix Filter Topology

variable {Nx Ny : ℕ}

/-- The gradient does not look at logs and cache flags. -/
theorem dJLoop_logs (env : Env) {k : ℕ} (dJ : (d : Fin k) → Except PyErr (Grid Nx Ny ℂ)) (l : List (GradFn × Fin k × ObjArg)) (a b : List ℝ) (c : Bool) (f : Option (List (Grid Nx Ny ℂ))) :
    ∀ (o : Opt Nx Ny) (acc : Grid Nx Ny ℝ),
      (Opt.dJLoop env l dJ { o with objfn_list := a, src_amplitudes := b, fields_current := c, field_arg_list := f } none acc).1 = (Opt.dJLoop env l dJ o none acc).1 := by
  induction l with
  | nil => intro o acc; rfl
  | cons q l ih =>
    intro o acc
    obtain ⟨fn, d, x⟩ := q
    simp only [Opt.dJLoop]
    have ht : Opt.target { o with objfn_list := a, src_amplitudes := b, fields_current := c, field_arg_list := f } none = Opt.target o none := rfl
    rw [ht]
    generalize (if x.nl = true then (o.target none).fields_nl (o.target none).pol.comp else (o.target none).fields (o.target none).pol.comp) = F
    rcases F with _ | F
    · rfl
    · simp only
      rcases dJ d with e | p
      · rfl
      · simp only
        have hg : Opt.gradFn env { o with objfn_list := a, src_amplitudes := b, fields_current := c, field_arg_list := f } fn p F = Opt.gradFn env o fn p F := by
          cases fn <;> rfl
        rw [hg]
        generalize Opt.gradFn env o fn p F = R
        obtain ⟨e | gr, s1⟩ := R
        · rfl
        · exact ih { o with simulation := s1 } _

theorem store_idem (pol : Pol) (f : Fields Nx Ny) (t : Grid Nx Ny ℂ × Grid Nx Ny ℂ × Grid Nx Ny ℂ) : Sim.store pol (Sim.store pol f t) t = Sim.store pol f t := by
  funext c
  cases pol <;> cases c <;> rfl

theorem solve_fields_idem (env : Env) (s : Sim Nx Ny) : ((s.solve_fields env).2.solve_fields env).2 = (s.solve_fields env).2 := by
  have h : (s.solve_fields env).2 = { s with fields := Sim.store s.pol s.fields (s.in_plane false s.eps_r (solver_direct env s.A s.rhs)) } := rfl
  have h' : ((s.solve_fields env).2.solve_fields env).2 =
      { s with fields := Sim.store s.pol (Sim.store s.pol s.fields (s.in_plane false s.eps_r (solver_direct env s.A s.rhs))) (s.in_plane false s.eps_r (solver_direct env s.A s.rhs)) } := rfl
  rw [h', h, store_idem]

/-- Evaluating the objective and resetting the flag does not change what `compute_dJ` returns (linear objectives). -/
theorem dJ_after_J (env : Env) {o o1 : Opt Nx Ny} {J : ObjFn Nx Ny} {args : List ObjArg} (h : Spec.LinearObjective o J args o.simulation) (hcur : o.fields_current = false) {v : ℝ}
    (hJ : Opt.J_self env o = (.ok v, o1)) (a b : List ℝ) :
    (Opt.compute_dJ env { o1 with objfn_list := a, src_amplitudes := b, fields_current := false }).1 = (Opt.compute_dJ env o).1 := by
  have hs := solveArgFields_stale env o none J args h (Or.inl hcur)
  have hs0 : Opt.solveArgFields env o none = (.ok (), { o with simulation := (o.simulation.solve_fields env).2, field_arg_list := some (args.map fun a => Spec.freshField env o.simulation a.component), fields_current := true }, none) := hs
  have ho1 : o1 = { o with simulation := (o.simulation.solve_fields env).2, field_arg_list := some (args.map fun a => Spec.freshField env o.simulation a.component), fields_current := true } := by
    have h2 : (Opt.J_self env o).2 = o1 := by rw [hJ]
    rw [← h2]
    show (Opt.compute_J env o).2.1 = _
    unfold Opt.compute_J
    rw [hs0]
  subst ho1
  set s1 := (o.simulation.solve_fields env).2 with hs1
  have hk : SimKeep o.simulation s1 := SimKeep.solve env o.simulation false false
  let o2 : Opt Nx Ny := { o with simulation := s1, field_arg_list := some (args.map fun a => Spec.freshField env o.simulation a.component), objfn_list := a, src_amplitudes := b, fields_current := false }
  have hfr : (args.map fun a => Spec.freshField env s1 a.component) = args.map fun a => Spec.freshField env o.simulation a.component :=
    List.map_congr_left fun x hx => freshField_congr env hk x.component (h.comps x hx)
  have h2 := solveArgFields_stale env o2 none J args ⟨h.obj, h.lin, fun x hx => by
    have hp : (o2.target none).pol = o.simulation.pol := hk.pol
    rw [hp]
    exact h.comps x hx⟩ (Or.inl rfl)
  have h3 : Opt.solveArgFields env o2 none = (.ok (), { o2 with simulation := (s1.solve_fields env).2, field_arg_list := some (args.map fun a => Spec.freshField env s1 a.component), fields_current := true }, none) := h2
  rw [hs1, solve_fields_idem, ← hs1, hfr] at h3
  show (Opt.compute_dJ env o2).1 = _
  unfold Opt.compute_dJ
  rw [h3, hs0]
  exact dJLoop_logs env _ _ a b true _ { o with simulation := s1, field_arg_list := some (args.map fun a => Spec.freshField env o.simulation a.component), fields_current := true } _

/-- One iteration up to the gradient, for linear objectives of either polarisation: the gradient is the one of the starting state. -/
theorem iteration_runnable (env : Env) {o : Opt Nx Ny} {J : ObjFn Nx Ny} {args : List ObjArg} (h : Runnable o J args) (hv : o.simulation.Valid) {rho : Grid Nx Ny ℝ}
    (hr : o.simulation.rho = some (some rho)) {g : Grid Nx Ny ℝ} (hg : (Opt.compute_dJ env o).1 = .ok g) :
    ∃ (v : ℝ) (o1 o2 o3 : Opt Nx Ny), Opt.J_self env o = (.ok v, o1) ∧
      Opt.set_source_amplitude env { o1 with objfn_list := o1.objfn_list ++ [v] } = (.ok (), o2) ∧ Opt.dJ_self env o2 = (.ok g, o3) ∧
      ∀ (d : Grid Nx Ny ℝ) (st : ℝ), ∃ o', Opt.update_rho o3 d st = (.ok (), o') ∧ SameProblem o o' ∧ o'.simulation.Valid ∧ o'.fields_current = false ∧ o'.simulation.dl = o.simulation.dl ∧
        o'.simulation.rho = some (some fun i j => Opt.clip01 (rho i j + o.design_region i j * st * d i j)) ∧
        o'.simulation.eps_r = (fun i j => ((rho2eps (fun i j => Opt.clip01 (rho i j + o.design_region i j * st * d i j)) o'.eps_m o'.W o'.eta o'.beta i j : ℝ) : ℂ)) := by
  obtain ⟨v, o1, o2, o3, g', h1, h2, h3, -⟩ := h.iteration env hr
  have hk1 : OptKeep o o1 := by have := OptKeep.J_self env o; rw [h1] at this; exact this
  have ho2 : o2 = { o1 with objfn_list := o1.objfn_list ++ [v], src_amplitudes := o1.src_amplitudes ++ [gridMax fun i j => ‖o1.simulation.src i j‖], fields_current := false } := by
    unfold Opt.set_source_amplitude at h2
    have hn : o1.max_ind_shift = none := hk1.max_ind_shift.trans h.noShift
    simp only [hn] at h2
    rw [← (Prod.mk.inj h2).2, ← hn]
  have hgg : g' = g := by
    have e1 : (Opt.compute_dJ env o2).1 = .ok g' := congrArg Prod.fst h3
    rw [ho2, dJ_after_J env ⟨h.obj, h.lin, h.belongs⟩ h.stale h1, hg] at e1
    exact (Except.ok.inj e1).symm
  subst hgg
  have hk3 : OptKeep o2 o3 := by have := OptKeep.dJ_self env o2; rw [h3] at this; exact this
  refine ⟨v, o1, o2, o3, h1, h2, h3, fun d st => ?_⟩
  have hs2 : SameProblem o o2 := by
    have hs1 := SameProblem.of_keep hk1
    rw [ho2]
    exact ⟨hs1.objective, hs1.W, hs1.design, hs1.eps_m, hs1.eta, hs1.beta, hs1.shift, hs1.omega, hs1.L0, hs1.NPML, hs1.pol, hs1.src, hs1.xrange, hs1.yrange⟩
  have hsim2 : SimKeep o.simulation o2.simulation := by rw [ho2]; exact hk1.sim
  have hsim3 : SimKeep o.simulation o3.simulation := hsim2.trans hk3.sim
  have hs3 : SameProblem o o3 := hs2.trans (SameProblem.of_keep hk3)
  have hr3 : o3.simulation.rho = some (some rho) := hsim3.rho.trans hr
  refine ⟨{ Opt.putRho o3 (fun i j => Opt.clip01 (rho i j + o3.design_region i j * st * d i j)) with fields_current := false }, ?_, hs3.trans (SameProblem.putRho o3 _), ?_, rfl, ?_, ?_, ?_⟩
  · unfold Opt.update_rho
    rw [hr3]
  · exact valid_putRho (hsim3.valid hv) _
  · show o3.simulation.dl = _
    rw [hsim3]
  · rw [← hs3.design]
    rfl
  · rw [← hs3.design]
    rfl

/-- The value of the objective in a state of the same problem is the value for a copy of the original simulation with the new density. -/
theorem J_self_simAt (env : Env) {o o' : Opt Nx Ny} {J : ObjFn Nx Ny} {args : List ObjArg} (h : Spec.LinearObjective o J args o.simulation) (hcur : o.fields_current = false)
    (hv : o.simulation.Valid) (hs : SameProblem o o') (hv' : o'.simulation.Valid) (hcur' : o'.fields_current = false) (hdl : o'.simulation.dl = o.simulation.dl) {rho' : Grid Nx Ny ℝ}
    (heps : o'.simulation.eps_r = fun i j => ((rho2eps rho' o'.eps_m o'.W o'.eta o'.beta i j : ℝ) : ℂ)) :
    (Opt.J_self env o').1 = (Opt.compute_J env o (some (Spec.simAt o rho'))).1 := by
  obtain ⟨hlen, -⟩ := objective_init_ok h.obj
  have h1 := C35_fresh_partial env o' none J args ⟨by rw [hs.objective]; exact h.obj, h.lin, fun a ha => by
    have : (o'.target none).pol = o.simulation.pol := hs.pol
    rw [this]; exact h.comps a ha⟩ hlen hcur'
  have h2 := C35_fresh_partial env o (some (Spec.simAt o rho')) J args ⟨h.obj, h.lin, h.comps⟩ hlen hcur
  show (Opt.compute_J env o' none).1 = _
  rw [h1, h2]
  congr 1
  unfold Spec.freshJ
  congr 1
  funext k
  refine freshField_valid env (hv.set_eps_r _) hv' hs.omega hs.L0 hdl hs.NPML hs.pol ?_ hs.src _ (h.comps _ (List.get_mem _ _))
  show o'.simulation.eps_r = fun i j => ((rho2eps rho' o.eps_m o.W o.eta o.beta i j : ℝ) : ℂ)
  rw [heps, hs.eps_m, hs.W, hs.eta, hs.beta]

/-- **C67 fails for Hz.** On every grid with at least three cells each way (vacuum, no PML, no filter, every pixel a design pixel) and for every pixel there are a source and a linear
objective of Hz for which every sufficiently small step of `run('gd')` strictly *decreases* the objective, although the gradient the code computes is not zero and the density can
follow it. -/
theorem C67_Hz_false (env : Env) (he : env.Exact) (hx : 2 < Nx) (hy : 2 < Ny) (i0 : Fin Nx) (j0 : Fin Ny) :
    ∃ (J : ObjFn Nx Ny) (src : Grid Nx Ny ℂ) (g : Grid Nx Ny ℝ),
      let o := hopt src (Objective.mk' J [⟨.Hz, false, .linear_Hz⟩])
      Spec.LinearHz env o J [⟨.Hz, false, .linear_Hz⟩] (fun _ _ => 0) ∧ (Opt.compute_dJ env o).1 = .ok g ∧ Spec.CanMove (fun _ _ => 0) g i0 j0 ∧
      ∃ s0 : ℝ, 0 < s0 ∧ ∀ s, 0 < s → s < s0 → ∃ o' v v', Opt.run env "gd" 1 s 0.9 0.999 [] [] o = (.ok (), o') ∧
        (Opt.J_self env o).1 = .ok v ∧ (Opt.J_self env o').1 = .ok v' ∧ v' < v := by
  let F : Grid Nx Ny ℂ := Spec.single i0 j0
  let a : Grid Nx Ny ℂ := fun i j => -Spec.single i0 j0 i j
  obtain ⟨src, p, hF, ha⟩ := hopt_fields env he (show 1 < Nx by omega) (show 1 < Ny by omega) F a
  have hS := hopt_setup env (show 1 < Nx by omega) (show 1 < Ny by omega) src p
  have hall := hopt_values_at env he (show 1 < Nx by omega) (show 1 < Ny by omega) F a src p hF ha
  obtain ⟨c, hc, g, f, f', hg, hf, hder, hg0, hf0⟩ := hall i0 j0
  have hh : (0 : ℝ) < 3 / ETA_0 := div_pos (by norm_num) ETA_0_pos
  set h := 3 / ETA_0 with hhdef
  have hnx := next_ne (show 1 < Nx by omega) i0
  have hny := next_ne (show 1 < Ny by omega) j0
  have hbX : ∀ i j, Spec.bwdX h a i j = -Spec.bwdX h F i j := by intro i j; simp only [Spec.bwdX, a, F]; ring
  have hbY : ∀ i j, Spec.bwdY h a i j = -Spec.bwdY h F i j := by intro i j; simp only [Spec.bwdY, a, F]; ring
  have fs : F i0 j0 = 1 := single_self i0 j0
  have fnx : F (Spec.next i0) j0 = 0 := single_ne_x _ _ hnx.1
  have fpx : F (Spec.prev i0) j0 = 0 := single_ne_x _ _ hnx.2
  have fny : F i0 (Spec.next j0) = 0 := single_ne_y _ _ hny.1
  have fpy : F i0 (Spec.prev j0) = 0 := single_ne_y _ _ hny.2
  have hc2 : (h : ℂ) ≠ 0 := by exact_mod_cast hh.ne'
  have hgv : g i0 j0 = c * (2 / h ^ 2) := by
    rw [hg0, hbX, hbY]
    have b1 : Spec.bwdX h F i0 j0 = 1 / (h : ℂ) := by rw [Spec.bwdX, fs, fpx, sub_zero]
    have b3 : Spec.bwdY h F i0 j0 = 1 / (h : ℂ) := by rw [Spec.bwdY, fs, fpy, sub_zero]
    have b5 : Spec.fwdX h F i0 j0 = -1 / (h : ℂ) := by rw [Spec.fwdX, fs, fnx, zero_sub]
    have b6 : Spec.fwdY h F i0 j0 = -1 / (h : ℂ) := by rw [Spec.fwdY, fs, fny, zero_sub]
    rw [b1, b3, b5, b6, ← Complex.ofReal_re (c * (2 / h ^ 2))]
    congr 1
    push_cast
    ring
  have hfv : f' = -(c * (2 / h ^ 2)) := by
    rw [hf0, hbX, hbX, hbY, hbY]
    have b1 : Spec.bwdX h F i0 j0 = 1 / (h : ℂ) := by rw [Spec.bwdX, fs, fpx, sub_zero]
    have b2 : Spec.bwdX h F (Spec.next i0) j0 = -1 / (h : ℂ) := by rw [Spec.bwdX, prev_next, fs, fnx, zero_sub]
    have b3 : Spec.bwdY h F i0 j0 = 1 / (h : ℂ) := by rw [Spec.bwdY, fs, fpy, sub_zero]
    have b4 : Spec.bwdY h F i0 (Spec.next j0) = -1 / (h : ℂ) := by rw [Spec.bwdY, prev_next, fs, fny, zero_sub]
    rw [b1, b2, b3, b4, ← Complex.ofReal_re (-(c * (2 / h ^ 2)))]
    congr 1
    push_cast
    ring
  have hK : 0 < c * (2 / h ^ 2) := by positivity
  -- the gradient is zero elsewhere
  have hz : ∀ i j, ¬ (i = i0 ∧ j = j0) → g i j = 0 := by
    intro i j hij
    obtain ⟨c', -, g', f1, f2, hg', -, -, hg1, -⟩ := hall i j
    have hgg : g' = g := Except.ok.inj (hg'.symm.trans hg)
    subst hgg
    rw [hg1, hbX, hbY]
    have nxx : ∀ {n : ℕ} (_ : 2 < n) (k : Fin n), Spec.next k ≠ Spec.prev k := by
      intro n hn k hk
      have h2 : Spec.next (Spec.next k) = k := by rw [hk, next_prev]
      have h1 : ((k + 1) % n + 1) % n = (k : ℕ) := congrArg Fin.val h2
      have := k.2
      rw [Nat.mod_add_mod] at h1
      rcases Nat.lt_or_ge (k + 1 + 1) n with h3 | h3
      · rw [Nat.mod_eq_of_lt h3] at h1; omega
      · rw [Nat.mod_eq_sub_mod h3, Nat.mod_eq_of_lt (by omega)] at h1; omega
    have hFij : F i j = 0 := if_neg hij
    have hX : Spec.bwdX h F i j * Spec.fwdX h F i j = 0 := by
      rw [Spec.bwdX, Spec.fwdX, hFij]
      by_cases h1 : F (Spec.prev i) j = 0
      · rw [h1]; simp
      · have : F (Spec.next i) j = 0 := by
          have hp : Spec.prev i = i0 ∧ j = j0 := by by_contra hcon; exact h1 (if_neg hcon)
          refine if_neg fun hn => nxx hx i ?_
          rw [hn.1, hp.1]
        rw [this]; simp
    have hY : Spec.bwdY h F i j * Spec.fwdY h F i j = 0 := by
      rw [Spec.bwdY, Spec.fwdY, hFij]
      by_cases h1 : F i (Spec.prev j) = 0
      · rw [h1]; simp
      · have : F i (Spec.next j) = 0 := by
          have hp : i = i0 ∧ Spec.prev j = j0 := by by_contra hcon; exact h1 (if_neg hcon)
          refine if_neg fun hn => nxx hy j ?_
          rw [hn.2, hp.2]
        rw [this]; simp
    rw [neg_mul, neg_mul, hX, hY]
    simp
  refine ⟨linearJ p, src, g, hS, hg, Or.inl ⟨by rw [hgv]; exact hK, zero_lt_one⟩, ?_⟩
  set o := hopt src (Objective.mk' (linearJ p) [⟨.Hz, false, .linear_Hz⟩]) with ho
  have hRun : Runnable o (linearJ p) [⟨.Hz, false, .linear_Hz⟩] :=
    { obj := rfl
      kinds := by
        intro a ha
        rw [List.mem_singleton] at ha
        exact ⟨"Hz", ha ▸ rfl⟩
      belongs := by
        intro a ha
        rw [List.mem_singleton] at ha
        rw [ha]
        trivial
      stale := rfl
      noShift := rfl
      clean := fun _ _ => rfl }
  have hL : Spec.LinearObjective o (linearJ p) [⟨.Hz, false, .linear_Hz⟩] o.simulation := ⟨rfl, hRun.lin, hRun.belongs⟩
  obtain ⟨v, o1, o2, o3, h1, h2, h3, h4⟩ := iteration_runnable env hRun (hsim_valid src) (rho := fun _ _ => 0) rfl hg
  have hdec : ∀ᶠ t in 𝓝[>] (0 : ℝ), (fun t => -f t) 0 < (fun t => -f t) t := eventually_lt_of_deriv hder.neg (by rw [hfv]; linarith)
  obtain ⟨e0, he0, hsub⟩ := mem_nhdsGT_iff_exists_Ioo_subset.1 hdec
  have he0' : (0 : ℝ) < e0 := he0
  refine ⟨min (e0 / (c * (2 / h ^ 2))) (1 / (c * (2 / h ^ 2))), lt_min (div_pos he0' hK) (one_div_pos.2 hK), fun s hs0 hs => ?_⟩
  obtain ⟨hs1, hs2⟩ := lt_min_iff.1 hs
  rw [lt_div_iff₀ hK] at hs1 hs2
  obtain ⟨o', hu, hsame, hv', hst, hdl, hrho, heps⟩ := h4 g s
  have hstep : Opt.stepGD env s o = (.ok (), o') := by
    unfold Opt.stepGD
    rw [h1]
    simp only [pySeq]
    rw [h2]
    simp only
    rw [h3]
    exact hu
  have hnew : (fun i j => Opt.clip01 ((0 : ℝ) + o.design_region i j * s * g i j)) = Spec.bump (fun _ _ => 0) i0 j0 (s * (c * (2 / h ^ 2))) := by
    funext i j
    have hd : o.design_region i j = 1 := rfl
    rw [hd, one_mul, zero_add]
    by_cases hij : i = i0 ∧ j = j0
    · obtain ⟨rfl, rfl⟩ := hij
      rw [hgv, clip01_of_mem ⟨(mul_pos hs0 hK).le, hs2.le⟩]
      simp [Spec.bump]
    · rw [hz i j hij, mul_zero, clip01_of_mem ⟨le_rfl, zero_le_one⟩]
      simp [Spec.bump, hij]
  have hval0 : (Opt.J_self env o).1 = .ok (f 0) := by
    rw [← hf 0, bump_zero]
    exact J_self_simAt env hL rfl (hsim_valid src) (SameProblem.refl o) (hsim_valid src) rfl rfl hS.eps
  have hval1 : (Opt.J_self env o').1 = .ok (f (s * (c * (2 / h ^ 2)))) := by
    rw [← hf (s * (c * (2 / h ^ 2)))]
    rw [hnew] at heps
    exact J_self_simAt env hL rfl (hsim_valid src) hsame hv' hst hdl heps
  refine ⟨o', _, _, ?_, hval0, hval1, ?_⟩
  · rw [run_gd (rho := fun _ _ => 0) rfl lower_gd]
    show Opt.run_GD env s 1 o = _
    unfold Opt.run_GD
    rw [hstep]
    rfl
  · have := hsub ⟨mul_pos hs0 hK, hs1⟩
    have h5 : -f 0 < -f (s * (c * (2 / h ^ 2))) := this
    linarith

end Angler
