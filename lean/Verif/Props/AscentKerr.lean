import Verif.Lemmas.KerrUniform
import Verif.Props.CheckDeriv

/-! # C67 and C69 for nonlinear fields: the exact statements fail

The device is uniform, so every system of the computation can be solved by hand (`Lemmas/KerrUniform.lean`). -/

namespace Angler

open Matrix Filter Topology

variable {Nx Ny : ℕ}

/-- The entries of `partials` are the derivatives of `eval`. -/
theorem mixJ_autograd (α : ℝ) (x : Fin (mixJ α : ObjFn Nx Ny).arity → Grid Nx Ny ℂ) : Spec.Autograd (mixJ α) x := by
  let L : (Fin 2 → Grid Nx Ny ℂ) →L[ℝ] ℝ := ∑ i, ∑ j, (α • (Complex.reCLM.comp (entryCLM 2 0 i j)) + Complex.reCLM.comp (entryCLM 2 1 i j))
  have hL : ∀ y : Fin 2 → Grid Nx Ny ℂ, L y = ∑ i, ∑ j, (α * (y 0 i j).re + (y 1 i j).re) := by
    intro y
    simp only [L, _root_.sum_apply, _root_.add_apply, _root_.smul_apply, ContinuousLinearMap.comp_apply, entryCLM_apply, Complex.reCLM_apply, smul_eq_mul]
  refine ⟨L, fun δ => ?_, ?_⟩
  · refine (hL δ).trans (Eq.trans ?_ (Fin.sum_univ_two fun k : Fin 2 => ∑ i, ∑ j, ((mixJ α : ObjFn Nx Ny).partials k x i j * δ k i j).re).symm)
    simp only [Finset.sum_add_distrib]
    congr 1
    · refine Finset.sum_congr rfl fun i _ => Finset.sum_congr rfl fun j _ => ?_
      exact (Complex.re_ofReal_mul α _).symm
    · refine Finset.sum_congr rfl fun i _ => Finset.sum_congr rfl fun j _ => ?_
      show _ = ((1 : ℂ) * _).re
      rw [one_mul]
  · have : (mixJ α : ObjFn Nx Ny).eval = fun y => L y := by
      funext y; exact (hL y).symm
    rw [this]
    exact L.hasFDerivAt

/-- The objective on a copy of the simulation. -/
theorem KerrOpt.J_other {α : ℝ} {rho rho' : Grid Nx Ny ℝ} {o : Opt Nx Ny} (h : KerrOpt α rho o) {sn : Sim Nx Ny} (hs : KerrUnit (unitEps rho') sn) (env : Env) (hone : OnePass env (unitEps rho')) :
    (Opt.compute_J env o (some sn)).1 = .ok (mixVal env α (unitEps rho')) := by
  obtain ⟨s2, h1, h2, h3, h4, h5, -⟩ := hs.solveAll env hone
  have hc : Opt.collect s2 mixArgs = .ok [unitField env (unitEps rho'), passField env (unitEps rho')] := by
    simp [mixArgs, Opt.collect, h4, h5, Except.map]
  unfold Opt.compute_J Opt.solveArgFields
  rw [if_pos (Or.inl h.stale), h.obj]
  have hl : (Objective.mk' (mixJ α) mixArgs : Objective Nx Ny).isLinear = false := rfl
  rw [hl, show o.target (some sn) = sn from rfl, h1]
  simp only
  rw [show (Objective.mk' (mixJ α) mixArgs : Objective Nx Ny).arg_list = mixArgs from rfl, hc]
  rfl

/-- One step of gradient ascent from the uniform device. -/
theorem KerrOpt.stepGD {α : ℝ} {o : Opt Nx Ny} (h : KerrOpt α (fun _ _ => 1 / 2) o) (env : Env) (he : env.Exact) (hx : 1 < Nx) (hy : 1 < Ny) :
    ∃ F : ℝ, (F = 1 / 3 ∨ F = outE) ∧ ∀ st, ∃ o', Opt.stepGD env st o = (.ok (), o') ∧
      KerrOpt α (fun _ _ => Opt.clip01 (1 / 2 + st * (4 * drhob_drhot (1 / 2) (1 / 2) 1 * (-α / 9 + kerrTerm F)))) o' := by
  have hone := onePass_uniform (Nx := Nx) (Ny := Ny) env he hx hy
  rw [← unitEps_half] at hone
  obtain ⟨o1, e1, h1⟩ := h.J_self env hone
  set v := mixVal env α (unitEps fun _ _ => 1 / 2 : Grid Nx Ny ℝ)
  set o2 : Opt Nx Ny := { o1 with objfn_list := o1.objfn_list ++ [v], src_amplitudes := o1.src_amplitudes ++ [gridMax fun i j => ‖o1.simulation.src i j‖], fields_current := false } with ho2
  have e2 : Opt.set_source_amplitude env { o1 with objfn_list := o1.objfn_list ++ [v] } = (.ok (), o2) := by
    unfold Opt.set_source_amplitude
    have hn : o1.max_ind_shift = none := h1.shift
    simp only [hn]
    rw [ho2, ← hn]
  have h2 : KerrOpt α (fun _ _ => 1 / 2) o2 := ⟨h1.obj, h1.design, h1.filt, h1.eps_m, h1.eta, h1.beta, h1.shift, rfl, h1.density, h1.sim⟩
  obtain ⟨F, o3, hF, e3, h3, -⟩ := h2.dJ env he hx hy
  refine ⟨F, hF, fun st => ?_⟩
  set c := 4 * drhob_drhot (1 / 2) (1 / 2) 1 * (-α / 9 + kerrTerm F)
  have h4 := h3.putRho (fun _ _ => Opt.clip01 (1 / 2 + st * c))
  refine ⟨_, ?_, h4⟩
  unfold Opt.stepGD
  rw [e1]
  simp only [pySeq]
  rw [e2]
  simp only
  rw [e3]
  simp only
  unfold Opt.update_rho
  have hr : o3.simulation.rho = some (some fun _ _ => 1 / 2) := h3.density
  have hd : o3.design_region = fun _ _ => 1 := h3.design
  have hnew : (fun i j => Opt.clip01 (1 / 2 + o3.design_region i j * st * c) : Grid Nx Ny ℝ) = fun _ _ => Opt.clip01 (1 / 2 + st * c) := by
    funext i j
    rw [hd, one_mul]
  rw [hr]
  simp only
  rw [hnew]
  rfl

/-- **C67 fails for nonlinear fields, even weak ones.** On every grid with at least two cells each way: permittivity 3, no layers, no filter, every pixel a design pixel, a Kerr index so small that the
hybrid solver stops after one Born pass, and an objective that adds a multiple of the linear field to the nonlinear one.  Every sufficiently small step of `run('gd')` strictly *decreases* the objective
that the code itself evaluates, although the gradient it computes is not zero and every density can follow it.  The reason: the code differentiates the solution of the nonlinear equation, while what it
returns is one Born pass.  The two derivatives differ by a relative amount of order `(κ/27)²`, about `10⁻²⁴`: this refutes the exact statement, it would not be seen in floating point. -/
theorem C67_Kerr_false (env : Env) (he : env.Exact) (hx : 1 < Nx) (hy : 1 < Ny) :
    let o := kuopt Nx Ny
    Objective.init (mixJ mixA) mixArgs = .ok o.objective ∧ (∀ x, Spec.Autograd (mixJ mixA : ObjFn Nx Ny) x) ∧
    ∃ g : Grid Nx Ny ℝ, (Opt.compute_dJ env o).1 = .ok g ∧ (∀ i j, Spec.CanMove (fun _ _ => 1 / 2) g i j) ∧
      ∃ s0 : ℝ, 0 < s0 ∧ ∀ s, 0 < s → s < s0 → ∃ o' v v', Opt.run env "gd" 1 s 0.9 0.999 [] [] o = (.ok (), o') ∧
        (Opt.J_self env o).1 = .ok v ∧ (Opt.J_self env o').1 = .ok v' ∧ v' < v := by
  have hK := kuopt_spec (Nx := Nx) (Ny := Ny)
  obtain ⟨G, o1, hG, eg, -⟩ := hK.dJ env he hx hy
  refine ⟨rfl, mixJ_autograd _, _, congrArg Prod.fst eg, fun i j => Or.inr ⟨(kuopt_signs hG).1, by norm_num⟩, ?_⟩
  obtain ⟨F, hF, hstep⟩ := hK.stepGD env he hx hy
  obtain ⟨hc, ht⟩ := kuopt_signs hF
  set c := 4 * drhob_drhot (1 / 2) (1 / 2) 1 * (-mixA / 9 + kerrTerm F) with hcdef
  let r : ℝ → Grid Nx Ny ℝ := fun t _ _ => 1 / 2 + t * c
  have hr0 : r 0 = fun _ _ => 1 / 2 := by funext i j; simp [r]
  have hr : ∀ i j, HasDerivAt (fun t => r t i j) ((fun _ _ => c : Grid Nx Ny ℝ) i j) 0 := fun i j => (((hasDerivAt_id (0 : ℝ)).mul_const c).const_add (1 / 2)).congr_deriv (one_mul c)
  have hder := mixVal_deriv env he hx hy mixA hr0 hr
  have hD := drhob_drhot_pos (1 / 2)
  have hneg : 4 * drhob_drhot (1 / 2) (1 / 2) 1 * (∑ _i : Fin Nx, ∑ _j : Fin Ny, c) * (-mixA / 9 + trueTerm) < 0 := by
    refine mul_neg_of_neg_of_pos (mul_neg_of_pos_of_neg (by positivity) ?_) ht
    simp only [Finset.sum_const, Finset.card_univ, Fintype.card_fin, nsmul_eq_mul]
    have h1 : (0 : ℝ) < Nx := by exact_mod_cast (by omega : 0 < Nx)
    have h2 : (0 : ℝ) < Ny := by exact_mod_cast (by omega : 0 < Ny)
    exact mul_neg_of_pos_of_neg h1 (mul_neg_of_pos_of_neg h2 hc)
  have hdec : ∀ᶠ t in 𝓝[>] (0 : ℝ), (fun t => -mixVal env mixA (unitEps (r t))) 0 < (fun t => -mixVal env mixA (unitEps (r t))) t := eventually_lt_of_deriv hder.neg (by linarith)
  have hone := (onePass_eventually env he hx hy hr0 hr).filter_mono (nhdsWithin_le_nhds (s := Set.Ioi 0))
  obtain ⟨e0, he0, hsub⟩ := mem_nhdsGT_iff_exists_Ioo_subset.1 (hdec.and hone)
  have he0' : (0 : ℝ) < e0 := he0
  refine ⟨min e0 (1 / 2 / -c), lt_min he0' (div_pos (by norm_num) (by linarith)), fun s hs0 hs => ?_⟩
  obtain ⟨hs1, hs2⟩ := lt_min_iff.1 hs
  rw [lt_div_iff₀ (by linarith)] at hs2
  obtain ⟨o', ho', hK'⟩ := hstep s
  have hclip : Opt.clip01 (1 / 2 + s * c) = 1 / 2 + s * c := clip01_of_mem ⟨by linarith, by nlinarith⟩
  rw [hclip] at hK'
  obtain ⟨h1, h2⟩ := hsub ⟨hs0, hs1⟩
  obtain ⟨p1, e1, -⟩ := hK.J_self env (by have := onePass_uniform (Nx := Nx) (Ny := Ny) env he hx hy; rwa [← unitEps_half] at this)
  obtain ⟨p2, e2, -⟩ := hK'.J_self env h2
  refine ⟨o', _, _, ?_, congrArg Prod.fst e1, congrArg Prod.fst e2, ?_⟩
  · rw [run_gd (rho := fun _ _ => 1 / 2) rfl lower_gd]
    show Opt.run_GD env s 1 (kuopt Nx Ny) = _
    unfold Opt.run_GD
    rw [ho']
    rfl
  · have h3 : -mixVal env mixA (unitEps (r 0)) < -mixVal env mixA (unitEps (r s)) := h1
    rw [hr0] at h3
    exact neg_lt_neg_iff.1 h3

/-- **C69 fails for nonlinear fields.** For the same device and every pixel, `check_deriv` reports a negative analytical derivative, while its numerical derivative tends to a positive number as the
step goes to zero. -/
theorem C69_Kerr_false (env : Env) (he : env.Exact) (hx : 1 < Nx) (hy : 1 < Ny) (i : Fin Nx) (j : Fin Ny) :
    ∃ (p : ℕ) (a f' : ℝ) (q : ℝ → ℝ), (∀ᶠ d in 𝓝[≠] (0 : ℝ), (Opt.check_deriv env [p] d (kuopt Nx Ny)).1 = .ok [(a, q d)]) ∧ Tendsto q (𝓝[≠] 0) (𝓝 f') ∧ a < 0 ∧ 0 < f' := by
  have hK := (kuopt_spec (Nx := Nx) (Ny := Ny)).putRho fun _ _ => 1 / 2
  obtain ⟨F, o2, hF, e2, h2, hl2, hc2⟩ := hK.dJ env he hx hy
  obtain ⟨hc, ht⟩ := kuopt_signs hF
  let r : ℝ → Grid Nx Ny ℝ := fun t => Spec.bump (fun _ _ => 1 / 2) i j t
  have hr0 : r 0 = fun _ _ => 1 / 2 := bump_zero _ i j
  have hr := hasDerivAt_bump (fun _ _ => 1 / 2 : Grid Nx Ny ℝ) i j
  have hder := mixVal_deriv env he hx hy mixA hr0 hr
  have hone := onePass_eventually env he hx hy hr0 hr
  have hsum : ∑ p, ∑ q, (if p = i ∧ q = j then (1 : ℝ) else 0) = 1 := by
    rw [Finset.sum_eq_single i, Finset.sum_eq_single j]
    · simp
    · intro q _ hq; simp [hq]
    · intro hc; exact absurd (Finset.mem_univ _) hc
    · intro p _ hp; simp [hp]
    · intro hc; exact absurd (Finset.mem_univ _) hc
  rw [hsum, mul_one] at hder
  have hD := drhob_drhot_pos (1 / 2)
  obtain ⟨p, hp, hpe⟩ := List.getElem_of_mem (((desPts_enumerates (kuopt Nx Ny)).2 i j).2 rfl)
  refine ⟨p, _, 4 * drhob_drhot (1 / 2) (1 / 2) 1 * (-mixA / 9 + trueTerm), fun d => (mixVal env mixA (unitEps (r d)) - mixVal env mixA (unitEps fun _ _ => 1 / 2 : Grid Nx Ny ℝ)) / d, ?_, ?_, hc, mul_pos (by positivity) ht⟩
  · filter_upwards [hone.filter_mono nhdsWithin_le_nhds, self_mem_nhdsWithin] with d hd hd0
    have hJ : Opt.J_self env o2 = (.ok (mixVal env mixA (unitEps fun _ _ => 1 / 2 : Grid Nx Ny ℝ)), o2) := by
      unfold Opt.J_self Opt.compute_J Opt.solveArgFields
      rw [if_neg (by rw [hc2, hl2]; simp)]
      have hob : o2.objective = Objective.mk' (mixJ mixA) mixArgs := h2.obj
      rw [hob]
      simp only [hl2]
      rfl
    have hpt : (Opt.desPts o2)[p]? = some (i, j) := by
      have : Opt.desPts o2 = Opt.desPts (kuopt Nx Ny) := by
        unfold Opt.desPts
        rw [desIdx_congr (show o2.design_region = (kuopt Nx Ny).design_region from h2.design)]
      rw [this, List.getElem?_eq_getElem hp, hpe]
    have hk : (Opt.checkPt env (fun _ _ => 4 * drhob_drhot (1 / 2) (1 / 2) 1 * (-mixA / 9 + kerrTerm F)) (mixVal env mixA (unitEps fun _ _ => 1 / 2 : Grid Nx Ny ℝ)) d p o2).1 =
        .ok (4 * drhob_drhot (1 / 2) (1 / 2) 1 * (-mixA / 9 + kerrTerm F), (mixVal env mixA (unitEps (r d)) - mixVal env mixA (unitEps fun _ _ => 1 / 2 : Grid Nx Ny ℝ)) / d) := by
      have hrho : o2.simulation.rho = some (some fun _ _ => 1 / 2) := h2.density
      unfold Opt.checkPt
      rw [hpt, hrho]
      simp only
      have hval := h2.J_other (rho' := r d) (sn := ({ o2.simulation with rho := some (some (Opt.bumpRho (fun _ _ => 1 / 2) (i, j) d)) } : Sim Nx Ny).set_eps_r
        (fun i' j' => ((rho2eps (Opt.bumpRho (fun _ _ => 1 / 2) (i, j) d) o2.eps_m o2.W o2.eta o2.beta i' j' : ℝ) : ℂ))) (by
          have hv := h2.sim.valid
          have hb : ({ o2.simulation with rho := some (some (Opt.bumpRho (fun _ _ => 1 / 2) (i, j) d)) } : Sim Nx Ny).Valid := ⟨hv.L0_pos, hv.omega_pos, hv.xr, hv.yr, hv.A_eq, hv.derivs_eq⟩
          refine ⟨hb.set_eps_r _, h2.sim.L0, h2.sim.dl, h2.sim.omega, h2.sim.NPML, h2.sim.pol, h2.sim.src, h2.sim.nonlin, ?_⟩
          have hW : o2.W = 1 := h2.filt
          have hem : o2.eps_m = 5 := h2.eps_m
          have het : o2.eta = 1 / 2 := h2.eta
          have hbe : o2.beta = 1 := h2.beta
          rw [hW, hem, het, hbe, bumpRho_eq]
          rfl) env hd
      generalize Opt.compute_J env { o2 with fields_current := false } _ = R at hval ⊢
      obtain ⟨e | v, R2⟩ := R
      · exact absurd hval (by simp)
      · simp only at hval
        cases hval
        simp only
        rw [if_neg (show d ≠ 0 from hd0)]
    unfold Opt.check_deriv
    rw [show (kuopt Nx Ny).simulation.rho = some (some fun _ _ => 1 / 2) from rfl]
    simp only
    rw [e2]
    simp only [pySeq]
    rw [hJ]
    simp only
    unfold Opt.checkPts
    generalize Opt.checkPt env _ _ d p o2 = R at hk ⊢
    obtain ⟨e | v, R2⟩ := R
    · exact absurd hk (by simp)
    · simp only at hk
      cases hk
      rfl
  · have h2 := hder.tendsto_slope_zero
    simp only [zero_add, smul_eq_mul, hr0] at h2
    exact h2.congr fun t => (div_eq_inv_mul _ _).symm

end Angler
