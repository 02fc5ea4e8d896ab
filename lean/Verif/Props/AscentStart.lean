import Verif.Props.AscentPath
import Verif.Lemmas.Runnable
import Verif.Props.Solvable
import Verif.Props.Projection

/-! # C84: where a run may start -/

namespace Angler

open Matrix Filter Topology

variable {Nx Ny : ℕ}

/-- **C84, the gradient exists.** At every density between 0 and 1 the objective has the derivatives that appear in the iterations. -/
theorem C84_differentiable (env : Env) (he : env.Exact) (o : Opt Nx Ny) (J : ObjFn Nx Ny) (args : List ObjArg) (h : Spec.EzProblem o J args) (F : Grid Nx Ny ℝ → ℝ) (hF : Spec.IsObjective env o F)
    (x : Grid Nx Ny ℝ) (hx : Spec.Box x) (i : Fin Nx) (j : Fin Ny) (hd : o.design_region i j = 1) :
    HasDerivAt (fun t => F (Spec.bump x i j t)) (Spec.partials F x i j) 0 := by
  have hs := h.stateAt_putRho x
  obtain ⟨g, hg, -⟩ := gradient_path_Ez env he _ J args x (h.linear env hx hs) h.ezArgs h.len
  have h3 := (h.gradient env he hF hx hs hg).2 (Spec.bump x i j) (fun p q => if p = i ∧ q = j then 1 else 0) (bump_zero x i j) (hasDerivAt_bump x i j) (fun p q hne => by
    split_ifs at hne with hc
    · obtain ⟨rfl, rfl⟩ := hc
      exact hd
    · exact absurd rfl hne)
  exact h3.differentiableAt.hasDerivAt

/-! ## Problems on coarse grids -/

/-- On a coarse grid all devices of an optimisation are solvable. -/
theorem solvable_coarse (o : Opt Nx Ny) (hv : o.simulation.Valid) (hp : o.simulation.pol = .Ez) (hx : 1 < Nx) (hy : 1 < Ny) (hC : Spec.Coarse o.simulation 1) (hW : Spec.FilterKeeps01 o.W)
    (hb : 0 < o.beta) (hm : 1 ≤ o.eps_m) (x : Grid Nx Ny ℝ) (hbox : Spec.Box x) : (Spec.simAt o x).A.det ≠ 0 := by
  refine (C75_coarse (Spec.simAt o x) (hv.set_eps_r _) hp hx hy 1 (fun i j => ?_) hC).1
  show 1 ≤ ‖((rho2eps x o.eps_m o.W o.eta o.beta i j : ℝ) : ℂ)‖
  rw [Complex.norm_real, Real.norm_eq_abs]
  exact (rho2eps_physical hW hb hm (fun i j => ⟨(hbox i j).1, (hbox i j).2⟩) i j).1.trans (le_abs_self _)

theorem gsim_coarse (P : ℕ) (src : Grid Nx Ny ℂ) : Spec.Coarse (gsim Nx Ny P src) 1 := fsim_coarse P (fun _ _ => 1) src

/-- The witness optimisation without a filter. -/
theorem gopt_problem (hx : 1 < Nx) (hy : 1 < Ny) (P : ℕ) (src : Grid Nx Ny ℂ) (J : ObjFn Nx Ny) (hJ : ∀ x, Spec.Autograd J x) (h1 : 1 = J.arity) (design : Grid Nx Ny ℝ) (hm : Spec.Mask design) :
    Spec.EzProblem (gopt P src (Objective.mk' J [⟨.Ez, false, .linear_Ez⟩]) design 1) J [⟨.Ez, false, .linear_Ez⟩] where
  obj := by
    unfold Objective.init
    rw [if_neg (not_not.2 (show ([⟨.Ez, false, .linear_Ez⟩] : List ObjArg).length = J.arity from h1))]
    rfl
  args_ok := fun a ha => ⟨"Ez", by simp, by rw [List.mem_singleton] at ha; rw [ha]; rfl⟩
  valid := gsim_valid P src
  pol := rfl
  solvable := solvable_coarse _ (gsim_valid P src) rfl hx hy (gsim_coarse P src) filterKeeps_one one_pos (by show (1 : ℝ) ≤ 5; norm_num)
  beta := one_ne_zero
  shift := rfl
  mask := hm
  filter := fun i j hd => filterSym_one hm hd
  autograd := hJ

/-- An intensity objective on a 9 × 9 grid with a PML, the whole grid being designed: any number of steps of gradient ascent and of Adam. -/
example (env : Env) (he : env.Exact) (src : Grid 9 9 ℂ) (n : ℕ) (s : ℝ) :
    let o := gopt 1 src (Objective.mk' (intensityJ 9 9) [⟨.Ez, false, .linear_Ez⟩]) (fun _ _ => 1) 1
    ∃ F, Spec.IsObjective env o F ∧
      (∃ o', Opt.run env "gd" n s 0.9 0.999 [] [] o = (.ok (), o') ∧ o'.objfn_list = (List.range n).map fun k => F (Spec.gdPath F (fun _ _ => 1) s (fun _ _ => 0) k)) ∧
      ∃ r : ℕ → Grid 9 9 ℝ, Spec.AdamPath F (fun _ _ => 1) s 0.9 0.999 r ∧ ∃ o', Opt.run env "adam" n s 0.9 0.999 [] [] o = (.ok (), o') ∧ o'.objfn_list = (List.range n).map fun k => F (r k) := by
  intro o
  have hp : Spec.EzProblem o (intensityJ 9 9) [⟨.Ez, false, .linear_Ez⟩] := gopt_problem (by norm_num) (by norm_num) 1 src _ intensityJ_autograd rfl _ fun _ _ => Or.inr rfl
  have hF := hp.isObjective env
  have heps : o.simulation.eps_r = fun i j => ((rho2eps (fun _ _ => 0) o.eps_m o.W o.eta o.beta i j : ℝ) : ℂ) := by
    rw [rho2eps_zero]; funext i j; simp [o, gopt, gsim]
  have hbox : Spec.Box (fun _ _ => 0 : Grid 9 9 ℝ) := fun _ _ => ⟨le_rfl, zero_le_one⟩
  refine ⟨_, hF, ?_, ?_⟩
  · obtain ⟨o', h1, -, -, h2⟩ := C84_gd env he o _ _ hp _ hF _ hbox rfl heps n s 0.9 0.999 [] []
    exact ⟨o', h1, h2⟩
  · obtain ⟨r, -, h1, -, h2⟩ := C84_adam env he o _ _ hp _ hF _ hbox rfl heps s 0.9 0.999 (by norm_num) (by norm_num) [] []
    obtain ⟨o', h3, -, -, h4⟩ := h2 n
    exact ⟨r, h1, o', h3, h4⟩

/-! ## Starts -/

theorem rhot2rhob_half {b : ℝ} (hb : 0 < b) : rhot2rhob (1 / 2) (1 / 2) b = 1 / 2 := by
  unfold rhot2rhob
  have h := rhot2rhob_den_pos (1 / 2) b hb
  have e : (1 : ℝ) - 1 / 2 = 1 / 2 := by norm_num
  simp only [e, sub_self, mul_zero, Real.tanh_zero, add_zero] at h ⊢
  rw [div_eq_iff h.ne']
  ring

/-- **C84, starts that fit.** Without a filter and with the projection centred at 1/2, a design region initialised full, half full or empty on a background made of the two materials gives densities between
0 and 1 and the permittivity of the density. -/
theorem C84_start (s : Sim Nx Ny) (design : Grid Nx Ny ℝ) (eps_m : ℝ) (hm : 1 < eps_m) (style : Style) (hst : style = .full ∨ style = .halfway ∨ style = .empty) (draw : Grid Nx Ny ℝ)
    (hbg : ∀ i j, design i j ≠ 1 → s.eps_r i j = 1 ∨ s.eps_r i j = eps_m) (b : ℝ) (hb : 0 < b) :
    ∃ rho, (s.init_design_region design eps_m style draw).rho = some (some rho) ∧ Spec.Box rho ∧
      (s.init_design_region design eps_m style draw).eps_r = fun i j => ((rho2eps rho eps_m 1 (1 / 2) b i j : ℝ) : ℂ) := by
  have hne : eps_m - 1 ≠ 0 := by linarith
  have key : ∀ i j, (s.init_design_region design eps_m style draw).eps_r i j = 1 ∨ (s.init_design_region design eps_m style draw).eps_r i j = (eps_m : ℂ) ∨
      (s.init_design_region design eps_m style draw).eps_r i j = ((eps_m / 2 + 1 / 2 : ℝ) : ℂ) := by
    intro i j
    by_cases hd : design i j = 1
    · rcases hst with rfl | rfl | rfl
      · exact Or.inr (Or.inl (by simp only [Sim.init_design_region, designEps, Sim.set_eps_r, if_pos hd]))
      · exact Or.inr (Or.inr (by simp only [Sim.init_design_region, designEps, Sim.set_eps_r, if_pos hd]))
      · exact Or.inl (by simp only [Sim.init_design_region, designEps, Sim.set_eps_r, if_pos hd])
    · have e : (s.init_design_region design eps_m style draw).eps_r i j = s.eps_r i j := by
        rcases hst with rfl | rfl | rfl <;> simp only [Sim.init_design_region, designEps, Sim.set_eps_r, if_neg hd]
      rw [e]
      rcases hbg i j hd with h | h
      · exact Or.inl h
      · exact Or.inr (Or.inl h)
  have hrho : (s.init_design_region design eps_m style draw).rho = some (some fun i j => eps2rho ((s.init_design_region design eps_m style draw).eps_r i j).re eps_m) := rfl
  have h0 : rhot2rhob 0 (1 / 2) b = 0 := (C01_projection_physical (1 / 2) b hb).1
  have h1 : rhot2rhob 1 (1 / 2) b = 1 := (C01_projection_physical (1 / 2) b hb).2.1
  refine ⟨_, hrho, fun i j => ?_, ?_⟩
  · beta_reduce
    rcases key i j with h | h | h <;> rw [h] <;> unfold eps2rho
    · simp
    · rw [Complex.ofReal_re, div_self hne]
      norm_num
    · rw [Complex.ofReal_re, show eps_m / 2 + 1 / 2 - 1 = 1 / 2 * (eps_m - 1) by ring, mul_div_cancel_right₀ _ hne]
      norm_num
  · funext i j
    unfold rho2eps
    simp only [rho2rhot_one]
    rcases key i j with h | h | h <;> rw [h] <;> unfold eps2rho rhob2eps
    · simp only [Complex.one_re, sub_self, zero_div, h0, zero_mul, add_zero, Complex.ofReal_one]
    · rw [Complex.ofReal_re, div_self hne, h1]
      push_cast
      ring
    · rw [Complex.ofReal_re, show eps_m / 2 + 1 / 2 - 1 = 1 / 2 * (eps_m - 1) by ring, mul_div_cancel_right₀ _ hne, rhot2rhob_half hb]
      push_cast
      ring

/-- The projection with `β = 1` moves the density 1/4. -/
theorem rhot2rhob_quarter : rhot2rhob (1 / 4) (1 / 2) 1 ≠ 1 / 4 := by
  intro h
  have hp := rhot2rhob_den_pos (1 / 2) 1 one_pos
  unfold rhot2rhob at h
  simp only at h
  rw [div_eq_iff hp.ne'] at h
  have e1 : (1 : ℝ) * (1 / 4 - 1 / 2) = -(1 / 4) := by norm_num
  have e2 : (1 : ℝ) * (1 - 1 / 2) = 1 / 4 + 1 / 4 := by norm_num
  have e3 : (1 : ℝ) * (1 / 2) = 1 / 4 + 1 / 4 := by norm_num
  rw [e1, e2, e3, Real.tanh_neg] at h
  have ht : 0 < Real.tanh (1 / 4) := by
    have := tanh_strictMono (show (0 : ℝ) < 1 / 4 by norm_num)
    rwa [Real.tanh_zero] at this
  have hadd : Real.tanh (1 / 4 + 1 / 4) * (1 + Real.tanh (1 / 4) ^ 2) = 2 * Real.tanh (1 / 4) := by
    rw [Real.tanh_eq_sinh_div_cosh, Real.tanh_eq_sinh_div_cosh, Real.sinh_add, Real.cosh_add]
    have hc := (Real.cosh_pos (1 / 4)).ne'
    have hc2 : Real.cosh (1 / 4) * Real.cosh (1 / 4) + Real.sinh (1 / 4) * Real.sinh (1 / 4) ≠ 0 := by
      have := Real.cosh_pos (1 / 4); nlinarith [mul_self_nonneg (Real.sinh (1 / 4))]
    field_simp
    ring
  nlinarith [pow_pos ht 3]

/-- A step of gradient ascent records what the objective is at the start of the step. -/
theorem stepGD_log (env : Env) {o o' : Opt Nx Ny} {s : ℝ} (h : Opt.stepGD env s o = (.ok (), o')) : ∃ v, (Opt.J_self env o).1 = .ok v ∧ o'.objfn_list = o.objfn_list ++ [v] := by
  unfold Opt.stepGD at h
  obtain ⟨v, o1, h1, h⟩ := pySeq_ok h
  obtain ⟨_, o2, h2, h⟩ := pySeq_ok h
  obtain ⟨g, o3, h3, h⟩ := pySeq_ok h
  have k1 := (OptKeep.J_self env o).objfn_list
  have k3 := (OptKeep.dJ_self env o2).objfn_list
  have k2 := congrArg Opt.objfn_list (set_source_amplitude_keep env { o1 with objfn_list := o1.objfn_list ++ [v] }).1
  rw [h1] at k1 ⊢
  rw [h3] at k3
  rw [h2] at k2
  refine ⟨v, rfl, ?_⟩
  simp only at k1 k2 k3
  rw [← k1, ← k2, ← k3]
  unfold Opt.update_rho at h
  split at h
  · cases h
  · cases h
  · cases h
    rfl

/-- The witness optimisation with a design region (the whole grid) initialised at random. -/
noncomputable def sopt (P : ℕ) (src : Grid Nx Ny ℂ) (draw : Grid Nx Ny ℝ) (ob : Objective Nx Ny) : Opt Nx Ny :=
  { gopt P src ob (fun _ _ => 1) 1 with simulation := (gsim Nx Ny P src).init_design_region (fun _ _ => 1) 5 .random draw }

theorem sopt_valid (P : ℕ) (src : Grid Nx Ny ℂ) (draw : Grid Nx Ny ℝ) (ob : Objective Nx Ny) : (sopt P src draw ob).simulation.Valid := by
  have h := (gsim_valid (Nx := Nx) (Ny := Ny) P src).set_eps_r fun i j => if (1 : ℝ) = 0 then ((((1 : ℂ)).re : ℝ) : ℂ) else (((5 - 1) * draw i j + 1 : ℝ) : ℂ)
  exact ⟨h.L0_pos, h.omega_pos, h.xr, h.yr, h.A_eq, h.derivs_eq⟩

theorem sopt_problem (hx : 1 < Nx) (hy : 1 < Ny) (P : ℕ) (src : Grid Nx Ny ℂ) (draw : Grid Nx Ny ℝ) (p : Grid Nx Ny ℂ) :
    Spec.EzProblem (sopt P src draw (Objective.mk' (linearJ p) [⟨.Ez, false, .linear_Ez⟩])) (linearJ p) [⟨.Ez, false, .linear_Ez⟩] where
  obj := rfl
  args_ok := fun a ha => ⟨"Ez", by simp, by rw [List.mem_singleton] at ha; rw [ha]; rfl⟩
  valid := sopt_valid P src draw _
  pol := rfl
  solvable := solvable_coarse _ (sopt_valid P src draw _) rfl hx hy (gsim_coarse P src) filterKeeps_one one_pos (by show (1 : ℝ) ≤ 5; norm_num)
  beta := one_ne_zero
  shift := rfl
  mask := fun _ _ => Or.inr rfl
  filter := fun i j hd => filterSym_one (fun _ _ => Or.inr rfl) hd
  autograd := linearJ_autograd p

/-- **C84, starts that do not fit.** A design region initialised at random, with a projection but no filter: the densities lie between 0 and 1, the problem is one of those above and the run succeeds,
yet the first value it records is not the objective of the starting density. -/
theorem C84_false_start (env : Env) (he : env.Exact) (hx : 1 < Nx) (hy : 1 < Ny) (P : ℕ) :
    ∃ (p src : Grid Nx Ny ℂ) (draw : Grid Nx Ny ℝ), (∀ i j, 0 ≤ draw i j ∧ draw i j < 1) ∧
      let o := sopt P src draw (Objective.mk' (linearJ p) [⟨.Ez, false, .linear_Ez⟩])
      Spec.EzProblem o (linearJ p) [⟨.Ez, false, .linear_Ez⟩] ∧ ∃ F rho, Spec.IsObjective env o F ∧ o.simulation.rho = some (some rho) ∧ Spec.Box rho ∧
        ∀ s b1 b2 calls y, ∃ o' v, Opt.run env "gd" 1 s b1 b2 calls y o = (.ok (), o') ∧ o'.objfn_list = [v] ∧ v ≠ F rho := by
  obtain ⟨-, hone, hmono, hmem, -⟩ := C01_projection_physical (1 / 2) 1 one_pos
  set q : ℝ := rhot2rhob (1 / 4) (1 / 2) 1 with hq
  have hq0 : 0 ≤ q := (hmem (1 / 4) ⟨by norm_num, by norm_num⟩).1
  have hq1 : q < 1 := by
    rw [← hone]
    exact hmono (show (1 / 4 : ℝ) < 1 by norm_num)
  have hqq : rhot2rhob q (1 / 2) 1 ≠ q := fun h => rhot2rhob_quarter (hmono.injective (h.trans hq))
  -- the matrices of the two devices do not depend on the source and the objective
  let ob : Grid Nx Ny ℂ → Objective Nx Ny := fun p => Objective.mk' (linearJ p) [⟨.Ez, false, .linear_Ez⟩]
  let A : ℝ → Mat (Nx * Ny) ℂ := fun r => (construct_A 1 (0, Nx * (3 / ETA_0)) (0, Ny * (3 / ETA_0)) (fun _ _ : _ => ((1 + rhot2rhob r (1 / 2) 1 * (5 - 1) : ℝ) : ℂ) : Grid Nx Ny ℂ) (P, P) .Ez (1 / EPSILON_0)).1
  have hA : ∀ p src r, (Spec.simAt (sopt P src (fun _ _ => q) (ob p)) fun _ _ => r).A = A r := by
    intro p src r
    show (construct_A 1 _ _ (fun i j => ((rho2eps (fun _ _ => r) 5 1 (1 / 2) 1 i j : ℝ) : ℂ)) _ _ _).1 = _
    unfold rho2eps
    simp only [rho2rhot_one]
    rfl
  have hdet : ∀ r, 0 ≤ r → r ≤ 1 → (A r).det ≠ 0 := fun r h0 h1 => by
    rw [← hA 0 0 r]
    exact (sopt_problem hx hy P 0 (fun _ _ => q) 0).solvable _ fun _ _ => ⟨h0, h1⟩
  have hone' : ∀ r, A r *ᵥ flatten (fun _ _ => 1 : Grid Nx Ny ℂ) = (construct_A 1 (0, Nx * (3 / ETA_0)) (0, Ny * (3 / ETA_0)) (fun _ _ => 0 : Grid Nx Ny ℂ) (P, P) .Ez (1 / EPSILON_0)).1 *ᵥ
      flatten (fun _ _ => 1 : Grid Nx Ny ℂ) + fun _ => ((1 + rhot2rhob r (1 / 2) 1 * (5 - 1) : ℝ) : ℂ) := by
    intro r
    show (construct_A 1 _ _ _ _ _ _).1 *ᵥ _ = _
    rw [construct_A_Ez_split, Matrix.add_mulVec]
    congr 1
    funext k
    rw [spdiag_mulVec]
    rw [show EPSILON_0 * (1 / EPSILON_0) = 1 from eps0_norm]
    simp [flatten]
  let src : Grid Nx Ny ℂ := unflatten fun k => (A (1 / 4) *ᵥ flatten (fun _ _ => 1 : Grid Nx Ny ℂ)) k / Complex.I
  have hrhs : ∀ p r, (Spec.simAt (sopt P src (fun _ _ => q) (ob p)) fun _ _ => r).rhs = A (1 / 4) *ᵥ flatten (fun _ _ => 1 : Grid Nx Ny ℂ) := by
    intro p r
    funext k
    show flatten src k * Complex.I * ((1 : ℝ) : ℂ) = _
    rw [show flatten src = _ from flatten_unflatten _, div_mul_cancel₀ _ Complex.I_ne_zero]
    simp
  obtain ⟨X, hX⟩ : ∃ X, X = solver_direct env (A q) (A (1 / 4) *ᵥ flatten (fun _ _ => 1 : Grid Nx Ny ℂ)) := ⟨_, rfl⟩
  have hX1 : A q *ᵥ X = A (1 / 4) *ᵥ flatten (fun _ _ => 1 : Grid Nx Ny ℂ) := by
    rw [hX, solver_direct_spec he (Or.inl (hdet q hq0 hq1.le))]
  have hne : X ≠ flatten (fun _ _ => 1 : Grid Nx Ny ℂ) := by
    intro h
    rw [h, hone', hone'] at hX1
    have h2 := congrFun (add_left_cancel hX1) (finProdFinEquiv ((⟨0, by omega⟩ : Fin Nx), (⟨0, by omega⟩ : Fin Ny)))
    have h3 := Complex.ofReal_injective h2
    rw [← hq] at h3
    exact hqq (by linarith)
  let p : Grid Nx Ny ℂ := fun i j => (starRingEnd ℂ) (1 - unflatten X i j)
  refine ⟨p, src, fun _ _ => q, fun _ _ => ⟨hq0, hq1⟩, ?_⟩
  intro o
  have hp : Spec.EzProblem o (linearJ p) [⟨.Ez, false, .linear_Ez⟩] := sopt_problem hx hy P src _ p
  have hF := hp.isObjective env
  have hval : ∀ r, linObj env o (linearJ p) [⟨.Ez, false, .linear_Ez⟩] hp.len (fun _ _ => r) =
      ∑ i, ∑ j, (p i j * (unflatten (solver_direct env (A r) (A (1 / 4) *ᵥ flatten (fun _ _ => 1 : Grid Nx Ny ℂ))) : Grid Nx Ny ℂ) i j).re := by
    intro r
    unfold linObj
    rw [hA p src r, hrhs p r]
    rfl
  have hrho : o.simulation.rho = some (some fun _ _ => q) := by
    show some (some fun i j => eps2rho (if (1 : ℝ) = 0 then _ else (((5 - 1) * q + 1 : ℝ) : ℂ)).re 5) = _
    congr 2
    funext i j
    rw [if_neg one_ne_zero, Complex.ofReal_re]
    unfold eps2rho
    norm_num
  have heps : o.simulation.eps_r = fun i j => ((rho2eps (fun _ _ => 1 / 4) o.eps_m o.W o.eta o.beta i j : ℝ) : ℂ) := by
    funext i j
    show (if (1 : ℝ) = 0 then _ else (((5 - 1) * q + 1 : ℝ) : ℂ)) = ((rho2eps (fun _ _ => 1 / 4) 5 1 (1 / 2) 1 i j : ℝ) : ℂ)
    rw [if_neg one_ne_zero]
    unfold rho2eps
    simp only [rho2rhot_one]
    unfold rhob2eps
    rw [← hq]
    congr 1
    ring
  refine ⟨hp, _, _, hF, hrho, fun _ _ => ⟨hq0, hq1.le⟩, fun s b1 b2 calls y => ?_⟩
  have hrun : Runnable o (linearJ p) [⟨.Ez, false, .linear_Ez⟩] := by
    refine ⟨rfl, fun a ha => ⟨"Ez", ?_⟩, fun a ha => ?_, rfl, rfl, fun c _ => rfl⟩
    · rw [List.mem_singleton] at ha; rw [ha]; rfl
    · rw [List.mem_singleton] at ha; rw [ha]; exact trivial
  obtain ⟨o', g, hs, -⟩ := hrun.stepGD env hrho s
  obtain ⟨v, hv, hlog⟩ := stepGD_log env hs
  have hv' := J_self_linObj env (o := o) (objective_init_ok hp.obj).2 hp.valid hp.pol rfl heps hp.ezArgs hp.len
  rw [hv] at hv'
  refine ⟨o', v, ?_, hlog, ?_⟩
  · rw [run_gd hrho lower_gd]
    show pySeq (Opt.stepGD env s o) _ = _
    rw [hs]
    rfl
  · rw [Except.ok.inj hv', hval, hval, ← hX, solver_direct_unique he (hdet (1 / 4) (by norm_num) (by norm_num)) rfl, unflatten_flatten]
    intro h
    have h0 : ∑ i, ∑ j, Complex.normSq (1 - (unflatten X : Grid Nx Ny ℂ) i j) = 0 := by
      rw [← sub_eq_zero.2 h, ← Finset.sum_sub_distrib]
      refine Finset.sum_congr rfl fun i _ => ?_
      rw [← Finset.sum_sub_distrib]
      refine Finset.sum_congr rfl fun j _ => ?_
      rw [← Complex.sub_re, ← mul_sub]
      show _ = ((starRingEnd ℂ) (1 - (unflatten X : Grid Nx Ny ℂ) i j) * (1 - (unflatten X : Grid Nx Ny ℂ) i j)).re
      rw [← Complex.normSq_eq_conj_mul_self, Complex.ofReal_re]
    apply hne
    rw [← flatten_unflatten (Nx := Nx) (Ny := Ny) X]
    congr 1
    funext i j
    have h1 := (Finset.sum_eq_zero_iff_of_nonneg fun i _ => Finset.sum_nonneg fun j _ => Complex.normSq_nonneg _).1 h0 i (Finset.mem_univ i)
    have h2 := (Finset.sum_eq_zero_iff_of_nonneg fun j _ => Complex.normSq_nonneg _).1 h1 j (Finset.mem_univ j)
    exact (sub_eq_zero.1 (Complex.normSq_eq_zero.1 h2)).symm

end Angler
