import Verif.Props.GradientEz
import Verif.Props.Metal
import Verif.Props.Several

/-! # C101 — inexact linear solvers: fields, objectives and gradients depend continuously on the accuracy of the linear solves -/

namespace Angler

open Matrix Filter Topology

variable {Nx Ny : ℕ}

/-- A linear solver whose relative residual is at most `τ` on every nonsingular system. -/
def Env.Within (env : Env) (τ : ℝ) : Prop := ∀ {n : ℕ} (A : Mat n ℂ) (b : Vec n ℂ), A.det ≠ 0 → ‖A *ᵥ env.solveC A b - b‖ ≤ τ * ‖b‖

theorem within_direct {env : Env} {τ : ℝ} (h : env.Within τ) {n : ℕ} (A : Mat n ℂ) (b : Vec n ℂ) (hA : A.det ≠ 0) : ‖A *ᵥ solver_direct env A b - b‖ ≤ τ * ‖b‖ := by
  unfold solver_direct
  by_cases hb : b = 0
  · rw [if_pos hb, hb]
    simp
  · rw [if_neg hb]
    exact h A b hA

/-- An explicit bound: the residual divided by the margin of the matrix. -/
theorem within_error {env env0 : Env} {τ : ℝ} (h : env.Within τ) (he : env0.Exact) {n : ℕ} (A : Mat n ℂ) (b : Vec n ℂ) (hA : A.det ≠ 0) (σ : ℝ) (hσ : 0 < σ) (hm : ∀ v, σ * ‖v‖ ≤ ‖A *ᵥ v‖) :
    ‖solver_direct env A b - solver_direct env0 A b‖ ≤ τ * ‖b‖ / σ := by
  rw [le_div_iff₀ hσ, mul_comm]
  refine (hm _).trans ?_
  rw [Matrix.mulVec_sub, solver_direct_spec he (Or.inl hA)]
  exact within_direct h A b hA

theorem norm_unflatten (v : Vec (Nx * Ny) ℂ) (c : ℝ) (h : ‖v‖ ≤ c) (i : Fin Nx) (j : Fin Ny) : ‖unflatten v i j‖ ≤ c :=
  (norm_le_pi_norm v _).trans h

theorem norm_rhs (s : Sim Nx Ny) (ho : 0 < s.omega) (S : ℝ) (hS0 : 0 ≤ S) (hS : ∀ i j, ‖s.src i j‖ ≤ S) : ‖s.rhs‖ ≤ s.omega * S := by
  refine (pi_norm_le_iff_of_nonneg (by positivity)).2 fun k => ?_
  unfold Sim.rhs
  rw [norm_mul, norm_mul, Complex.norm_I, mul_one, Complex.norm_real, Real.norm_of_nonneg ho.le, mul_comm]
  exact mul_le_mul_of_nonneg_left (hS _ _) ho.le

/-- **C101, error of the field.** If every vector is enlarged by the system matrix by at least `σ` and the linear solver leaves relative residuals of at most `τ`, the computed field is within
`τ ω max|src| / σ` of the exact one at every pixel. -/
theorem C101_error (s : Sim Nx Ny) (hv : s.Valid) (hdet : s.A.det ≠ 0) (σ : ℝ) (hσ : 0 < σ) (hm : ∀ v, σ * ‖v‖ ≤ ‖s.A *ᵥ v‖) (S : ℝ) (hS0 : 0 ≤ S) (hS : ∀ i j, ‖s.src i j‖ ≤ S)
    (env env0 : Env) (τ : ℝ) (hτ : 0 ≤ τ) (h : env.Within τ) (he : env0.Exact) (avg : Bool) :
    ∃ P Q F P0 Q0 F0, (s.solve_fields env false avg).1 = .ok (P, Q, F) ∧ (s.solve_fields env0 false avg).1 = .ok (P0, Q0, F0) ∧ ∀ i j, ‖F i j - F0 i j‖ ≤ τ * (s.omega * S) / σ := by
  obtain ⟨P, Q, r1⟩ := solve_fields_third env s avg
  obtain ⟨P0, Q0, r2⟩ := solve_fields_third env0 s avg
  refine ⟨P, Q, _, P0, Q0, _, r1, r2, fun i j => ?_⟩
  have h1 := within_error h he s.A s.rhs hdet σ hσ hm
  refine norm_unflatten (solver_direct env s.A s.rhs - solver_direct env0 s.A s.rhs) _ (h1.trans ?_) i j
  exact div_le_div_of_nonneg_right (mul_le_mul_of_nonneg_left (norm_rhs s hv.omega_pos S hS0 hS) hτ) hσ.le

/-! ## Limits -/

theorem mulVec_continuous {n : ℕ} (A : Mat n ℂ) : Continuous fun v : Vec n ℂ => A *ᵥ v := by
  refine continuous_pi fun i => ?_
  simp only [mulVec_eq_sum']
  exact continuous_finsetSum _ fun j _ => continuous_const.mul (continuous_apply j)

/-- Solutions of better and better solvers converge. -/
theorem solver_tendsto {env : ℕ → Env} (h : ∀ k : ℕ, (env k).Within (1 / ((k : ℝ) + 1))) {n : ℕ} (A : Mat n ℂ) (hA : A.det ≠ 0) {b : ℕ → Vec n ℂ} {b0 : Vec n ℂ} (hb : Tendsto b atTop (𝓝 b0))
    {env0 : Env} (he : env0.Exact) : Tendsto (fun k => solver_direct (env k) A (b k)) atTop (𝓝 (solver_direct env0 A b0)) := by
  have h1 : Tendsto (fun k => A *ᵥ solver_direct (env k) A (b k)) atTop (𝓝 b0) := by
    have hz : Tendsto (fun k => A *ᵥ solver_direct (env k) A (b k) - b k) atTop (𝓝 0) := by
      refine squeeze_zero_norm (fun k => within_direct (h k) A (b k) hA) ?_
      have := (tendsto_one_div_add_atTop_nhds_zero_nat (𝕜 := ℝ)).mul hb.norm
      rwa [zero_mul] at this
    have := hz.add hb
    simpa using this
  have hu : IsUnit A.det := isUnit_iff_ne_zero.2 hA
  have h2 := ((mulVec_continuous A⁻¹).tendsto b0).comp h1
  have h3 : solver_direct env0 A b0 = A⁻¹ *ᵥ b0 := solver_direct_unique he hA (by rw [Matrix.mulVec_mulVec, Matrix.mul_nonsing_inv _ hu, Matrix.one_mulVec])
  rw [h3]
  refine h2.congr fun k => ?_
  simp only [Function.comp]
  rw [Matrix.mulVec_mulVec, Matrix.nonsing_inv_mul _ hu, Matrix.one_mulVec]

/-- From sequences of solvers to a uniform accuracy. -/
theorem uniform_of_sequences (P : Env → Prop) (h : ∀ env : ℕ → Env, (∀ k : ℕ, (env k).Within (1 / ((k : ℝ) + 1))) → ∃ k, P (env k)) : ∃ τ, 0 < τ ∧ ∀ env : Env, env.Within τ → P env := by
  by_contra hc
  push Not at hc
  have : ∀ k : ℕ, ∃ env : Env, env.Within (1 / ((k : ℝ) + 1)) ∧ ¬ P env := fun k => hc _ (by positivity)
  choose env h1 h2 using this
  obtain ⟨k, hk⟩ := h env h1
  exact h2 k hk

theorem unflatten_continuous : Continuous (unflatten : Vec (Nx * Ny) ℂ → Grid Nx Ny ℂ) :=
  continuous_pi fun _ => continuous_pi fun _ => continuous_apply _

theorem flatten_continuous : Continuous (flatten : Grid Nx Ny ℂ → Vec (Nx * Ny) ℂ) :=
  continuous_pi fun k => (continuous_apply k.modNat).comp (continuous_apply k.divNat)

theorem in_plane_continuous (s : Sim Nx Ny) (avg : Bool) (eps : Grid Nx Ny ℂ) : Continuous (s.in_plane avg eps) := by
  have lin : ∀ (c : ℂ) (D : Mat (Nx * Ny) ℂ), Continuous fun X : Vec (Nx * Ny) ℂ => (unflatten (c • (D *ᵥ X)) : Grid Nx Ny ℂ) :=
    fun c D => unflatten_continuous.comp ((mulVec_continuous D).const_smul c)
  unfold Sim.in_plane
  cases s.pol
  · exact (lin _ _).prodMk ((lin _ _).prodMk unflatten_continuous)
  · exact (lin _ _).prodMk ((lin _ _).prodMk unflatten_continuous)

/-- **C101, fields.** For every nonsingular device and every `δ > 0` there is an accuracy of the linear solves that makes all three stored fields within `δ` of the exact ones, whatever the solver. -/
theorem C101_fields (s : Sim Nx Ny) (hdet : s.A.det ≠ 0) (env0 : Env) (he : env0.Exact) (avg : Bool) :
    ∃ P0 Q0 F0, (s.solve_fields env0 false avg).1 = .ok (P0, Q0, F0) ∧ ∀ δ, 0 < δ → ∃ τ, 0 < τ ∧ ∀ env : Env, env.Within τ →
      ∃ P Q F, (s.solve_fields env false avg).1 = .ok (P, Q, F) ∧ ∀ i j, ‖P i j - P0 i j‖ < δ ∧ ‖Q i j - Q0 i j‖ < δ ∧ ‖F i j - F0 i j‖ < δ := by
  have hsol : ∀ env : Env, (s.solve_fields env false avg).1 = .ok (s.in_plane avg s.eps_r (solver_direct env s.A s.rhs)) := fun _ => rfl
  set t0 := s.in_plane avg s.eps_r (solver_direct env0 s.A s.rhs) with ht0
  refine ⟨t0.1, t0.2.1, t0.2.2, hsol env0, fun δ hδ => ?_⟩
  refine uniform_of_sequences _ fun env h => ?_
  have h1 := ((in_plane_continuous s avg s.eps_r).tendsto _).comp (solver_tendsto h s.A hdet (tendsto_const_nhds (x := s.rhs)) he)
  rw [← ht0] at h1
  obtain ⟨k, hk⟩ := (Metric.tendsto_atTop.1 h1) δ hδ
  have h2 := hk k le_rfl
  simp only [Function.comp] at h2
  set t := s.in_plane avg s.eps_r (solver_direct (env k) s.A s.rhs) with ht
  refine ⟨k, t.1, t.2.1, t.2.2, hsol (env k), fun i j => ?_⟩
  rw [dist_eq_norm] at h2
  have a1 : ∀ (g : Grid Nx Ny ℂ), ‖g i j‖ ≤ ‖g‖ := fun g => (norm_le_pi_norm (g i) j).trans (norm_le_pi_norm g i)
  have b1 := norm_fst_le (t - t0)
  have b2 := norm_snd_le (t - t0)
  have b3 := norm_fst_le (t - t0).2
  have b4 := norm_snd_le (t - t0).2
  exact ⟨((a1 _).trans b1).trans_lt h2, ((a1 _).trans (b3.trans b2)).trans_lt h2, ((a1 _).trans (b4.trans b2)).trans_lt h2⟩

theorem linField_continuous (s : Sim Nx Ny) (c : Comp) : Continuous fun X => linField s X c := by
  have lin : ∀ (c : ℂ) (D : Mat (Nx * Ny) ℂ), Continuous fun X : Vec (Nx * Ny) ℂ => (unflatten (c • (D *ᵥ X)) : Grid Nx Ny ℂ) :=
    fun c D => unflatten_continuous.comp ((mulVec_continuous D).const_smul c)
  cases c
  all_goals first
    | exact lin _ _
    | exact unflatten_continuous

theorem linPart_continuous (s : Sim Nx Ny) (c : Comp) : Continuous fun p => linPart s p c := by
  have lin : ∀ (c : ℂ) (D : Mat (Nx * Ny) ℂ), Continuous fun p : Grid Nx Ny ℂ => c • (D *ᵥ flatten p) :=
    fun c D => ((mulVec_continuous D).comp flatten_continuous).const_smul c
  cases c
  all_goals first
    | exact lin _ _
    | exact flatten_continuous

theorem tail_Ez_continuous (o : Opt Nx Ny) (rho : Grid Nx Ny ℝ) (i : Fin Nx) (j : Fin Ny) : Continuous fun q : Grid Nx Ny ℂ × Grid Nx Ny ℂ => Opt.tail_Ez o rho q.1 q.2 i j := by
  unfold Opt.tail_Ez Opt.filtDot unflatten
  refine Complex.continuous_re.comp (continuous_finsetSum _ fun k _ => ?_)
  have h1 : Continuous fun q : Grid Nx Ny ℂ × Grid Nx Ny ℂ => flatten q.1 k := (continuous_apply k).comp (flatten_continuous.comp continuous_fst)
  have h2 : Continuous fun q : Grid Nx Ny ℂ × Grid Nx Ny ℂ => flatten q.2 k := (continuous_apply k).comp (flatten_continuous.comp continuous_snd)
  exact (continuous_const.mul (continuous_const.mul ((h1.mul continuous_const).mul continuous_const))).mul h2

theorem tail_Ez_tendsto (o : Opt Nx Ny) (rho : Grid Nx Ny ℝ) (i : Fin Nx) (j : Fin Ny) {X Y : ℕ → Vec (Nx * Ny) ℂ} {X0 Y0 : Vec (Nx * Ny) ℂ} (hX : Tendsto X atTop (𝓝 X0)) (hY : Tendsto Y atTop (𝓝 Y0)) :
    Tendsto (fun n => Opt.tail_Ez o rho (unflatten (X n)) (unflatten (Y n)) i j) atTop (𝓝 (Opt.tail_Ez o rho (unflatten X0) (unflatten Y0) i j)) := by
  have hq : Tendsto (fun n => ((unflatten (X n), unflatten (Y n)) : Grid Nx Ny ℂ × Grid Nx Ny ℂ)) atTop (𝓝 (unflatten X0, unflatten Y0)) :=
    ((unflatten_continuous.tendsto X0).comp hX).prodMk_nhds ((unflatten_continuous.tendsto Y0).comp hY)
  have key : ∀ f : Grid Nx Ny ℂ × Grid Nx Ny ℂ → ℝ, Continuous f → Tendsto (fun n => f (unflatten (X n), unflatten (Y n))) atTop (𝓝 (f (unflatten X0, unflatten Y0))) :=
    fun f hf => (hf.tendsto _).comp hq
  exact key (fun q => Opt.tail_Ez o rho q.1 q.2 i j) (tail_Ez_continuous o rho i j)

/-- **C101, objectives and gradients.** For Ez optimisations whose objective has continuous derivatives: for every `δ > 0` there is an accuracy of the linear solves that makes the
computed objective and every entry of the computed gradient within `δ` of the exact ones, whatever the solver. -/
theorem C101_gradient (env0 : Env) (he : env0.Exact) (o : Opt Nx Ny) (J : ObjFn Nx Ny) (args : List ObjArg) (rho : Grid Nx Ny ℝ) (hS : Spec.LinearEz env0 o J args rho)
    (hargs : ∀ a ∈ args, ∃ c, c ∈ ["Ez", "Hx", "Hy"] ∧ ObjArg.init c false = .ok a) (hJ : ∀ x, Spec.Autograd J x) (hc : ∀ k, Continuous (J.partials k)) :
    ∃ f0 g0, (Opt.compute_J env0 o (some (Spec.simAt o rho))).1 = .ok f0 ∧ (Opt.compute_dJ env0 o).1 = .ok g0 ∧ ∀ δ, 0 < δ → ∃ τ, 0 < τ ∧ ∀ env : Env, env.Within τ →
      ∃ f g, (Opt.compute_J env o (some (Spec.simAt o rho))).1 = .ok f ∧ (Opt.compute_dJ env o).1 = .ok g ∧ |f - f0| < δ ∧ ∀ i j, |g i j - g0 i j| < δ := by
  have hargs' := args_of_init hargs
  have hlen : args.length = J.arity := (objective_init_ok hS.obj).1
  have hSe : ∀ env : Env, Spec.LinearEz env o J args rho := fun env => ⟨hS.obj, hS.valid, hS.pol, hS.det, hS.stale, hS.density, hS.eps, hS.beta, fun x _ => hJ x⟩
  have hgr := fun env => (dJ_Ez_formula env o J args rho (hSe env) hargs' hlen).2
  have hob := fun env => compute_J_linObj env o J args (objective_init_ok hS.obj).2 hS.stale hS.pol (fun a ha => ⟨(hargs' a ha).1, (hargs' a ha).2.1⟩) hlen rho
  have hdt : o.simulation.Aᵀ.det ≠ 0 := by rw [Matrix.det_transpose]; exact hS.det
  refine ⟨_, _, hob env0, hgr env0, fun δ hδ => uniform_of_sequences _ fun env h => ?_⟩
  have hX := solver_tendsto h o.simulation.A hS.det (tendsto_const_nhds (x := o.simulation.rhs)) he
  set X : ℕ → Vec (Nx * Ny) ℂ := fun k => solver_direct (env k) o.simulation.A o.simulation.rhs with hXd
  set X0 := solver_direct env0 o.simulation.A o.simulation.rhs with hX0
  have hx : Tendsto (fun n => fun k : Fin J.arity => linField o.simulation (X n) (args.get (k.cast hlen.symm)).component) atTop
      (𝓝 fun k : Fin J.arity => linField o.simulation X0 (args.get (k.cast hlen.symm)).component) :=
    tendsto_pi_nhds.2 fun k => ((linField_continuous o.simulation _).tendsto X0).comp hX
  have hA0 : (Spec.simAt o rho).A = o.simulation.A := by rw [hS.valid.A_eq, hS.eps]; rfl
  have hr0 : (Spec.simAt o rho).rhs = o.simulation.rhs := rfl
  have hf : Tendsto (fun n => linObj (env n) o J args hlen rho) atTop (𝓝 (linObj env0 o J args hlen rho)) := by
    unfold linObj
    simp only [linField_simAt o hS.valid, hA0, hr0]
    obtain ⟨L, -, hL⟩ := hJ fun k : Fin J.arity => linField o.simulation X0 (args.get (k.cast hlen.symm)).component
    exact hL.continuousAt.tendsto.comp hx
  have hg : ∀ i j, Tendsto (fun n => ∑ k : Fin J.arity, Opt.tail_Ez o rho (unflatten (X n))
        (unflatten (solver_direct (env n) o.simulation.Aᵀ (-(linPart o.simulation (J.partials k fun k : Fin J.arity => linField o.simulation (X n) (args.get (k.cast hlen.symm)).component)
          (args.get (k.cast hlen.symm)).component)))) i j) atTop
      (𝓝 (∑ k : Fin J.arity, Opt.tail_Ez o rho (unflatten X0)
        (unflatten (solver_direct env0 o.simulation.Aᵀ (-(linPart o.simulation (J.partials k fun k : Fin J.arity => linField o.simulation X0 (args.get (k.cast hlen.symm)).component)
          (args.get (k.cast hlen.symm)).component)))) i j)) := by
    intro i j
    refine tendsto_finsetSum _ fun k _ => ?_
    have hb : Tendsto (fun n => -(linPart o.simulation (J.partials k fun k : Fin J.arity => linField o.simulation (X n) (args.get (k.cast hlen.symm)).component)
        (args.get (k.cast hlen.symm)).component)) atTop
        (𝓝 (-(linPart o.simulation (J.partials k fun k : Fin J.arity => linField o.simulation X0 (args.get (k.cast hlen.symm)).component) (args.get (k.cast hlen.symm)).component))) :=
      (((linPart_continuous o.simulation _).tendsto _).comp (((hc k).tendsto _).comp hx)).neg
    exact tail_Ez_tendsto o rho i j hX (solver_tendsto h o.simulation.Aᵀ hdt hb he)
  have ev1 : ∀ᶠ n in atTop, |linObj (env n) o J args hlen rho - linObj env0 o J args hlen rho| < δ := by
    have := Metric.tendsto_nhds.1 hf δ hδ
    simpa only [Real.dist_eq] using this
  have ev2 := Filter.eventually_all.2 fun i : Fin Nx => Filter.eventually_all.2 fun j : Fin Ny => Metric.tendsto_nhds.1 (hg i j) δ hδ
  obtain ⟨n, h1, h2⟩ := (ev1.and ev2).exists
  refine ⟨n, _, _, hob (env n), hgr (env n), h1, fun i j => ?_⟩
  have := h2 i j
  rwa [Real.dist_eq] at this

/-- **C101, derivatives.** Without a filter, what the code computes with an inexact linear solver is within `δ` of the derivative of the exact objective. -/
theorem C101_derivative (env0 : Env) (he : env0.Exact) (o : Opt Nx Ny) (J : ObjFn Nx Ny) (args : List ObjArg) (rho : Grid Nx Ny ℝ) (hS : Spec.LinearEz env0 o J args rho)
    (hargs : ∀ a ∈ args, ∃ c, c ∈ ["Ez", "Hx", "Hy"] ∧ ObjArg.init c false = .ok a) (hJ : ∀ x, Spec.Autograd J x) (hc : ∀ k, Continuous (J.partials k)) (hW : o.W = 1)
    (hm : Spec.Mask o.design_region) (i0 : Fin Nx) (j0 : Fin Ny) (hd : o.design_region i0 j0 = 1) :
    ∃ f f', (∀ t, (Opt.compute_J env0 o (some (Spec.simAt o (Spec.bump rho i0 j0 t)))).1 = .ok (f t)) ∧ HasDerivAt f f' 0 ∧
      ∀ δ, 0 < δ → ∃ τ, 0 < τ ∧ ∀ env : Env, env.Within τ → ∃ g, (Opt.compute_dJ env o).1 = .ok g ∧ |g i0 j0 - f'| < δ := by
  obtain ⟨f0, g0, -, h2, h3⟩ := C101_gradient env0 he o J args rho hS hargs hJ hc
  obtain ⟨g, f, e1, e2, e3⟩ := C30_gradient_exact_unfiltered env0 he o J args rho hS hargs hW hm i0 j0 hd
  have hgg : g = g0 := by
    rw [h2] at e1
    exact (Except.ok.inj e1).symm
  refine ⟨f, g i0 j0, e2, e3, fun δ hδ => ?_⟩
  obtain ⟨τ, hτ, h4⟩ := h3 δ hδ
  refine ⟨τ, hτ, fun env hw => ?_⟩
  obtain ⟨-, g', -, k2, -, k4⟩ := h4 env hw
  exact ⟨g', k2, hgg ▸ k4 i0 j0⟩

/-! ## Devices of metal, fine meshes -/

/-- The margin of an Ez device of metal without layers. -/
theorem metal_margin (s : Sim Nx Ny) (hv : s.Valid) (hp : s.pol = .Ez) (hd : 0 < s.dl) (hx : 1 < Nx) (hy : 1 < Ny) (m : ℝ) (hm : 0 < m) (hM : ∀ i j, Spec.Metal s m i j) (v : Vec (Nx * Ny) ℂ) :
    s.omega ^ 2 * (EPSILON_0 * s.L0) * m * ‖v‖ ≤ ‖s.A *ᵥ v‖ := by
  have hL := hv.L0_pos
  have ho := hv.omega_pos
  have hMp : 0 < MU_0 * s.L0 := mul_pos MU_0_pos hL
  have hEp : 0 < EPSILON_0 * s.L0 := mul_pos EPSILON_0_pos hL
  have : Nonempty (Fin Nx × Fin Ny) := ⟨(⟨0, by omega⟩, ⟨0, by omega⟩)⟩
  set f : Grid Nx Ny ℂ := unflatten v with hf
  have hfv : flatten f = v := flatten_unflatten v
  obtain ⟨⟨i, j⟩, hp0⟩ := Finite.exists_max fun p : Fin Nx × Fin Ny => ‖f p.1 p.2‖
  have hmax : ∀ a b, ‖f a b‖ ≤ ‖f i j‖ := fun a b => hp0 (a, b)
  have hv1 : ‖v‖ ≤ ‖f i j‖ := by
    refine (pi_norm_le_iff_of_nonneg (norm_nonneg _)).2 fun k => ?_
    rw [← hfv]
    exact hmax _ _
  obtain ⟨ox, oy, he, -⟩ := hM i j
  have row := metal_row s hv hd hx hy f i j ox oy
  rw [hfv] at row
  have hr : ‖unflatten (s.A *ᵥ v) i j‖ ≤ ‖s.A *ᵥ v‖ := norm_le_pi_norm (s.A *ᵥ v) _
  unfold coefX coefY massOf at row
  simp only [hp] at row
  generalize unflatten (s.A *ᵥ v) i j = r at *
  generalize MU_0 * s.L0 = M at *
  generalize EPSILON_0 * s.L0 = E at *
  have hMc : (M : ℂ) ≠ 0 := by exact_mod_cast hMp.ne'
  have e1 : (4 - ((s.omega ^ 2 * M * E * s.dl ^ 2 : ℝ) : ℂ) * s.eps_r i j) * f i j = f (Spec.next i) j + f (Spec.prev i) j + f i (Spec.next j) + f i (Spec.prev j) - ((M * s.dl ^ 2 : ℝ) : ℂ) * r := by
    push_cast
    field_simp at row
    linear_combination -row
  have e2 : ‖f (Spec.next i) j + f (Spec.prev i) j + f i (Spec.next j) + f i (Spec.prev j) - ((M * s.dl ^ 2 : ℝ) : ℂ) * r‖ ≤ 4 * ‖f i j‖ + M * s.dl ^ 2 * ‖r‖ := by
    refine (norm_sub_le _ _).trans ?_
    have a1 := norm_add_le (f (Spec.next i) j + f (Spec.prev i) j + f i (Spec.next j)) (f i (Spec.prev j))
    have a2 := norm_add_le (f (Spec.next i) j + f (Spec.prev i) j) (f i (Spec.next j))
    have a3 := norm_add_le (f (Spec.next i) j) (f (Spec.prev i) j)
    have a4 : ‖((M * s.dl ^ 2 : ℝ) : ℂ) * r‖ = M * s.dl ^ 2 * ‖r‖ := by
      rw [norm_mul, Complex.norm_real, Real.norm_of_nonneg (by positivity)]
    linarith [hmax (Spec.next i) j, hmax (Spec.prev i) j, hmax i (Spec.next j), hmax i (Spec.prev j)]
  rw [← e1, norm_mul] at e2
  have e3 : 4 + s.omega ^ 2 * M * E * m * s.dl ^ 2 ≤ ‖4 - ((s.omega ^ 2 * M * E * s.dl ^ 2 : ℝ) : ℂ) * s.eps_r i j‖ := by
    refine le_trans ?_ (Complex.re_le_norm _)
    rw [Complex.sub_re, Complex.re_ofReal_mul]
    have : s.omega ^ 2 * M * E * s.dl ^ 2 * (s.eps_r i j).re ≤ s.omega ^ 2 * M * E * s.dl ^ 2 * (-m) := mul_le_mul_of_nonneg_left he (by positivity)
    have h4 : (4 : ℂ).re = 4 := rfl
    rw [h4]
    linarith
  have e4 := mul_le_mul_of_nonneg_right e3 (norm_nonneg (f i j))
  have e5 : M * s.dl ^ 2 * (s.omega ^ 2 * E * m * ‖f i j‖) ≤ M * s.dl ^ 2 * ‖r‖ := by linarith
  have e6 := le_of_mul_le_mul_left e5 (by positivity)
  have e7 : s.omega ^ 2 * E * m * ‖v‖ ≤ s.omega ^ 2 * E * m * ‖f i j‖ := mul_le_mul_of_nonneg_left hv1 (by positivity)
  linarith

/-- **C101, devices of metal.** For Ez devices made of metal the error is at most `τ max|src| / (ω ε₀ L0 m)`, on every mesh. -/
theorem C101_metal (s : Sim Nx Ny) (hv : s.Valid) (hp : s.pol = .Ez) (hd : 0 < s.dl) (hx : 1 < Nx) (hy : 1 < Ny) (m : ℝ) (hm : 0 < m) (hM : ∀ i j, Spec.Metal s m i j) (S : ℝ) (hS0 : 0 ≤ S)
    (hS : ∀ i j, ‖s.src i j‖ ≤ S) (env env0 : Env) (τ : ℝ) (hτ : 0 ≤ τ) (h : env.Within τ) (he : env0.Exact) (avg : Bool) :
    ∃ P Q F P0 Q0 F0, (s.solve_fields env false avg).1 = .ok (P, Q, F) ∧ (s.solve_fields env0 false avg).1 = .ok (P0, Q0, F0) ∧
      ∀ i j, ‖F i j - F0 i j‖ ≤ τ * S / (s.omega * (EPSILON_0 * s.L0) * m) := by
  have hL := hv.L0_pos
  have ho := hv.omega_pos
  have hEp : 0 < EPSILON_0 * s.L0 := mul_pos EPSILON_0_pos hL
  obtain ⟨P, Q, F, P0, Q0, F0, h1, h2, h3⟩ := C101_error s hv (C100_metal_device s hv hd hx hy m hm hM).1 (s.omega ^ 2 * (EPSILON_0 * s.L0) * m) (by positivity)
    (metal_margin s hv hp hd hx hy m hm hM) S hS0 hS env env0 τ hτ h he avg
  refine ⟨P, Q, F, P0, Q0, F0, h1, h2, fun i j => (h3 i j).trans (le_of_eq ?_)⟩
  field_simp

/-- A solver that adds a constant to the right-hand side. -/
noncomputable def shiftEnv (τ : ℝ) : Env := ⟨.pardiso, fun A b => A⁻¹ *ᵥ (b + fun _ => ((τ * ‖b‖ : ℝ) : ℂ)), fun A v => A⁻¹ *ᵥ v⟩

theorem shiftEnv_within (τ : ℝ) (hτ : 0 ≤ τ) : (shiftEnv τ).Within τ := by
  intro n A b hA
  have h1 : A *ᵥ (shiftEnv τ).solveC A b = b + fun _ => ((τ * ‖b‖ : ℝ) : ℂ) := by
    show A *ᵥ (A⁻¹ *ᵥ _) = _
    rw [Matrix.mulVec_mulVec, Matrix.mul_nonsing_inv A (isUnit_iff_ne_zero.2 hA), Matrix.one_mulVec]
  rw [h1, add_sub_cancel_left]
  refine (pi_norm_le_iff_of_nonneg (by positivity)).2 fun k => ?_
  rw [Complex.norm_real, Real.norm_of_nonneg (by positivity)]

/-- **C101, fine meshes.** No accuracy is enough for all meshes: however small `τ > 0` and large `C`, some device (of metal, never resonant) and some solver within `τ` give fields whose error is more
than `C` times the field at every pixel. -/
theorem C101_not_uniform (τ : ℝ) (hτ : 0 < τ) (C : ℝ) : ∃ (s : Sim 2 2) (env env0 : Env) (P Q F P0 Q0 F0 : Grid 2 2 ℂ), s.Valid ∧ 0 < s.dl ∧ s.A.det ≠ 0 ∧ env.Within τ ∧ env0.Exact ∧
    (s.solve_fields env false false).1 = .ok (P, Q, F) ∧ (s.solve_fields env0 false false).1 = .ok (P0, Q0, F0) ∧ ∀ i j, F0 i j ≠ 0 ∧ C * ‖F0 i j‖ ≤ ‖F i j - F0 i j‖ := by
  have hMp := MU_0_pos
  have hEp := EPSILON_0_pos
  set d2 : ℝ := 8 * τ / (MU_0 * EPSILON_0 * (|C| + 1)) with hd2
  have hd2p : 0 < d2 := by positivity
  set s : Sim 2 2 := anysim 1 (Real.sqrt d2) (0, 0) .Ez (fun _ _ => -1) (Spec.planeWave 2 2 1 1) with hs
  have hv : s.Valid := anysim_valid 1 _ one_pos _ _ _ _
  have hd : 0 < s.dl := Real.sqrt_pos.2 hd2p
  have hdd : s.dl ^ 2 = d2 := Real.sq_sqrt hd2p.le
  have hM : ∀ i j, Spec.Metal s 1 i j := fun i j => ⟨⟨Or.inl rfl, Or.inl rfl⟩, ⟨Or.inl rfl, Or.inl rfl⟩, by simp [hs, anysim], fun _ p _ => by simp [hs, anysim]⟩
  have hdet := (C100_metal_device s hv hd (by norm_num) (by norm_num) 1 one_pos hM).1
  obtain ⟨P, Q, r1⟩ := solve_fields_third (shiftEnv τ) s false
  obtain ⟨P0, Q0, r2⟩ := solve_fields_third (exactEnv .pardiso) s false
  refine ⟨s, shiftEnv τ, exactEnv .pardiso, P, Q, _, P0, Q0, _, hv, hd, hdet, shiftEnv_within τ hτ.le, exactEnv_exact _, r1, r2, ?_⟩
  -- the two eigenvectors
  have k1 : s.A *ᵥ flatten (fun _ _ => 1 : Grid 2 2 ℂ) = (((-EPSILON_0 : ℝ) : ℂ)) • flatten (fun _ _ => 1 : Grid 2 2 ℂ) := by
    rw [const_eigen s hv rfl hd (by norm_num) (by norm_num) (-1) (fun _ _ => rfl)]
    congr 1
    simp only [hs, anysim]
    push_cast
    ring
  have k2 : s.A *ᵥ flatten (Spec.planeWave 2 2 1 1) = (((-(EPSILON_0 + 8 / (d2 * MU_0)) : ℝ) : ℂ)) • flatten (Spec.planeWave 2 2 1 1) := by
    rw [C92_eigen s hv hd (by norm_num) (by norm_num) rfl (-1) (fun _ _ => rfl) (by norm_num) 1 1]
    congr 1
    have hsin : Real.sin (Real.pi * ((1 : ℤ) : ℝ) / ((2 : ℕ) : ℝ)) = 1 := by
      push_cast
      rw [mul_one, Real.sin_pi_div_two]
    have hMc : (MU_0 : ℂ) ≠ 0 := by exact_mod_cast hMp.ne'
    have hdc : (d2 : ℂ) ≠ 0 := by exact_mod_cast hd2p.ne'
    unfold Spec.gridDefect
    rw [hsin, hdd]
    have q1 : s.omega = 1 := rfl
    have q2 : s.L0 = 1 := rfl
    have q3 : s.pol = .Ez := rfl
    rw [q1, q2, q3]
    unfold Spec.stiff
    push_cast
    field_simp
    ring
  have hne : EPSILON_0 + 8 / (d2 * MU_0) ≠ 0 := by positivity
  set Λ : ℝ := EPSILON_0 + 8 / (d2 * MU_0) with hΛ
  have hΛp : 0 < Λ := by positivity
  have hΛc : (Λ : ℂ) ≠ 0 := by exact_mod_cast hne
  have hEc : (EPSILON_0 : ℂ) ≠ 0 := by exact_mod_cast hEp.ne'
  have hrhs : s.rhs = Complex.I • flatten (Spec.planeWave 2 2 1 1) := by
    funext k
    show flatten (Spec.planeWave 2 2 1 1) k * Complex.I * ((1 : ℝ) : ℂ) = Complex.I * _
    push_cast
    ring
  have hnk : ∀ k, ‖s.rhs k‖ = 1 := by
    intro k
    rw [hrhs, Pi.smul_apply, norm_smul, Complex.norm_I, one_mul]
    exact norm_planeWave _ _ _ _
  have hnorm : ‖s.rhs‖ = 1 := by
    refine le_antisymm ((pi_norm_le_iff_of_nonneg zero_le_one).2 fun k => (hnk k).le) ?_
    rw [← hnk 0]
    exact norm_le_pi_norm _ _
  have hr0 : s.rhs ≠ 0 := by
    intro h
    rw [h, norm_zero] at hnorm
    exact zero_ne_one hnorm
  have hX0 : solver_direct (exactEnv .pardiso) s.A s.rhs = (-(Complex.I / (Λ : ℂ))) • flatten (Spec.planeWave 2 2 1 1) := by
    refine solver_direct_unique (exactEnv_exact _) hdet ?_
    rw [Matrix.mulVec_smul, k2, smul_smul, hrhs]
    congr 1
    push_cast
    field_simp
  have hX : solver_direct (shiftEnv τ) s.A s.rhs = solver_direct (exactEnv .pardiso) s.A s.rhs + (((-(τ / EPSILON_0) : ℝ) : ℂ)) • flatten (fun _ _ => 1 : Grid 2 2 ℂ) := by
    refine mulVec_unique hdet ?_
    rw [Matrix.mulVec_add, solver_direct_spec (exactEnv_exact _) (Or.inl hdet), Matrix.mulVec_smul, k1, smul_smul]
    unfold solver_direct
    rw [if_neg hr0]
    show s.A *ᵥ (s.A⁻¹ *ᵥ _) = _
    rw [Matrix.mulVec_mulVec, Matrix.mul_nonsing_inv _ (isUnit_iff_ne_zero.2 hdet), Matrix.one_mulVec, hnorm]
    congr 1
    funext k
    show _ = (((-(τ / EPSILON_0) : ℝ) : ℂ)) * (((-EPSILON_0 : ℝ) : ℂ)) * 1
    push_cast
    field_simp
  intro i j
  have e0 : unflatten (solver_direct (exactEnv .pardiso) s.A s.rhs) i j = -(Complex.I / (Λ : ℂ)) * Spec.planeWave 2 2 1 1 i j := by
    rw [hX0]
    show _ * flatten (Spec.planeWave 2 2 1 1) (finProdFinEquiv (i, j)) = _
    rw [flatten_pair]
  have e1 : unflatten (solver_direct (shiftEnv τ) s.A s.rhs) i j - unflatten (solver_direct (exactEnv .pardiso) s.A s.rhs) i j = ((-(τ / EPSILON_0) : ℝ) : ℂ) := by
    rw [hX]
    show solver_direct (exactEnv .pardiso) s.A s.rhs (finProdFinEquiv (i, j)) + ((-(τ / EPSILON_0) : ℝ) : ℂ) * 1 - solver_direct (exactEnv .pardiso) s.A s.rhs (finProdFinEquiv (i, j)) = _
    ring
  have n0 : ‖unflatten (solver_direct (exactEnv .pardiso) s.A s.rhs) i j‖ = 1 / Λ := by
    rw [e0, norm_mul, norm_planeWave, mul_one, norm_neg, norm_div, Complex.norm_I, Complex.norm_real, Real.norm_of_nonneg hΛp.le]
  refine ⟨fun h => ?_, ?_⟩
  · rw [h, norm_zero] at n0
    exact (by positivity : (0 : ℝ) < 1 / Λ).ne n0
  rw [e1, n0, Complex.norm_real, norm_neg, Real.norm_of_nonneg (by positivity)]
  have hb : 8 / (d2 * MU_0) = EPSILON_0 * (|C| + 1) / τ := by
    rw [hd2]
    field_simp
  have h1 : C * (1 / Λ) ≤ |C| * (1 / Λ) := mul_le_mul_of_nonneg_right (le_abs_self C) (by positivity)
  refine h1.trans ?_
  rw [mul_one_div, div_le_div_iff₀ hΛp hEp, hΛ, hb]
  have h2 : τ * (EPSILON_0 + EPSILON_0 * (|C| + 1) / τ) = τ * EPSILON_0 + EPSILON_0 * (|C| + 1) := by field_simp
  rw [h2]
  have := mul_pos hτ hEp
  linarith

/-! ## Examples -/

/-- Fields in free space, 100 by 80 cells with layers, any frequency, polarisation and source. -/
example (omega : ℝ) (ho : 0 < omega) (pol : Pol) (src : Grid 100 80 ℂ) (env0 : Env) (he : env0.Exact) :
    ∃ P0 Q0 F0, ((anysim omega (1 / 20) (10, 10) pol (fun _ _ => 1) src).solve_fields env0 false false).1 = .ok (P0, Q0, F0) ∧ ∀ δ, 0 < δ → ∃ τ, 0 < τ ∧ ∀ env : Env, env.Within τ →
      ∃ P Q F, ((anysim omega (1 / 20) (10, 10) pol (fun _ _ => 1) src).solve_fields env false false).1 = .ok (P, Q, F) ∧
        ∀ i j, ‖P i j - P0 i j‖ < δ ∧ ‖Q i j - Q0 i j‖ < δ ∧ ‖F i j - F0 i j‖ < δ :=
  C101_fields _ (C97_uniform _ (anysim_valid _ _ ho _ _ _ _) (by norm_num [anysim]) (by norm_num) (by norm_num) (by norm_num [anysim]) (by norm_num [anysim]) 1 (fun _ _ => rfl) one_ne_zero
    (by simp)).1 env0 he false

/-- A metal block: explicit bounds with a solver that is not exact. -/
example (src : Grid 40 30 ℂ) (hs : ∀ i j, ‖src i j‖ ≤ 1) : ∃ P Q F P0 Q0 F0, ((anysim 1 1 (0, 0) .Ez (fun _ _ => -10) src).solve_fields (shiftEnv 1e-6) false false).1 = .ok (P, Q, F) ∧
    ((anysim 1 1 (0, 0) .Ez (fun _ _ => -10) src).solve_fields (exactEnv .pardiso) false false).1 = .ok (P0, Q0, F0) ∧ ∀ i j, ‖F i j - F0 i j‖ ≤ 1e-6 * 1 / (1 * (EPSILON_0 * 1) * 10) :=
  C101_metal (anysim 1 1 (0, 0) .Ez (fun _ _ => -10) src) (anysim_valid 1 1 one_pos _ _ _ _) rfl one_pos (by norm_num) (by norm_num) 10 (by norm_num)
    (fun i j => ⟨⟨Or.inl rfl, Or.inl rfl⟩, ⟨Or.inl rfl, Or.inl rfl⟩, by simp [anysim], fun _ p _ => by simp [anysim]⟩) 1 zero_le_one hs _ _ 1e-6 (by norm_num) (shiftEnv_within _ (by norm_num))
    (exactEnv_exact _) false

/-- The gradient of the intensity of Ez on a 9 by 9 grid, every pixel, any source. -/
example (env0 : Env) (he : env0.Exact) (src : Grid 9 9 ℂ) (i0 j0 : Fin 9) :
    let o := gopt 1 src (Objective.mk' (intensityJ 9 9) [⟨.Ez, false, .linear_Ez⟩]) (fun _ _ => 1) 1
    ∃ f f', (∀ t, (Opt.compute_J env0 o (some (Spec.simAt o (Spec.bump (fun _ _ => 0) i0 j0 t)))).1 = .ok (f t)) ∧ HasDerivAt f f' 0 ∧
      ∀ δ, 0 < δ → ∃ τ, 0 < τ ∧ ∀ env : Env, env.Within τ → ∃ g, (Opt.compute_dJ env o).1 = .ok g ∧ |g i0 j0 - f'| < δ := by
  have hS := gopt_setup env0 (Nx := 9) (Ny := 9) (by norm_num) (by norm_num) 1 src (intensityJ 9 9) [⟨.Ez, false, .linear_Ez⟩] (fun _ _ => 1) 1 rfl (intensityJ_autograd (Nx := 9) (Ny := 9))
  refine C101_derivative env0 he _ _ _ _ hS ?_ (intensityJ_autograd (Nx := 9) (Ny := 9)) (fun k => ?_) rfl (fun _ _ => Or.inr rfl) i0 j0 rfl
  · intro a ha
    rw [List.mem_singleton] at ha
    exact ⟨"Ez", by simp, by rw [ha]; rfl⟩
  · refine continuous_pi fun i => continuous_pi fun j => ?_
    simp only [intensityJ]
    fun_prop

end Angler
