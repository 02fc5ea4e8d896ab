import Verif.Lemmas.GradientKerrEz
import Verif.Props.GradientEz
import Verif.Lemmas.NewtonWitness

/-! # C31: the adjoint gradient at a Kerr-nonlinear solution -/

namespace Angler

open Matrix Filter Topology

variable {Nx Ny : ℕ}

/-- A branch of exact Kerr solutions through `E0` while density pixel `(i0, j0)` changes. -/
def Spec.KerrBranch (o : Opt Nx Ny) (rho : Grid Nx Ny ℝ) (E0 : Grid Nx Ny ℂ) (i0 : Fin Nx) (j0 : Fin Ny) (E : ℝ → Grid Nx Ny ℂ) : Prop :=
  E 0 = E0 ∧ ContinuousAt E 0 ∧ ∀ᶠ t in 𝓝 (0 : ℝ), Spec.KerrMaxwellEz (Spec.simAt o (Spec.bump rho i0 j0 t)) (E t)

/-- The fields an objective is evaluated at: the nonlinear argument is the exact solution `E`, linear ones come from `solve_fields`. -/
def Spec.FieldsAt (env : Env) (s : Sim Nx Ny) (E : Grid Nx Ny ℂ) {J : ObjFn Nx Ny} (args : List ObjArg) (x : Fin J.arity → Grid Nx Ny ℂ) : Prop :=
  ∀ (k : Fin J.arity) a, args[(k : ℕ)]? = some a → some (x k) = if a.nl then some E else (s.solve_fields env).2.fields a.component

theorem kerr_real {o : Opt Nx Ny} {rho : Grid Nx Ny ℝ} (heps : o.simulation.eps_r = fun i j => ((rho2eps rho o.eps_m o.W o.eta o.beta i j : ℝ) : ℂ)) (i : Fin Nx) (j : Fin Ny) :
    (Spec.kerrSum o.simulation.nonlinearity o.simulation.eps_r i j).im = 0 :=
  kerrSum_real o.simulation i j (Or.inr (by rw [heps]; exact Complex.ofReal_im _))

/-- The contribution of one argument to the derivative. -/
theorem arg_derivative (env : Env) (he : env.Exact) (o : Opt Nx Ny) (J : ObjFn Nx Ny) (args : List ObjArg) (rho : Grid Nx Ny ℝ) (E0 : Grid Nx Ny ℂ)
    (hS : Spec.KerrEz env o J args rho E0) (i0 : Fin Nx) (j0 : Fin Ny) (hW : Spec.FilterSym o.W o.design_region i0 j0)
    (E : ℝ → Grid Nx Ny ℂ) (hE : Spec.KerrBranch o rho E0 i0 j0 E) (p : Grid Nx Ny ℂ) (a : ObjArg) (ha : a ∈ args) :
    ∃ D : Grid Nx Ny ℂ, HasDerivAt (fun t => argField env (Spec.simAt o (Spec.bump rho i0 j0 t)) (E t) a) D 0 ∧
      ∑ i, ∑ j, (p i j * D i j).re = argGrad env o rho E0 p a i0 j0 := by
  have hWij : ∀ i j, o.W (finProdFinEquiv (i, j)) (finProdFinEquiv (i0, j0)) = o.W (finProdFinEquiv (i0, j0)) (finProdFinEquiv (i, j)) * o.design_region i j := by
    intro i j
    rcases hW i j with ⟨h1, h2⟩ | ⟨h1, h2⟩
    · rw [h2, h1, mul_one]
    · rw [h2, h1, mul_zero]
  have hre : ∀ D : Grid Nx Ny ℂ, ∑ i, ∑ j, (p i j * D i j).re = (∑ i, ∑ j, p i j * D i j).re := by
    intro D
    rw [Complex.re_sum]
    exact Finset.sum_congr rfl fun i _ => (Complex.re_sum _ _).symm
  rcases kinds_cases (hS.kinds a ha) with ⟨h1, h2, -⟩ | ⟨h1, h2, -⟩
  · -- linear argument
    have hdet := hS.det ⟨a, ha, h1⟩
    have hX' := hasDerivAt_solution_bump env he o hS.pol hS.valid rho hS.eps hdet hS.beta i0 j0
    refine ⟨_, (hasDerivAt_linField o.simulation hX' a.component).congr_of_eventuallyEq (Eventually.of_forall fun t => ?_), ?_⟩
    · simp only [argField, h1, Bool.false_eq_true, if_false]
      exact linField_simAt o hS.valid _ _ _
    · rw [hre, pair_linField]
      have hdetT : o.simulation.Aᵀ.det ≠ 0 := by rw [Matrix.det_transpose]; exact hdet
      rw [adjoint_identity hdet (a := solver_direct env o.simulation.Aᵀ (-(linPart o.simulation p a.component))) (solver_direct_spec he (Or.inl hdetT))]
      simp only [argGrad, h1, Bool.false_eq_true, if_false]
      rw [tail_Ez_apply, spdiag_mulVec, dotProduct, sum_flat]
      congr 1
      refine Finset.sum_congr rfl fun i _ => Finset.sum_congr rfl fun j _ => ?_
      rw [← hWij]
      simp only [flatten_pair]
      simp only [unflatten]
      ring
  · -- nonlinear argument
    obtain ⟨-, huniq⟩ := kerr_branch o hS.valid hS.pol rho hS.eps hS.beta E0 hS.exact hS.regular i0 j0
    obtain ⟨E', hE', heq⟩ := huniq E hE.1 hE.2.1 hE.2.2
    refine ⟨E', ?_, ?_⟩
    · simp only [argField, h1, if_true]
      exact hE'
    · have hreal := kerr_real hS.eps
      have hdet := kerrC_det o.simulation E0 hreal hS.regular
      have hdetT : (stackConj (kerrC11 o.simulation E0) (kerrC12 o.simulation E0))ᵀ.det ≠ 0 := by rw [Matrix.det_transpose]; exact hdet
      have hz : (stackConj (kerrC11 o.simulation E0) (kerrC12 o.simulation E0))ᵀ *ᵥ kerrAdj env o.simulation E0 p = stackVec (-(flatten p)) :=
        solver_direct_spec he (Or.inl hdetT)
      have hh : kerrC11 o.simulation E0 *ᵥ flatten E' + kerrC12 o.simulation E0 *ᵥ (fun k => (starRingEnd ℂ) (flatten E' k)) =
          -(flatten fun i j => ((o.simulation.omega ^ 2 * EPSILON_0 * o.simulation.L0 : ℝ) : ℂ) * ((1 + (o.simulation.compute_nl E0).dnl_deps i j) * dEps o rho i0 j0 i j) * E0 i j) := by
        refine flat_ext fun i j => ?_
        rw [kerrC_mulVec _ _ _ hreal, heq]
        simp only [Pi.neg_apply, flatten_pair]
      have hadj := kerr_adjoint_identity _ _ hdet _ _ hz _ _ hh
      have hpE : ∑ i, ∑ j, p i j * E' i j = flatten p ⬝ᵥ flatten E' := by
        rw [dotProduct, sum_flat]
        simp only [flatten_pair]
      rw [hre, hpE, hadj]
      simp only [argGrad, h1, if_true]
      rw [tail_kerr_apply, dotProduct, sum_flat]
      congr 1
      refine Finset.sum_congr rfl fun i _ => Finset.sum_congr rfl fun j _ => ?_
      rw [← hWij]
      simp only [flatten_pair, dEps]
      simp only [unflatten]

/-- **C31 (partial).** At an exact, regular Kerr solution `E` (with the stored nonlinear state belonging to it) `compute_dJ` returns, at each pixel where the filter is symmetric,
the derivative of the objective along the exact solutions of the changed structures: such a branch exists, and for every continuous one the derivative of
`t ↦ J(fields)` is the returned number.  Missing from the full claim: pixels where `W` is not symmetric (the last step is the one of C29). -/
theorem C31_gradient_exact_partial (env : Env) (he : env.Exact) (o : Opt Nx Ny) (J : ObjFn Nx Ny) (args : List ObjArg) (rho : Grid Nx Ny ℝ) (E0 : Grid Nx Ny ℂ)
    (hS : Spec.KerrEz env o J args rho E0) (i0 : Fin Nx) (j0 : Fin Ny) (hW : Spec.FilterSym o.W o.design_region i0 j0) :
    ∃ g, (Opt.compute_dJ env o).1 = .ok g ∧ (∃ E, Spec.KerrBranch o rho E0 i0 j0 E) ∧
      ∀ E, Spec.KerrBranch o rho E0 i0 j0 E → ∀ x : ℝ → Fin J.arity → Grid Nx Ny ℂ, (∀ t, Spec.FieldsAt env (Spec.simAt o (Spec.bump rho i0 j0 t)) (E t) args (x t)) →
        HasDerivAt (fun t => J.eval (x t)) (g i0 j0) 0 := by
  obtain ⟨hlen, hg⟩ := kerr_compute_dJ env o J args rho E0 hS
  obtain ⟨hex, -⟩ := kerr_branch o hS.valid hS.pol rho hS.eps hS.beta E0 hS.exact hS.regular i0 j0
  refine ⟨_, hg, hex, ?_⟩
  intro E hE x hx
  let arg : Fin J.arity → ObjArg := fun k => args.get (k.cast hlen.symm)
  have harg : ∀ k, arg k ∈ args := fun k => List.get_mem _ _
  have hget : ∀ k : Fin J.arity, args[(k : ℕ)]? = some (arg k) := by
    intro k
    have hlt : (k : ℕ) < args.length := by rw [hlen]; exact k.2
    rw [List.getElem?_eq_getElem hlt]
    rfl
  have hxe : ∀ t k, x t k = argField env (Spec.simAt o (Spec.bump rho i0 j0 t)) (E t) (arg k) := by
    intro t k
    have h1 := hx t k _ (hget k)
    rcases kinds_cases (hS.kinds _ (harg k)) with ⟨h2, h3, -⟩ | ⟨h2, h3, -⟩
    · rw [h2] at h1
      simp only [argField, h2, Bool.false_eq_true, if_false] at h1 ⊢
      obtain ⟨tt, ht, hst⟩ := solve_fields_Ez env (Spec.simAt o (Spec.bump rho i0 j0 t)) hS.pol
      rw [ht] at h1
      exact Option.some.inj (h1.trans (hst _ h3))
    · rw [h2] at h1
      simp only [argField, h2, if_true] at h1 ⊢
      exact Option.some.inj h1
  have hx' : x = fun t k => argField env (Spec.simAt o (Spec.bump rho i0 j0 t)) (E t) (arg k) := by
    funext t k
    exact hxe t k
  have hA0 : (Spec.simAt o (Spec.bump rho i0 j0 0)).A = o.simulation.A := by
    rw [bump_zero, hS.valid.A_eq, hS.eps]; rfl
  have hx0 : x 0 = fun k => argField env o.simulation E0 (arg k) := by
    funext k
    rw [hxe]
    unfold argField
    rw [hE.1, hA0]
    have hr : (Spec.simAt o (Spec.bump rho i0 j0 0)).rhs = o.simulation.rhs := rfl
    rw [hr, linField_simAt o hS.valid]
  obtain ⟨t0, ht0, hst0⟩ := solve_fields_Ez env o.simulation hS.pol
  obtain ⟨L, hL, hJ⟩ := hS.autograd (x 0) (by
    intro k a hk
    have hak : a = arg k := by
      rw [hget k] at hk
      exact (Option.some.inj hk).symm
    rw [hak, hx0]
    rcases kinds_cases (hS.kinds _ (harg k)) with ⟨h2, h3, -⟩ | ⟨h2, h3, -⟩
    · simp only [h2, argField, Bool.false_eq_true, if_false]
      have h1 : o.simulation.fields (arg k).component = (o.simulation.solve_fields env).2.fields (arg k).component := by
        refine hS.linear _ ?_ ⟨_, harg k, h2⟩
        generalize (arg k).component = c at h3
        cases c <;> simp_all [Comp.isEz]
      rw [h1, ht0]
      exact hst0 _ h3
    · simp only [h2, h3, argField, if_true]
      exact hS.nonlinear)
  have hD := fun k => arg_derivative env he o J args rho E0 hS i0 j0 hW E hE (J.partials k (x 0)) (arg k) (harg k)
  choose D hD1 hD2 using hD
  have hfield : HasDerivAt x D 0 := by
    rw [hx']
    exact hasDerivAt_pi.2 fun k => hD1 k
  refine (hJ.comp_hasDerivAt (0 : ℝ) hfield).congr_deriv ?_
  rw [hL]
  refine Finset.sum_congr rfl fun k _ => ?_
  rw [hD2 k, hx0]

/-- **C31, no filter.** -/
theorem C31_gradient_exact_unfiltered (env : Env) (he : env.Exact) (o : Opt Nx Ny) (J : ObjFn Nx Ny) (args : List ObjArg) (rho : Grid Nx Ny ℝ) (E0 : Grid Nx Ny ℂ)
    (hS : Spec.KerrEz env o J args rho E0) (hW : o.W = 1) (hm : Spec.Mask o.design_region) (i0 : Fin Nx) (j0 : Fin Ny) (hd : o.design_region i0 j0 = 1) :
    ∃ g, (Opt.compute_dJ env o).1 = .ok g ∧ (∃ E, Spec.KerrBranch o rho E0 i0 j0 E) ∧
      ∀ E, Spec.KerrBranch o rho E0 i0 j0 E → ∀ x : ℝ → Fin J.arity → Grid Nx Ny ℂ, (∀ t, Spec.FieldsAt env (Spec.simAt o (Spec.bump rho i0 j0 t)) (E t) args (x t)) →
        HasDerivAt (fun t => J.eval (x t)) (g i0 j0) 0 :=
  C31_gradient_exact_partial env he o J args rho E0 hS i0 j0 (hW ▸ filterSym_one hm hd)

/-- **C31, filter.** With `W = get_W(design_region, NPML, R)`, PML on both axes and the design region inside the pixels `get_W` visits. -/
theorem C31_gradient_exact_filtered (env : Env) (he : env.Exact) (o : Opt Nx Ny) (J : ObjFn Nx Ny) (args : List ObjArg) (rho : Grid Nx Ny ℝ) (E0 : Grid Nx Ny ℂ)
    (hS : Spec.KerrEz env o J args rho E0) (R : ℕ) (hR : 1 ≤ R)
    (hW : get_W Nx Ny o.design_region o.simulation.NPML R = .ok o.W) (h1 : 1 ≤ o.simulation.NPML.1) (h2 : 1 ≤ o.simulation.NPML.2) (hm : Spec.Mask o.design_region)
    (hin : ∀ i j, o.design_region i j = 1 → Interior Nx Ny o.simulation.NPML R i j) (i0 : Fin Nx) (j0 : Fin Ny) (hd : o.design_region i0 j0 = 1) :
    ∃ g, (Opt.compute_dJ env o).1 = .ok g ∧ (∃ E, Spec.KerrBranch o rho E0 i0 j0 E) ∧
      ∀ E, Spec.KerrBranch o rho E0 i0 j0 E → ∀ x : ℝ → Fin J.arity → Grid Nx Ny ℂ, (∀ t, Spec.FieldsAt env (Spec.simAt o (Spec.bump rho i0 j0 t)) (E t) args (x t)) →
        HasDerivAt (fun t => J.eval (x t)) (g i0 j0) 0 :=
  C31_gradient_exact_partial env he o J args rho E0 hS i0 j0 (filterSym_get_W hW h1 h2 hR hm hin hd)

/-- **C31, adjoint field.** At a regular field with real Kerr coefficients the solution of the doubled system has conjugate halves, for every right-hand side: the warning of
`adjoint.py:87-88` never has cause. -/
theorem C31_adjoint_halves_conjugate (env : Env) (he : env.Exact) (s : Sim Nx Ny) (E b : Grid Nx Ny ℂ) (hE : s.fields_nl .Ez = some E)
    (hA : s.Anl = (s.compute_nl E).Anl) (hd : s.dnl_de = (s.compute_nl E).dnl_de) (hreg : Spec.KerrRegular s E)
    (hreal : ∀ i j, (Spec.kerrSum s.nonlinearity s.eps_r i j).im = 0) :
    ∃ z, adjoint_kerr_vec env s b = .ok z ∧ ∀ k, z (Fin.natAdd _ k) = (starRingEnd ℂ) (z (Fin.castAdd _ k)) := by
  refine ⟨solver_direct env (stackConj (kerrC11 s E) (kerrC12 s E))ᵀ (stackVec (flatten b)), ?_, ?_⟩
  · unfold adjoint_kerr_vec
    rw [hA, compute_nl_Anl, hE]
    simp only [hd]
    rfl
  · have hdet := kerrC_det s E hreal hreg
    have hdetT : (stackConj (kerrC11 s E) (kerrC12 s E))ᵀ.det ≠ 0 := by rw [Matrix.det_transpose]; exact hdet
    exact stack_halves _ _ hdet _ _ (solver_direct_spec he (Or.inl hdetT))

/-- `compute_dJ` on stale fields is `compute_dJ` in the state its own solves leave, so the theorems above apply whenever that state is as in `Spec.KerrEz`. -/
theorem C31_after_solve (env : Env) (o o1 : Opt Nx Ny) (hsol : Opt.solveArgFields env o none = (.ok (), o1, none)) (hcur : o1.fields_current = true)
    (hne : (o1.field_arg_list.getD []).isEmpty = false) (hob : o1.objective = o.objective) : Opt.compute_dJ env o = Opt.compute_dJ env o1 := by
  have h1 : Opt.solveArgFields env o1 none = (.ok (), o1, none) := by
    unfold Opt.solveArgFields
    rw [if_neg (by rw [hcur, hne]; simp)]
  unfold Opt.compute_dJ
  rw [hsol, h1]
  simp only
  rw [hob]

/-! ## A concrete case -/

theorem psim_regular (src : Grid 2 2 ℂ) : Spec.KerrRegular (psim src) (fun _ _ => 1) := by
  intro h hh
  have hinj := (Areal_det_ne_zero_iff _ _).1 (psim_jac_det src 1)
  have h0 := hinj (flatten h) (by
    refine flat_ext fun i j => ?_
    have h1 := nl_jac11 (psim src) (fun _ _ => ((1 : ℝ) : ℂ)) h i j
    have h2 := nl_jac12 (psim src) (fun _ _ => ((1 : ℝ) : ℂ)) (fun i j => (starRingEnd ℂ) (h i j)) i j
    have h3 := hh i j
    have hconj : (fun k => (starRingEnd ℂ) (flatten h k)) = (flatten fun i j => (starRingEnd ℂ) (h i j) : Vec (2 * 2) ℂ) := rfl
    rw [hconj, Pi.add_apply, h1, h2, Pi.zero_apply, ← h3, psim_sum]
    simp only [Complex.ofReal_one, map_one, map_ofNat]
    ring)
  exact flatten_eq_zero.1 h0

/-- The optimisation of the Kerr witness: density 1 everywhere, `ε_m = 10`, no filter; the source is chosen so that the nonlinear field is 1 everywhere. -/
noncomputable def kopt : Opt 2 2 where
  objective := Objective.mk' (intensityJ 2 2) [⟨.Ez, true, .kerr_Ez⟩]
  simulation := { (psim fun _ _ => -20 * Complex.I).compute_nl (fun _ _ => 1) with fields_nl := fun c => if c = .Ez then some (fun _ _ => 1) else none, rho := some (some fun _ _ => 1) }
  design_region := fun _ _ => 1
  W := 1
  eps_m := 10
  eta := 1 / 2
  beta := 1
  max_ind_shift := none
  src_amplitudes := []
  objfn_list := []
  fields_current := true
  field_arg_list := some [fun _ _ => 1]

theorem rho2eps_full (eps_m : ℝ) (i : Fin Nx) (j : Fin Ny) : rho2eps (fun _ _ => 1 : Grid Nx Ny ℝ) eps_m 1 (1 / 2) 1 i j = eps_m := by
  have h1 : rho2rhot (fun _ _ => 1 : Grid Nx Ny ℝ) (1 : Mat (Nx * Ny) ℝ) i j = 1 := by
    simp only [rho2rhot, Matrix.one_mulVec, unflatten_flatten]
  have h2 : rhot2rhob 1 (1 / 2) 1 = 1 := by
    unfold rhot2rhob
    exact div_self (rhot2rhob_den_pos (1 / 2) 1 one_pos).ne'
  show rhob2eps (rhot2rhob (rho2rhot (fun _ _ => 1 : Grid Nx Ny ℝ) (1 : Mat (Nx * Ny) ℝ) i j) (1 / 2) 1) eps_m = eps_m
  rw [h1, h2]
  unfold rhob2eps
  ring

theorem kopt_valid : kopt.simulation.Valid :=
  ⟨(psim_valid fun _ _ => 0).L0_pos, (psim_valid fun _ _ => 0).omega_pos, rfl, rfl, rfl, (psim_valid fun _ _ => 0).derivs_eq⟩

theorem kopt_setup (env : Env) : Spec.KerrEz env kopt (intensityJ 2 2) [⟨.Ez, true, .kerr_Ez⟩] (fun _ _ => 1) (fun _ _ => 1) where
  obj := rfl
  kinds := fun a ha => Or.inr (by rw [List.mem_singleton] at ha; rw [ha]; rfl)
  nonempty := by simp
  valid := kopt_valid
  pol := rfl
  density := rfl
  eps := by
    funext i j
    have : rho2eps (fun _ _ => 1 : Grid 2 2 ℝ) 10 1 (1 / 2) 1 i j = 10 := rho2eps_full 10 i j
    show (10 : ℂ) = ((rho2eps (fun _ _ => 1 : Grid 2 2 ℝ) 10 1 (1 / 2) 1 i j : ℝ) : ℂ)
    rw [this]; simp
  beta := one_ne_zero
  current := rfl
  linear := by
    rintro c - ⟨a, ha, h⟩
    rw [List.mem_singleton] at ha
    rw [ha] at h
    cases h
  nonlinear := rfl
  anl := rfl
  dnl := rfl
  collected := ⟨_, rfl, rfl⟩
  det := by
    rintro ⟨a, ha, h⟩
    rw [List.mem_singleton] at ha
    rw [ha] at h
    cases h
  exact := by
    rw [kerrMaxwellEz_iff _ kopt_valid rfl]
    have h := psim_bornMat (fun _ _ => -20 * Complex.I) (fun _ _ => 1) (fun _ _ => 1)
    have h' : bornMat kopt.simulation (fun _ _ => 1) = bornMat (psim fun _ _ => -20 * Complex.I) (fun _ _ => 1) := rfl
    rw [h', h]
    refine flat_ext fun i j => ?_
    show _ = flatten (fun _ _ => -20 * Complex.I : Grid 2 2 ℂ) (finProdFinEquiv (i, j)) * Complex.I * ((1 : ℝ) : ℂ)
    rw [flatten_pair, flatten_pair]
    simp only [norm_one, one_pow, Complex.ofReal_one, mul_one, sub_self, mul_zero, zero_add]
    have := Complex.I_mul_I
    linear_combination 20 * this
  regular := psim_regular fun _ _ => -20 * Complex.I
  autograd := fun x _ => intensityJ_autograd x

/-- Non-vacuity of C31: at the exact uniform field, the gradient of the intensity at each pixel is the derivative along the branch of exact solutions, and the adjoint halves
are conjugate. -/
example (env : Env) (he : env.Exact) (i0 j0 : Fin 2) : ∃ g, (Opt.compute_dJ env kopt).1 = .ok g ∧ ∃ E, Spec.KerrBranch kopt (fun _ _ => 1) (fun _ _ => 1) i0 j0 E ∧
    HasDerivAt (fun t => (intensityJ 2 2).eval fun _ => E t) (g i0 j0) 0 := by
  obtain ⟨g, hg, ⟨E, hE⟩, h⟩ := C31_gradient_exact_unfiltered env he kopt _ _ _ _ (kopt_setup env) rfl (fun _ _ => Or.inr rfl) i0 j0 rfl
  refine ⟨g, hg, E, hE, h E hE (fun t _ => E t) fun t k a hk => ?_⟩
  have hk0 : (k : ℕ) = 0 := by
    have : (k : ℕ) < 1 := k.2
    omega
  rw [hk0] at hk
  cases hk
  rfl

end Angler
