import Verif.Lemmas.GradientApprox
import Verif.Props.GradientKerr
import Verif.Props.KerrBorder
import Verif.Props.NewtonConverges

/-! # C82 — gradients from approximately converged Kerr fields

`grad_kerr_Ez` mixes the field stored by the nonlinear solve with the matrices `Anl`, `dnl_de` of the pass before, and a solver stops at a threshold, so the stored fields never solve the Kerr
equation exactly as C31 asks.  The computed gradient is nevertheless close to the exact one when the fields are close to the solution. -/

namespace Angler

open Matrix Filter Topology

variable {Nx Ny : ℕ}

/-! ## Specification -/

/-- Two optimisations of the same device that differ at most in stored fields and in what the nonlinear solver left behind. -/
structure Spec.OnlyFieldsDiffer (o o' : Opt Nx Ny) : Prop where
  region : o'.design_region = o.design_region
  filter : o'.W = o.W
  eps_m : o'.eps_m = o.eps_m
  eta : o'.eta = o.eta
  beta : o'.beta = o.beta
  sim : ∃ fl fn en de dp A, o'.simulation = { o.simulation with fields := fl, fields_nl := fn, eps_nl := en, dnl_de := de, dnl_deps := dp, Anl := A }

/-! ## Continuity -/

theorem tendsto_entry {ι : Type*} {l : Filter ι} {E : ι → Grid Nx Ny ℂ} {Z : Grid Nx Ny ℂ} (h : Tendsto E l (𝓝 Z)) (i : Fin Nx) (j : Fin Ny) : Tendsto (fun t => E t i j) l (𝓝 (Z i j)) :=
  tendsto_pi_nhds.1 (tendsto_pi_nhds.1 h i) j

theorem tendsto_flatten {ι : Type*} {l : Filter ι} {E : ι → Grid Nx Ny ℂ} {Z : Grid Nx Ny ℂ} (h : Tendsto E l (𝓝 Z)) (k : Fin (Nx * Ny)) : Tendsto (fun t => flatten (E t) k) l (𝓝 (flatten Z k)) := by
  obtain ⟨⟨i, j⟩, rfl⟩ := finProdFinEquiv.surjective k
  simp only [flatten_pair]
  exact tendsto_entry h i j

theorem tendsto_dnl_de {ι : Type*} {l : Filter ι} (s : Sim Nx Ny) {E : ι → Grid Nx Ny ℂ} {Z : Grid Nx Ny ℂ} (h : Tendsto E l (𝓝 Z)) :
    Tendsto (fun t => (s.compute_nl (E t)).dnl_de) l (𝓝 (s.compute_nl Z).dnl_de) := by
  refine tendsto_pi_nhds.2 fun i => tendsto_pi_nhds.2 fun j => ?_
  simp only [compute_nl_dnl_de]
  exact tendsto_const_nhds.mul ((Complex.continuous_conj.tendsto _).comp (tendsto_entry h i j))

theorem tendsto_list_sum {ι α : Type*} {l : Filter ι} (L : List α) (f : α → ι → ℂ) (g : α → ℂ) (h : ∀ a ∈ L, Tendsto (f a) l (𝓝 (g a))) :
    Tendsto (fun t => (L.map fun a => f a t).sum) l (𝓝 (L.map g).sum) := by
  induction L with
  | nil => simpa using tendsto_const_nhds
  | cons a L ih =>
    simp only [List.map_cons, List.sum_cons]
    exact (h a (List.mem_cons_self ..)).add (ih fun b hb => h b (List.mem_cons_of_mem _ hb))

theorem tendsto_dnl_deps {ι : Type*} {l : Filter ι} (s : Sim Nx Ny) {E : ι → Grid Nx Ny ℂ} {Z : Grid Nx Ny ℂ} (h : Tendsto E l (𝓝 Z)) (i : Fin Nx) (j : Fin Ny) :
    Tendsto (fun t => (s.compute_nl (E t)).dnl_deps i j) l (𝓝 ((s.compute_nl Z).dnl_deps i j)) := by
  simp only [compute_nl_dnl_deps]
  refine tendsto_list_sum _ (fun (n : Nonlinearity Nx Ny) t => n.dnl_deps (E t) s.eps_r i j) (fun n => n.dnl_deps Z s.eps_r i j) fun n _ => ?_
  have hn : Tendsto (fun t => ((‖E t i j‖ ^ 2 : ℝ) : ℂ)) l (𝓝 ((‖Z i j‖ ^ 2 : ℝ) : ℂ)) := (Complex.continuous_ofReal.tendsto _).comp ((tendsto_entry h i j).norm.pow 2)
  cases hs : n.scale with
  | none =>
    simp only [Nonlinearity.dnl_deps, hs]
    exact tendsto_const_nhds
  | some m =>
    simp only [Nonlinearity.dnl_deps, hs]
    exact (tendsto_const_nhds.mul hn).mul tendsto_const_nhds

theorem tendsto_spdiag {n : ℕ} {ι : Type*} {l : Filter ι} {v : ι → Vec n ℂ} {w : Vec n ℂ} (h : ∀ k, Tendsto (fun t => v t k) l (𝓝 (w k))) (i j : Fin n) :
    Tendsto (fun t => spdiag (v t) i j) l (𝓝 (spdiag w i j)) := by
  have e : ∀ u : Vec n ℂ, spdiag u i j = if i = j then u i else 0 := fun u => Matrix.diagonal_apply ..
  simp only [e]
  by_cases hij : i = j
  · simp only [hij, if_true]
    exact h j
  · simp only [hij, if_false]
    exact tendsto_const_nhds

theorem tendsto_kerrD11 {ι : Type*} {l : Filter ι} (s : Sim Nx Ny) {E1 E : ι → Grid Nx Ny ℂ} {Z : Grid Nx Ny ℂ} (h1 : Tendsto E1 l (𝓝 Z)) (h : Tendsto E l (𝓝 Z)) (i j : Fin (Nx * Ny)) :
    Tendsto (fun t => kerrD11 s (E1 t) (E t) i j) l (𝓝 (kerrD11 s Z Z i j)) := by
  have e : ∀ F1 F, kerrD11 s F1 F i j = s.A i j + kerrMat s F1 i j +
      spdiag (fun k => ((s.omega : ℂ) ^ 2 * ((EPSILON_0 * s.L0 : ℝ) : ℂ) * flatten (s.compute_nl F1).dnl_de k) * flatten F k) i j := fun F1 F => rfl
  simp only [e]
  refine (tendsto_const_nhds.add ?_).add ?_
  · refine tendsto_spdiag (fun k => ?_) i j
    obtain ⟨⟨i, j⟩, rfl⟩ := finProdFinEquiv.surjective k
    simp only [flatten_pair]
    exact tendsto_const_nhds.mul (tendsto_const_nhds.mul ((Complex.continuous_ofReal.tendsto _).comp ((tendsto_entry h1 i j).norm.pow 2)))
  · exact tendsto_spdiag (fun k => (tendsto_const_nhds.mul (tendsto_flatten (tendsto_dnl_de s h1) k)).mul (tendsto_flatten h k)) i j

theorem tendsto_kerrD12 {ι : Type*} {l : Filter ι} (s : Sim Nx Ny) {E1 E : ι → Grid Nx Ny ℂ} {Z : Grid Nx Ny ℂ} (h1 : Tendsto E1 l (𝓝 Z)) (h : Tendsto E l (𝓝 Z)) (i j : Fin (Nx * Ny)) :
    Tendsto (fun t => kerrD12 s (E1 t) (E t) i j) l (𝓝 (kerrD12 s Z Z i j)) :=
  tendsto_spdiag (fun k => ((Complex.continuous_conj.tendsto _).comp (tendsto_const_nhds.mul (tendsto_flatten (tendsto_dnl_de s h1) k))).mul (tendsto_flatten h k)) i j

theorem tendsto_stackConj {n : ℕ} {ι : Type*} {l : Filter ι} {A B : ι → Mat n ℂ} {A0 B0 : Mat n ℂ} (hA : ∀ i j, Tendsto (fun t => A t i j) l (𝓝 (A0 i j)))
    (hB : ∀ i j, Tendsto (fun t => B t i j) l (𝓝 (B0 i j))) : Tendsto (fun t => (stackConj (A t) (B t))ᵀ) l (𝓝 (stackConj A0 B0)ᵀ) := by
  refine tendsto_pi_nhds.2 fun i => tendsto_pi_nhds.2 fun j => ?_
  have e : ∀ P Q : Mat n ℂ, (stackConj P Q)ᵀ i j = Matrix.fromBlocks P Q (Q.map (starRingEnd ℂ)) (P.map (starRingEnd ℂ)) (finSumFinEquiv.symm j) (finSumFinEquiv.symm i) := fun _ _ => rfl
  simp only [e]
  generalize finSumFinEquiv.symm j = p
  generalize finSumFinEquiv.symm i = q
  rcases p with p | p <;> rcases q with q | q
  · exact hA p q
  · exact hB p q
  · exact (Complex.continuous_conj.tendsto _).comp (hB p q)
  · exact (Complex.continuous_conj.tendsto _).comp (hA p q)

theorem tendsto_stackVec {n : ℕ} {ι : Type*} {l : Filter ι} {b : ι → Vec n ℂ} {b0 : Vec n ℂ} (h : ∀ k, Tendsto (fun t => b t k) l (𝓝 (b0 k))) :
    Tendsto (fun t => stackVec (b t)) l (𝓝 (stackVec b0)) := by
  refine tendsto_pi_nhds.2 fun k => ?_
  refine Fin.addCases (fun k => ?_) (fun k => ?_) k
  · simp only [stackVec, Fin.append_left]
    exact h k
  · simp only [stackVec, Fin.append_right]
    exact (Complex.continuous_conj.tendsto _).comp (h k)

theorem tendsto_kerrAdj2 {ι : Type*} {l : Filter ι} {env : Env} (he : env.Exact) (s : Sim Nx Ny) {E1 E p : ι → Grid Nx Ny ℂ} {Z q : Grid Nx Ny ℂ} (h1 : Tendsto E1 l (𝓝 Z))
    (h : Tendsto E l (𝓝 Z)) (hp : Tendsto p l (𝓝 q)) (hdet : (stackConj (kerrC11 s Z) (kerrC12 s Z)).det ≠ 0) :
    Tendsto (fun t => kerrAdj2 env s (E1 t) (E t) (p t)) l (𝓝 (kerrAdj2 env s Z Z q)) := by
  refine tendsto_solver he (tendsto_stackConj (tendsto_kerrD11 s h1 h) (tendsto_kerrD12 s h1 h)) (tendsto_stackVec fun k => (tendsto_flatten hp k).neg) ?_
  rw [Matrix.det_transpose]
  exact hdet

theorem tendsto_argGrad2 {ι : Type*} {l : Filter ι} {env : Env} (he : env.Exact) (o : Opt Nx Ny) (rho : Grid Nx Ny ℝ) {E1 E p : ι → Grid Nx Ny ℂ} {Z q : Grid Nx Ny ℂ}
    (h1 : Tendsto E1 l (𝓝 Z)) (h : Tendsto E l (𝓝 Z)) (hp : Tendsto p l (𝓝 q)) (hdet : (stackConj (kerrC11 o.simulation Z) (kerrC12 o.simulation Z)).det ≠ 0) (a : ObjArg)
    (hA : a.nl = false → o.simulation.A.det ≠ 0) (i0 : Fin Nx) (j0 : Fin Ny) :
    Tendsto (fun t => argGrad2 env o rho (E1 t) (E t) (p t) a i0 j0) l (𝓝 (argGrad2 env o rho Z Z q a i0 j0)) := by
  unfold argGrad2
  cases hn : a.nl with
  | true =>
    simp only [if_true, tail_kerr_apply]
    refine (Complex.continuous_re.tendsto _).comp (tendsto_finsetSum _ fun i _ => tendsto_finsetSum _ fun j _ => ?_)
    have hadj := tendsto_kerrAdj2 he o.simulation h1 h hp hdet
    refine Tendsto.mul (tendsto_pi_nhds.1 hadj _) ?_
    exact (tendsto_const_nhds.mul ((tendsto_const_nhds.add (tendsto_dnl_deps o.simulation h i j)).mul tendsto_const_nhds)).mul (tendsto_entry h i j)
  | false =>
    simp only [Bool.false_eq_true, if_false, tail_Ez_apply]
    refine (Complex.continuous_re.tendsto _).comp (tendsto_finsetSum _ fun i _ => tendsto_finsetSum _ fun j _ => ?_)
    have hb : Tendsto (fun t => -(linPart o.simulation (p t) a.component)) l (𝓝 (-(linPart o.simulation q a.component))) := by
      refine Tendsto.neg ?_
      have hf : Tendsto (fun t => flatten (p t)) l (𝓝 (flatten q)) := tendsto_pi_nhds.2 (tendsto_flatten hp)
      have hm : ∀ M : Mat (Nx * Ny) ℂ, Tendsto (fun t => M *ᵥ flatten (p t)) l (𝓝 (M *ᵥ flatten q)) := by
        intro M
        refine tendsto_pi_nhds.2 fun k => ?_
        simp only [mulVec_eq_sum']
        exact tendsto_finsetSum _ fun m _ => tendsto_const_nhds.mul (tendsto_flatten hp m)
      cases a.component with
      | Hx => exact tendsto_pi_nhds.2 fun k => tendsto_const_nhds.mul (tendsto_pi_nhds.1 (hm _) k)
      | Hy => exact tendsto_pi_nhds.2 fun k => tendsto_const_nhds.mul (tendsto_pi_nhds.1 (hm _) k)
      | Ez => exact hf
      | Ex => exact hf
      | Ey => exact hf
      | Hz => exact hf
    have hsol := tendsto_solver he (M := fun _ : ι => o.simulation.Aᵀ) tendsto_const_nhds hb (by rw [Matrix.det_transpose]; exact hA hn)
    exact Tendsto.mul (tendsto_pi_nhds.1 hsol _) tendsto_const_nhds

theorem OnlyFieldsDiffer.argGrad2_eq {o o' : Opt Nx Ny} (h : Spec.OnlyFieldsDiffer o o') (env : Env) (rho : Grid Nx Ny ℝ) (E1 E p : Grid Nx Ny ℂ) (a : ObjArg) :
    argGrad2 env o' rho E1 E p a = argGrad2 env o rho E1 E p a := by
  obtain ⟨hr, hW, hm, heta, hb, fl, fn, en, de, dp, A, hs⟩ := h
  obtain ⟨ob', s', r', W', m', eta', b', mi', sa', ol', fc', fa'⟩ := o'
  simp only at hr hW hm heta hb hs
  subst hr hW hm heta hb hs
  rfl

theorem OnlyFieldsDiffer.argField_eq {o o' : Opt Nx Ny} (h : Spec.OnlyFieldsDiffer o o') (env : Env) (E : Grid Nx Ny ℂ) (a : ObjArg) :
    argField env o'.simulation E a = argField env o.simulation E a := by
  obtain ⟨-, -, -, -, -, fl, fn, en, de, dp, A, hs⟩ := h
  rw [hs]
  unfold argField
  cases a.component <;> rfl

/-! ## The theorems -/

/-- **C82, continuity.** At an exact, regular Kerr solution `Z` with correct and continuous `autograd` partials: for every accuracy there is a distance such that any optimisation of the same device whose
stored nonlinear field, and the field from which `Anl` and `dnl_de` were computed, are within that distance of `Z` computes a gradient within the accuracy of the exact one, at every pixel. -/
theorem C82_gradient_continuous (env : Env) (he : env.Exact) (o : Opt Nx Ny) (J : ObjFn Nx Ny) (args : List ObjArg) (rho : Grid Nx Ny ℝ) (Z : Grid Nx Ny ℂ)
    (hS : Spec.KerrEz env o J args rho Z)
    (hJ : ∀ x, (∀ (k : Fin J.arity) a, args[(k : ℕ)]? = some a → (if a.nl then o.simulation.fields_nl a.component else o.simulation.fields a.component) = some (x k)) →
      ∀ k, ContinuousAt (J.partials k) x) :
    ∃ g, (Opt.compute_dJ env o).1 = .ok g ∧ ∀ ε > 0, ∃ η > 0, ∀ o' E E1, Spec.KerrApprox env o' J args rho E E1 → Spec.OnlyFieldsDiffer o o' → (∀ i j, ‖E i j - Z i j‖ < η) →
      (∀ i j, ‖E1 i j - Z i j‖ < η) → ∃ g', (Opt.compute_dJ env o').1 = .ok g' ∧ ∀ i j, |g' i j - g i j| < ε := by
  obtain ⟨hlen, hg⟩ := kerr_compute_dJ env o J args rho Z hS
  refine ⟨_, hg, fun ε hε => ?_⟩
  let arg : Fin J.arity → ObjArg := fun k => args.get (k.cast hlen.symm)
  have harg : ∀ k, arg k ∈ args := fun k => List.get_mem _ _
  have hget : ∀ k : Fin J.arity, args[(k : ℕ)]? = some (arg k) := by
    intro k
    have hlt : (k : ℕ) < args.length := by rw [hlen]; exact k.2
    rw [List.getElem?_eq_getElem hlt]
    rfl
  obtain ⟨t0, ht0, hst0⟩ := solve_fields_Ez env o.simulation hS.pol
  have hpart := hJ (fun k => argField env o.simulation Z (arg k)) (by
    intro k a hk
    have hak : a = arg k := by
      rw [hget k] at hk
      exact (Option.some.inj hk).symm
    rw [hak]
    rcases kinds_cases (hS.kinds _ (harg k)) with ⟨h2, h3, -⟩ | ⟨h2, h3, -⟩
    · simp only [h2, argField, Bool.false_eq_true, if_false]
      have h1 : o.simulation.fields (arg k).component = (o.simulation.solve_fields env).2.fields (arg k).component := by
        refine hS.linear _ ?_ ⟨_, harg k, h2⟩
        generalize (arg k).component = c at h3
        cases c <;> simp_all [Comp.isEz]
      rw [h1, ht0]
      exact hst0 _ h3
    · simp only [h2, h3, argField, if_true]
      exact hS.nonlinear)
  have hdet := kerrC_det o.simulation Z (kerr_real hS.eps) hS.regular
  let F : (Fin J.arity → Grid Nx Ny ℂ) × Grid Nx Ny ℂ → Grid Nx Ny ℝ := fun q i j => ∑ k : Fin J.arity,
    argGrad2 env o rho (q.1 k) q.2 (J.partials k fun m => argField env o.simulation q.2 (arg m)) (arg k) i j
  have hF : ContinuousAt F (fun _ => Z, Z) := by
    refine tendsto_pi_nhds.2 fun i => tendsto_pi_nhds.2 fun j => tendsto_finsetSum _ fun k _ => ?_
    have h2 : Tendsto (fun q : (Fin J.arity → Grid Nx Ny ℂ) × Grid Nx Ny ℂ => q.2) (𝓝 (fun _ => Z, Z)) (𝓝 Z) := continuous_snd.tendsto _
    have h1 : Tendsto (fun q : (Fin J.arity → Grid Nx Ny ℂ) × Grid Nx Ny ℂ => q.1 k) (𝓝 (fun _ => Z, Z)) (𝓝 Z) := ((continuous_apply k).comp continuous_fst).tendsto (fun _ => Z, Z)
    refine tendsto_argGrad2 he o rho h1 h2 ?_ hdet (arg k) (fun hn => hS.det ⟨_, harg k, hn⟩) i j
    have hx : Tendsto (fun q : (Fin J.arity → Grid Nx Ny ℂ) × Grid Nx Ny ℂ => fun m => argField env o.simulation q.2 (arg m)) (𝓝 (fun _ => Z, Z))
        (𝓝 fun m => argField env o.simulation Z (arg m)) := by
      refine tendsto_pi_nhds.2 fun m => ?_
      unfold argField
      cases (arg m).nl with
      | true => simpa using h2
      | false => simp
    exact Tendsto.comp (hpart k) hx
  obtain ⟨η, hη, hball⟩ := Metric.continuousAt_iff.1 hF ε hε
  refine ⟨η, hη, fun o' E E1 ho' hsame hE hE1 => ?_⟩
  obtain ⟨hlen', ch, hch, hg'⟩ := approx_compute_dJ env o' J args rho E E1 ho'
  refine ⟨_, hg', fun i j => ?_⟩
  have hdist : ∀ G : Grid Nx Ny ℂ, (∀ i j, ‖G i j - Z i j‖ < η) → dist G Z < η := by
    intro G hG
    refine (dist_pi_lt_iff hη).2 fun i => (dist_pi_lt_iff hη).2 fun j => ?_
    rw [dist_eq_norm]
    exact hG i j
  have h3 := @hball (ch, E) (by
    rw [Prod.dist_eq]
    refine max_lt ((dist_pi_lt_iff hη).2 fun k => ?_) (hdist E hE)
    rcases hch k with h | h
    · show dist (ch k) Z < η; rw [h]; exact hdist E hE
    · show dist (ch k) Z < η; rw [h]; exact hdist E1 hE1)
  have h4 := (dist_pi_lt_iff hε).1 ((dist_pi_lt_iff hε).1 h3 i) j
  rw [Real.dist_eq] at h4
  have e1 : F (ch, E) i j = ∑ k : Fin J.arity, argGrad2 env o' rho (ch k) E (J.partials k fun m => argField env o'.simulation E (args.get (m.cast hlen.symm))) (args.get (k.cast hlen.symm)) i j := by
    simp only [F, arg, OnlyFieldsDiffer.argGrad2_eq hsame, OnlyFieldsDiffer.argField_eq hsame]
  rw [e1] at h4
  exact h4

/-- **C82, against the derivative.** At a pixel where the filter is symmetric the limit is the derivative of the objective along the branch of exact solutions. -/
theorem C82_gradient_near_derivative (env : Env) (he : env.Exact) (o : Opt Nx Ny) (J : ObjFn Nx Ny) (args : List ObjArg) (rho : Grid Nx Ny ℝ) (Z : Grid Nx Ny ℂ)
    (hS : Spec.KerrEz env o J args rho Z)
    (hJ : ∀ x, (∀ (k : Fin J.arity) a, args[(k : ℕ)]? = some a → (if a.nl then o.simulation.fields_nl a.component else o.simulation.fields a.component) = some (x k)) →
      ∀ k, ContinuousAt (J.partials k) x) (i0 : Fin Nx) (j0 : Fin Ny) (hW : Spec.FilterSym o.W o.design_region i0 j0) :
    ∃ d, (∃ E, Spec.KerrBranch o rho Z i0 j0 E) ∧
      (∀ E, Spec.KerrBranch o rho Z i0 j0 E → ∀ x : ℝ → Fin J.arity → Grid Nx Ny ℂ, (∀ t, Spec.FieldsAt env (Spec.simAt o (Spec.bump rho i0 j0 t)) (E t) args (x t)) →
        HasDerivAt (fun t => J.eval (x t)) d 0) ∧
      ∀ ε > 0, ∃ η > 0, ∀ o' E E1, Spec.KerrApprox env o' J args rho E E1 → Spec.OnlyFieldsDiffer o o' → (∀ i j, ‖E i j - Z i j‖ < η) →
        (∀ i j, ‖E1 i j - Z i j‖ < η) → ∃ g', (Opt.compute_dJ env o').1 = .ok g' ∧ |g' i0 j0 - d| < ε := by
  obtain ⟨g, hg, h1⟩ := C82_gradient_continuous env he o J args rho Z hS hJ
  obtain ⟨g2, hg2, h2, h3⟩ := C31_gradient_exact_partial env he o J args rho Z hS i0 j0 hW
  obtain rfl : g = g2 := by
    rw [hg] at hg2
    exact Except.ok.inj hg2
  refine ⟨g i0 j0, h2, h3, fun ε hε => ?_⟩
  obtain ⟨η, hη, h4⟩ := h1 ε hε
  refine ⟨η, hη, fun o' E E1 ha hd hE hE1 => ?_⟩
  obtain ⟨g', hg', h5⟩ := h4 o' E E1 ha hd hE hE1
  exact ⟨g', hg', h5 i0 j0⟩

/-! ## The Born solver on weak Kerr devices -/

/-- An optimisation of a Kerr device with nonlinear Ez arguments only; nothing is asked of the stored fields. -/
structure Spec.KerrSetup (o : Opt Nx Ny) (J : ObjFn Nx Ny) (args : List ObjArg) (rho : Grid Nx Ny ℝ) : Prop where
  obj : Objective.init J args = .ok o.objective
  kinds : ∀ a ∈ args, ObjArg.init "Ez" true = .ok a
  nonempty : args ≠ []
  valid : o.simulation.Valid
  pol : o.simulation.pol = .Ez
  density : o.simulation.rho = some (some rho)
  eps : o.simulation.eps_r = fun i j => ((rho2eps rho o.eps_m o.W o.eta o.beta i j : ℝ) : ℂ)
  beta : o.beta ≠ 0

/-- A weak Kerr device is regular at every field within the bound. -/
theorem Spec.WeakKerr.regular {s : Sim Nx Ny} {m κ R : ℝ} (h : Spec.WeakKerr s m κ R) (hv : s.Valid) (hp : s.pol = .Ez) (hx : 1 < Nx) (hy : 1 < Ny) (Z : Grid Nx Ny ℂ) (hZ : ‖Z‖ ≤ R) :
    Spec.KerrRegular s Z := by
  intro f hf
  have hm := margin_pos h.coarse
  have hR := h.R_nonneg hv hx hy
  have hk := h.kappa_nonneg hx hy
  set c : ℝ := s.omega ^ 2 * EPSILON_0 * s.L0 with hcdef
  have hc : 0 ≤ c := by have := EPSILON_0_pos; have := hv.L0_pos; positivity
  have hn : ∀ i j, (((‖Z i j‖ ^ 2 : ℝ)) : ℂ) = Z i j * (starRingEnd ℂ) (Z i j) := fun i j => by
    rw [← Complex.normSq_eq_norm_sq, ← Complex.mul_conj]
  have hb := h.frozen_bound hv hp hx hy Z f
    (fun i j => -((c : ℂ) * Spec.kerrSum s.nonlinearity s.eps_r i j * (Z i j * (starRingEnd ℂ) (Z i j) * f i j + Z i j * Z i j * (starRingEnd ℂ) (f i j)))) (by
      unfold bornMat
      rw [Matrix.add_mulVec, kerrMat_mulVec]
      refine flat_ext fun i j => ?_
      simp only [Pi.add_apply, flatten_pair, hn, ← hcdef]
      linear_combination hf i j)
  have hle : ‖(fun i j => -((c : ℂ) * Spec.kerrSum s.nonlinearity s.eps_r i j * (Z i j * (starRingEnd ℂ) (Z i j) * f i j + Z i j * Z i j * (starRingEnd ℂ) (f i j))) : Grid Nx Ny ℂ)‖ ≤
      2 * c * κ * R ^ 2 * ‖f‖ := by
    refine (pi_norm_le_iff_of_nonneg (by positivity)).2 fun i => (pi_norm_le_iff_of_nonneg (by positivity)).2 fun j => ?_
    have h1 : ‖Z i j‖ ≤ R := (norm_entry_le _ _ _).trans hZ
    have h2 := norm_entry_le f i j
    have h3 := h.kerr i j
    rw [norm_neg, norm_mul, norm_mul, Complex.norm_real, Real.norm_of_nonneg hc]
    have h4 : ‖Z i j * (starRingEnd ℂ) (Z i j) * f i j + Z i j * Z i j * (starRingEnd ℂ) (f i j)‖ ≤ 2 * R ^ 2 * ‖f‖ := by
      refine (norm_add_le _ _).trans ?_
      simp only [norm_mul, RCLike.norm_conj]
      have : ‖Z i j‖ * ‖Z i j‖ * ‖f i j‖ ≤ R * R * ‖f‖ := by gcongr
      linarith
    calc c * ‖Spec.kerrSum s.nonlinearity s.eps_r i j‖ * _ ≤ c * κ * (2 * R ^ 2 * ‖f‖) := by gcongr
      _ = 2 * c * κ * R ^ 2 * ‖f‖ := by ring
  have h0 : ‖f‖ = 0 := by
    have hw := h.weak
    rw [← hcdef] at hw
    have := hb.trans hle
    by_contra hne
    have hpos : 0 < ‖f‖ := lt_of_le_of_ne (norm_nonneg _) (Ne.symm hne)
    nlinarith
  exact norm_eq_zero.1 h0

/-- With tight settings the Born solver leaves both the returned field and the field before it close to the solution. -/
theorem Spec.WeakKerr.born_near {s : Sim Nx Ny} {m κ R : ℝ} (h : Spec.WeakKerr s m κ R) {env : Env} (he : env.Exact) (hv : s.Valid) (hp : s.pol = .Ez) (hx : 1 < Nx) (hy : 1 < Ny)
    {Z : Grid Nx Ny ℂ} (hZ : ∀ i j, Spec.nlResidual s Z i j = 0) (η : ℝ) (hη : 0 < η) :
    ∃ (N : ℕ) (thr0 : ℝ), 0 < thr0 ∧ ∀ n, N ≤ n → ∀ thr ≤ thr0, (∀ e, s.fields .Ez = some e → ∀ i j, ‖e i j‖ ≤ R) → ∀ r s', solve_fields_nl env s none .born thr n = (.ok r, s') →
      ∃ G fl fn, s' = { ({ s with fields := fl } : Sim Nx Ny).compute_nl G with fields_nl := fn } ∧ fn .Ez = some r.Fz ∧ (∀ i j, ‖r.Fz i j - Z i j‖ < η) ∧ ∀ i j, ‖G i j - Z i j‖ < η := by
  have hfix := (nlResidual_zero_iff he s Z (h.bornMat_det hv hp hx hy Z)).1 hZ
  have hZR : ‖Z‖ ≤ R := by rw [← hfix]; exact h.step_bound he hv hp hx hy Z
  have hR := h.R_nonneg hv hx hy
  obtain ⟨hq0, hq1⟩ := h.rate_mem hv hx hy
  set q := Spec.bornRate s m κ R with hq
  set C : ℝ := Real.sqrt (Nx * Ny) with hC
  have hC0 : 0 ≤ C := Real.sqrt_nonneg _
  have hlim : Tendsto (fun k : ℕ => q ^ k * (2 * R)) atTop (𝓝 0) := by
    simpa using (tendsto_pow_atTop_nhds_zero_of_lt_one hq0 hq1).mul_const (2 * R)
  obtain ⟨K, hK⟩ := (hlim.eventually (gt_mem_nhds hη)).exists
  have hsmall : ∀ k, K ≤ k → q ^ k * (2 * R) < η := fun k hk => lt_of_le_of_lt (mul_le_mul_of_nonneg_right (pow_le_pow_of_le_one hq0 hq1.le hk) (by positivity)) hK
  have h1q : 0 < 1 - q := by linarith
  refine ⟨K + 2, η * (1 - q) / (C * R + 1), by positivity, fun n hn thr hthr hE r s' hr => ?_⟩
  obtain ⟨n, rfl⟩ : ∃ p, n = p + 1 := ⟨n - 1, by omega⟩
  obtain ⟨E0, fl, k, conv, hst, hk, heq, hnot, hstop, hlen, hrow, hzero⟩ := born_solve_spec env s none thr n
  unfold solve_fields_nl at hr
  simp only [heq, Prod.mk.injEq, Except.ok.injEq] at hr
  obtain ⟨rfl, rfl⟩ := hr
  refine ⟨bornIter env s E0 k, fl, _, rfl, ?_, ?_⟩
  · show Sim.store s.pol _ _ _ = _
    rw [hp]
    rfl
  have hE0 : ‖E0‖ ≤ R := h.start_bound he hv hp hx hy hE hst
  have hball : ‖bornIter env s E0 k‖ ≤ R := by
    cases k with
    | zero => exact hE0
    | succ k => rw [bornIter_succ]; exact h.step_bound he hv hp hx hy _
  have hstep : ‖bornIter env s E0 (k + 1) - Z‖ ≤ q * ‖bornIter env s E0 k - Z‖ := by
    have := h.step_contracts he hv hp hx hy _ _ hball hZR
    rwa [hfix, ← bornIter_succ] at this
  have hFR : ‖bornIter env s E0 (k + 1)‖ ≤ R := by rw [bornIter_succ]; exact h.step_bound he hv hp hx hy _
  have hG : ‖bornIter env s E0 k - Z‖ < η := by
    rcases hstop with hlt | rfl
    · unfold bornConv at hlt
      set F := bornIter env s E0 (k + 1)
      set G := bornIter env s E0 k
      obtain ⟨c1, c2, c3⟩ := convergence_spec F G
      have hF0 : F ≠ 0 := by
        intro h0
        by_cases hG0 : G = 0
        · rw [c3 h0 hG0] at hlt; exact hlt
        · rw [c2 h0 hG0] at hlt; exact hlt
      rw [c1 hF0] at hlt
      have hlt' : Real.sqrt (∑ i, ∑ j, ‖F i j - G i j‖ ^ 2) / Real.sqrt (∑ i, ∑ j, ‖F i j‖ ^ 2) < thr := hlt
      have hpos : 0 < Real.sqrt (∑ i, ∑ j, ‖F i j‖ ^ 2) := lt_of_lt_of_le (norm_pos_iff.2 hF0) (norm_le_laNorm' F)
      rw [div_lt_iff₀ hpos] at hlt'
      have hFG : ‖F - G‖ < thr * Real.sqrt (∑ i, ∑ j, ‖F i j‖ ^ 2) := lt_of_le_of_lt (norm_le_laNorm' (F - G)) hlt'
      have hla : Real.sqrt (∑ i, ∑ j, ‖F i j‖ ^ 2) ≤ C * R := (laNorm_le_sqrt F).trans (mul_le_mul_of_nonneg_left hFR hC0)
      have htri : ‖G - Z‖ ≤ ‖F - Z‖ + ‖F - G‖ := by
        have := norm_sub_le (F - Z) (F - G)
        rwa [sub_sub_sub_cancel_left] at this
      have hFG2 : ‖F - G‖ < η * (1 - q) := by
        refine lt_of_lt_of_le hFG ?_
        have ht0 : 0 ≤ η * (1 - q) / (C * R + 1) := by positivity
        calc thr * Real.sqrt (∑ i, ∑ j, ‖F i j‖ ^ 2) ≤ η * (1 - q) / (C * R + 1) * (C * R) := by
              refine (mul_le_mul_of_nonneg_right hthr hpos.le).trans (mul_le_mul_of_nonneg_left hla ht0)
          _ ≤ η * (1 - q) / (C * R + 1) * (C * R + 1) := mul_le_mul_of_nonneg_left (by linarith) ht0
          _ = η * (1 - q) := div_mul_cancel₀ _ (by positivity)
      by_contra hcon
      have hcon' : η ≤ ‖G - Z‖ := not_lt.1 hcon
      nlinarith
    · obtain ⟨k, rfl⟩ : ∃ p, k = p + 1 := ⟨k - 1, by omega⟩
      exact lt_of_le_of_lt (h.iter_error he hv hp hx hy hfix E0 k).2 (hsmall k (by omega))
  have hF : ‖bornIter env s E0 (k + 1) - Z‖ < η := by
    refine lt_of_le_of_lt hstep ?_
    nlinarith [norm_nonneg (bornIter env s E0 k - Z)]
  exact ⟨fun i j => lt_of_le_of_lt (norm_entry_le (bornIter env s E0 (k + 1) - Z) i j) hF, fun i j => lt_of_le_of_lt (norm_entry_le (bornIter env s E0 k - Z) i j) hG⟩

/-- **C82, Born solver.** On a weak Kerr device, with a tight enough threshold and enough iterations allowed, the gradient computed from the fields the Born solver leaves is as close as desired to the
derivative of the objective along exact solutions. -/
theorem C82_born (env : Env) (he : env.Exact) (o : Opt Nx Ny) (J : ObjFn Nx Ny) (args : List ObjArg) (rho : Grid Nx Ny ℝ) (hS : Spec.KerrSetup o J args rho) (hx : 1 < Nx) (hy : 1 < Ny)
    (m κ R : ℝ) (h : Spec.WeakKerr o.simulation m κ R) (hE : ∀ e, o.simulation.fields .Ez = some e → ∀ i j, ‖e i j‖ ≤ R)
    (Z : Grid Nx Ny ℂ) (hZ : ∀ i j, Spec.nlResidual o.simulation Z i j = 0) (hJ : Spec.Autograd J fun _ => Z) (hJc : ∀ k, ContinuousAt (J.partials k) fun _ => Z)
    (i0 : Fin Nx) (j0 : Fin Ny) (hW : Spec.FilterSym o.W o.design_region i0 j0) :
    ∃ d, (∃ E, Spec.KerrBranch o rho Z i0 j0 E) ∧ (∀ E, Spec.KerrBranch o rho Z i0 j0 E → HasDerivAt (fun t => J.eval fun _ => E t) d 0) ∧
      ∀ ε > 0, ∃ (N : ℕ) (thr0 : ℝ), 0 < thr0 ∧ ∀ n, N ≤ n → ∀ thr ≤ thr0, ∃ r s' fs, solve_fields_nl env o.simulation none .born thr n = (.ok r, s') ∧ Opt.collect s' args = .ok fs ∧
        ∃ g, (Opt.compute_dJ env { o with simulation := s', field_arg_list := some fs, fields_current := true }).1 = .ok g ∧ |g i0 j0 - d| < ε := by
  have hfix := (nlResidual_zero_iff he o.simulation Z (h.bornMat_det hS.valid hS.pol hx hy Z)).1 hZ
  have hZR : ‖Z‖ ≤ R := by rw [← hfix]; exact h.step_bound he hS.valid hS.pol hx hy Z
  have hnl : ∀ a ∈ args, a.nl = true ∧ a.component = .Ez := by
    intro a ha
    rcases kinds_cases (Or.inr (hS.kinds a ha)) with ⟨h1, -⟩ | ⟨h1, h2, -⟩
    · have := hS.kinds a ha
      cases this
      cases h1
    · exact ⟨h1, h2⟩
  have hcol : ∀ (s1 : Sim Nx Ny) (E : Grid Nx Ny ℂ), s1.fields_nl .Ez = some E → Opt.collect s1 args = .ok (args.map fun _ => E) := by
    intro s1 E hs1
    exact collect_ok s1 (fun _ => E) args fun a ha => by
      rw [(hnl a ha).1, (hnl a ha).2]
      exact hs1
  let o0 : Opt Nx Ny := { o with simulation := { o.simulation.compute_nl Z with fields_nl := fun c => if c = .Ez then some Z else none }, field_arg_list := some (args.map fun _ => Z), fields_current := true }
  have hlen : args.length = J.arity := (objective_init_ok hS.obj).1
  have hxZ : ∀ x : Fin J.arity → Grid Nx Ny ℂ, (∀ (k : Fin J.arity) a, args[(k : ℕ)]? = some a → (if a.nl then o0.simulation.fields_nl a.component else o0.simulation.fields a.component) = some (x k)) →
      x = fun _ => Z := by
    intro x hx0
    funext k
    have hlt : (k : ℕ) < args.length := by rw [hlen]; exact k.2
    have h1 := hx0 k args[(k : ℕ)] (List.getElem?_eq_getElem hlt)
    obtain ⟨h2, h3⟩ := hnl _ (List.getElem_mem hlt)
    rw [h2, h3] at h1
    exact (Option.some.inj h1).symm
  have hv0 : o0.simulation.Valid := ⟨hS.valid.L0_pos, hS.valid.omega_pos, hS.valid.xr, hS.valid.yr, hS.valid.A_eq, hS.valid.derivs_eq⟩
  have hS0 : Spec.KerrEz env o0 J args rho Z :=
    { obj := hS.obj
      kinds := fun a ha => Or.inr (hS.kinds a ha)
      nonempty := hS.nonempty
      valid := hv0
      pol := hS.pol
      density := hS.density
      eps := hS.eps
      beta := hS.beta
      current := rfl
      linear := fun c _ ⟨a, ha, h1⟩ => by rw [(hnl a ha).1] at h1; cases h1
      nonlinear := rfl
      anl := rfl
      dnl := rfl
      collected := ⟨_, hcol _ Z rfl, rfl⟩
      det := fun ⟨a, ha, h1⟩ => by rw [(hnl a ha).1] at h1; cases h1
      exact := by
        rw [kerrMaxwellEz_iff _ hv0 hS.pol]
        have h1 := bornStep_solves he Z (h.bornMat_det hS.valid hS.pol hx hy Z)
        rw [hfix] at h1
        exact h1
      regular := h.regular hS.valid hS.pol hx hy Z hZR
      autograd := fun x hx0 => by rw [hxZ x hx0]; exact hJ }
  obtain ⟨d, h1, h2, h3⟩ := C82_gradient_near_derivative env he o0 J args rho Z hS0 (fun x hx0 k => by rw [hxZ x hx0]; exact hJc k) i0 j0 hW
  refine ⟨d, h1, fun E hEb => h2 E hEb (fun t _ => E t) fun t k a hk => ?_, fun ε hε => ?_⟩
  · have ha : a ∈ args := List.mem_of_getElem? hk
    rw [(hnl a ha).1]
    rfl
  · obtain ⟨η, hη, h4⟩ := h3 ε hε
    obtain ⟨N, thr0, ht0, h5⟩ := h.born_near he hS.valid hS.pol hx hy hZ η hη
    refine ⟨N + 1, thr0, ht0, fun n hn thr hthr => ?_⟩
    obtain ⟨n, rfl⟩ : ∃ p, n = p + 1 := ⟨n - 1, by omega⟩
    have hex : ∃ r s', solve_fields_nl env o.simulation none .born thr (n + 1) = (.ok r, s') := by
      obtain ⟨E0, fl, k, conv, -, -, heq, -⟩ := born_solve_spec env o.simulation none thr n
      unfold solve_fields_nl
      simp only [heq]
      exact ⟨_, _, rfl⟩
    obtain ⟨r, s', hr⟩ := hex
    obtain ⟨G, fl, fn, hs', hfn, hF, hG⟩ := h5 (n + 1) (by omega) thr hthr hE r s' hr
    have hfs : s'.fields_nl .Ez = some r.Fz := by rw [hs']; exact hfn
    refine ⟨r, s', _, hr, hcol s' r.Fz hfs, h4 _ r.Fz G ?_ ?_ hF hG⟩
    · refine ⟨hS.obj, fun a ha => Or.inr (hS.kinds a ha), hS.nonempty, ?_, ?_, rfl, fun c _ ⟨a, ha, h1⟩ => ?_, hfs, ?_, ?_, ⟨_, hcol s' r.Fz hfs, rfl⟩⟩
      · show s'.pol = _
        rw [hs']
        exact hS.pol
      · show s'.rho = _
        rw [hs']
        exact hS.density
      · rw [(hnl a ha).1] at h1
        cases h1
      · show s'.Anl = (s'.compute_nl G).Anl
        rw [hs']
        rfl
      · show s'.dnl_de = (s'.compute_nl G).dnl_de
        rw [hs']
        rfl
    · refine ⟨rfl, rfl, rfl, rfl, rfl, fl, fn, (o.simulation.compute_nl G).eps_nl, (o.simulation.compute_nl G).dnl_de, (o.simulation.compute_nl G).dnl_deps, (o.simulation.compute_nl G).Anl, ?_⟩
      show s' = _
      rw [hs']
      rfl

/-! ## A concrete case -/

/-- An optimisation of a Kerr device (`χ = 1`, density 0, `ε_m = 5`, no filter) with no stored fields. -/
noncomputable def copt (P : ℕ) (src : Grid Nx Ny ℂ) (J : ObjFn Nx Ny) : Opt Nx Ny where
  objective := Objective.mk' J [⟨.Ez, true, .kerr_Ez⟩]
  simulation := { cksim P 1 (fun _ _ => 1) src with rho := some (some fun _ _ => 0) }
  design_region := fun _ _ => 1
  W := 1
  eps_m := 5
  eta := 1 / 2
  beta := 1
  max_ind_shift := none
  src_amplitudes := []
  objfn_list := []
  fields_current := false
  field_arg_list := none

/-- A point source of strength 1/100 anywhere on any grid, objective the total nonlinear intensity: the gradient of the Born solver's fields converges to the derivative at every pixel. -/
example (env : Env) (he : env.Exact) (hx : 1 < Nx) (hy : 1 < Ny) (P : ℕ) (x i0 : Fin Nx) (y j0 : Fin Ny) :
    let o : Opt Nx Ny := copt P (fun i j => if i = x ∧ j = y then 1 / 100 else 0) (intensityJ Nx Ny)
    ∃ Z d, (∀ i j, Spec.nlResidual o.simulation Z i j = 0) ∧ (∃ E, Spec.KerrBranch o (fun _ _ => 0) Z i0 j0 E) ∧
      (∀ E, Spec.KerrBranch o (fun _ _ => 0) Z i0 j0 E → HasDerivAt (fun t => ∑ i, ∑ j, ((E t i j).re ^ 2 + (E t i j).im ^ 2)) d 0) ∧
      ∀ ε > 0, ∃ (N : ℕ) (thr0 : ℝ), 0 < thr0 ∧ ∀ n, N ≤ n → ∀ thr ≤ thr0, ∃ r s' fs, solve_fields_nl env o.simulation none .born thr n = (.ok r, s') ∧
        Opt.collect s' [⟨.Ez, true, .kerr_Ez⟩] = .ok fs ∧
        ∃ g, (Opt.compute_dJ env { o with simulation := s', field_arg_list := some fs, fields_current := true }).1 = .ok g ∧ |g i0 j0 - d| < ε := by
  intro o
  have hw0 := cksim_weak (Nx := Nx) (Ny := Ny) P 1 (1 / 100) zero_le_one (by norm_num) (by norm_num) (fun _ _ => 1) (fun i j => if i = x ∧ j = y then 1 / 100 else 0) (fun _ _ => by simp)
    (fun i j => by split_ifs <;> simp)
  have hw : Spec.WeakKerr o.simulation 1 (3 * 1) (9 * (1 / 100)) := ⟨hw0.perm, hw0.coarse, hw0.focusing, hw0.kerr, hw0.source, hw0.weak⟩
  have hv : o.simulation.Valid := { cksim_valid P 1 (fun _ _ => 1) (fun i j => if i = x ∧ j = y then (1 / 100 : ℂ) else 0) with }
  obtain ⟨Z, hZ, -, -⟩ := C76_unique_solution _ hv rfl hx hy _ _ _ hw
  have hS : Spec.KerrSetup o (intensityJ Nx Ny) [⟨.Ez, true, .kerr_Ez⟩] (fun _ _ => 0) :=
    { obj := rfl
      kinds := fun a ha => by rw [List.mem_singleton] at ha; rw [ha]; rfl
      nonempty := by simp
      valid := hv
      pol := rfl
      density := rfl
      eps := by
        show (fun _ _ => (1 : ℂ)) = fun i j => ((rho2eps (fun _ _ => 0) 5 1 (1 / 2) 1 i j : ℝ) : ℂ)
        rw [rho2eps_zero]
        simp
      beta := one_ne_zero }
  obtain ⟨d, h1, h2, h3⟩ := C82_born env he o _ _ _ hS hx hy _ _ _ hw (fun e h => by cases h) Z hZ (intensityJ_autograd _)
    (fun k => by
      refine Continuous.continuousAt ?_
      refine continuous_pi fun i => continuous_pi fun j => ?_
      exact continuous_const.mul (Complex.continuous_conj.comp ((continuous_apply j).comp ((continuous_apply i).comp (continuous_apply (0 : Fin 1)))))) i0 j0
    (filterSym_one (fun _ _ => Or.inr rfl) rfl)
  exact ⟨Z, d, hZ, h1, h2, h3⟩

end Angler
