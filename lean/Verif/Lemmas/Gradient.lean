import Verif.Model.Optimization
import Verif.Lemmas.Implicit
import Verif.Props.Projection
import Mathlib.Analysis.Calculus.FDeriv.Comp
import Mathlib.Analysis.Complex.RealDeriv
import Mathlib.Analysis.Calculus.Deriv.Comp

/-! # Lemmas for the adjoint gradients -/

namespace Angler

open Matrix Filter Topology

variable {Nx Ny : ℕ}

/-- The density changed by `t` at pixel `(i0, j0)`. -/
noncomputable def Spec.bump (rho : Grid Nx Ny ℝ) (i0 : Fin Nx) (j0 : Fin Ny) (t : ℝ) : Grid Nx Ny ℝ := fun i j => rho i j + if i = i0 ∧ j = j0 then t else 0

/-- What `autograd` is trusted to return: at the point `x` the objective is (real) differentiable, with derivative
`δ ↦ Re Σ_k Σ_ij (∂J/∂x_k)_ij δ_k,ij` (autograd's convention for complex arguments). -/
def Spec.Autograd (J : ObjFn Nx Ny) (x : Fin J.arity → Grid Nx Ny ℂ) : Prop :=
  ∃ L : (Fin J.arity → Grid Nx Ny ℂ) →L[ℝ] ℝ, (∀ δ, L δ = ∑ k, ∑ i, ∑ j, (J.partials k x i j * δ k i j).re) ∧ HasFDerivAt J.eval L x

theorem bump_zero (rho : Grid Nx Ny ℝ) (i0 : Fin Nx) (j0 : Fin Ny) : Spec.bump rho i0 j0 0 = rho := by
  funext i j
  simp [Spec.bump]

theorem rho2rhot_apply (rho : Grid Nx Ny ℝ) (W : Mat (Nx * Ny) ℝ) (i : Fin Nx) (j : Fin Ny) :
    rho2rhot rho W i j = ∑ p, ∑ q, W (finProdFinEquiv (i, j)) (finProdFinEquiv (p, q)) * rho p q := by
  simp only [rho2rhot, unflatten, mulVec, dotProduct]
  rw [sum_flat]
  simp only [flatten_pair]

theorem hasDerivAt_rho2rhot_path {r : ℝ → Grid Nx Ny ℝ} {r' : Grid Nx Ny ℝ} (hr : ∀ i j, HasDerivAt (fun t => r t i j) (r' i j) 0) (W : Mat (Nx * Ny) ℝ) (i : Fin Nx) (j : Fin Ny) :
    HasDerivAt (fun t => rho2rhot (r t) W i j) (rho2rhot r' W i j) 0 := by
  simp only [rho2rhot_apply]
  exact HasDerivAt.fun_sum fun p _ => HasDerivAt.fun_sum fun q _ => (hr p q).const_mul _

/-- Derivative of the permittivity along a path of densities. -/
theorem hasDerivAt_rho2eps_path {r : ℝ → Grid Nx Ny ℝ} {r' : Grid Nx Ny ℝ} (hr : ∀ i j, HasDerivAt (fun t => r t i j) (r' i j) 0) (eps_m : ℝ) (W : Mat (Nx * Ny) ℝ) (eta beta : ℝ)
    (hb : beta ≠ 0) (i : Fin Nx) (j : Fin Ny) :
    HasDerivAt (fun t => ((rho2eps (r t) eps_m W eta beta i j : ℝ) : ℂ))
      (((eps_m - 1) * drhob_drhot (rho2rhot (r 0) W i j) eta beta * rho2rhot r' W i j : ℝ) : ℂ) 0 := by
  have h1 := hasDerivAt_rho2rhot_path hr W i j
  have h2 : HasDerivAt (fun x => rhot2rhob x eta beta) (drhob_drhot (rho2rhot (r 0) W i j) eta beta) (rho2rhot (r 0) W i j) := C02_projection_derivative eta beta _ hb
  have h3 := ((h2.comp (0 : ℝ) h1).mul_const (eps_m - 1)).const_add 1
  have h4 : HasDerivAt (fun t => rho2eps (r t) eps_m W eta beta i j)
      (drhob_drhot (rho2rhot (r 0) W i j) eta beta * rho2rhot r' W i j * (eps_m - 1)) 0 := h3
  refine (h4.ofReal_comp).congr_deriv ?_
  push_cast
  ring

theorem hasDerivAt_bump (rho : Grid Nx Ny ℝ) (i0 : Fin Nx) (j0 : Fin Ny) (i : Fin Nx) (j : Fin Ny) :
    HasDerivAt (fun t => Spec.bump rho i0 j0 t i j) ((fun i j => if i = i0 ∧ j = j0 then (1 : ℝ) else 0 : Grid Nx Ny ℝ) i j) 0 := by
  unfold Spec.bump
  by_cases h : i = i0 ∧ j = j0
  · simp only [if_pos h]
    exact (hasDerivAt_id (0 : ℝ)).const_add _
  · simp only [if_neg h]
    exact hasDerivAt_const _ _

theorem rho2rhot_single (W : Mat (Nx * Ny) ℝ) (i0 : Fin Nx) (j0 : Fin Ny) (i : Fin Nx) (j : Fin Ny) :
    rho2rhot (fun i j => if i = i0 ∧ j = j0 then (1 : ℝ) else 0) W i j = W (finProdFinEquiv (i, j)) (finProdFinEquiv (i0, j0)) := by
  rw [rho2rhot_apply, Finset.sum_eq_single i0, Finset.sum_eq_single j0]
  · simp
  · intro b _ hb; simp [hb]
  · intro h; exact absurd (Finset.mem_univ _) h
  · intro b _ hb; simp [hb]
  · intro h; exact absurd (Finset.mem_univ _) h

/-- Derivative of the permittivity with respect to one density pixel. -/
theorem hasDerivAt_rho2eps (rho : Grid Nx Ny ℝ) (eps_m : ℝ) (W : Mat (Nx * Ny) ℝ) (eta beta : ℝ) (hb : beta ≠ 0) (i0 : Fin Nx) (j0 : Fin Ny) (i : Fin Nx) (j : Fin Ny) :
    HasDerivAt (fun t => ((rho2eps (Spec.bump rho i0 j0 t) eps_m W eta beta i j : ℝ) : ℂ))
      (((eps_m - 1) * drhob_drhot (rho2rhot rho W i j) eta beta * W (finProdFinEquiv (i, j)) (finProdFinEquiv (i0, j0)) : ℝ) : ℂ) 0 := by
  have h := hasDerivAt_rho2eps_path (hasDerivAt_bump rho i0 j0) eps_m W eta beta hb i j
  rw [bump_zero, rho2rhot_single] at h
  exact h

/-- For Ez only the diagonal of the system matrix depends on the permittivity. -/
theorem construct_A_Ez_split (omega : ℝ) (xr yr : ℝ × ℝ) (eps : Grid Nx Ny ℂ) (NPML : ℕ × ℕ) (L0 : ℝ) :
    (construct_A omega xr yr eps NPML .Ez L0).1 = (construct_A omega xr yr (fun _ _ => 0) NPML .Ez L0).1 +
      spdiag fun k => (omega : ℂ) ^ 2 * ((EPSILON_0 * L0 : ℝ) : ℂ) * flatten eps k := by
  simp only [construct_A, spdiag, add_assoc]
  congr 2
  rw [← Matrix.diagonal_smul, ← Matrix.diagonal_smul, Matrix.diagonal_add]
  congr 1
  refine flat_ext fun i j => ?_
  simp only [Pi.smul_apply, flatten_pair, smul_eq_mul]
  ring

/-- Entrywise derivative of the Ez system matrix along a path of permittivities. -/
theorem hasDerivAt_construct_A_Ez (omega : ℝ) (xr yr : ℝ × ℝ) (NPML : ℕ × ℕ) (L0 : ℝ) {eps : ℝ → Grid Nx Ny ℂ} {deps : Grid Nx Ny ℂ}
    (h : ∀ i j, HasDerivAt (fun t => eps t i j) (deps i j) 0) (k l : Fin (Nx * Ny)) :
    HasDerivAt (fun t => (construct_A omega xr yr (eps t) NPML .Ez L0).1 k l)
      ((spdiag fun k => (omega : ℂ) ^ 2 * ((EPSILON_0 * L0 : ℝ) : ℂ) * flatten deps k) k l) 0 := by
  have e : (fun t => (construct_A omega xr yr (eps t) NPML .Ez L0).1 k l) = fun t => (construct_A omega xr yr (fun _ _ => 0) NPML .Ez L0).1 k l +
      (spdiag fun k => (omega : ℂ) ^ 2 * ((EPSILON_0 * L0 : ℝ) : ℂ) * flatten (eps t) k) k l := by
    funext t
    rw [construct_A_Ez_split]
    rfl
  rw [e]
  refine HasDerivAt.const_add _ ?_
  by_cases hkl : k = l
  · subst hkl
    simp only [spdiag, Matrix.diagonal_apply_eq]
    exact (h _ _).const_mul _
  · simp only [spdiag, Matrix.diagonal_apply_ne _ hkl]
    exact hasDerivAt_const _ _

/-- The fields of the Ez polarisation as functions of the solution vector. -/
noncomputable def linField (s : Sim Nx Ny) (X : Vec (Nx * Ny) ℂ) : Comp → Grid Nx Ny ℂ
  | .Hx => unflatten ((-1 / Complex.I / (s.omega : ℂ) / ((MU_0 * s.L0 : ℝ) : ℂ)) • (s.derivs.Dyb *ᵥ X))
  | .Hy => unflatten ((1 / Complex.I / (s.omega : ℂ) / ((MU_0 * s.L0 : ℝ) : ℂ)) • (s.derivs.Dxb *ᵥ X))
  | _ => unflatten X

/-- The sensitivity of the objective to the solution vector: the transpose of `linField` applied to the partial derivative. -/
noncomputable def linPart (s : Sim Nx Ny) (p : Grid Nx Ny ℂ) : Comp → Vec (Nx * Ny) ℂ
  | .Hx => (-1 / Complex.I / (s.omega : ℂ) / ((MU_0 * s.L0 : ℝ) : ℂ)) • (s.derivs.Dybᵀ *ᵥ flatten p)
  | .Hy => (1 / Complex.I / (s.omega : ℂ) / ((MU_0 * s.L0 : ℝ) : ℂ)) • (s.derivs.Dxbᵀ *ᵥ flatten p)
  | _ => flatten p

/-- Components of the Ez polarisation. -/
def Comp.isEz : Comp → Prop
  | .Ez => True
  | .Hx => True
  | .Hy => True
  | _ => False

theorem pair_linField (s : Sim Nx Ny) (p : Grid Nx Ny ℂ) (X : Vec (Nx * Ny) ℂ) (c : Comp) :
    ∑ i, ∑ j, p i j * linField s X c i j = linPart s p c ⬝ᵥ X := by
  have base : ∀ Y : Vec (Nx * Ny) ℂ, ∑ i, ∑ j, p i j * unflatten Y i j = flatten p ⬝ᵥ Y := by
    intro Y
    rw [dotProduct, sum_flat]
    simp only [flatten_pair, unflatten]
  have tr : ∀ (a : ℂ) (D : Mat (Nx * Ny) ℂ), flatten p ⬝ᵥ (a • (D *ᵥ X)) = (a • (Dᵀ *ᵥ flatten p)) ⬝ᵥ X := by
    intro a D
    rw [dotProduct_smul, smul_dotProduct, Matrix.mulVec_transpose, dotProduct_mulVec]
  cases c <;> simp only [linField, linPart, base, tr]

/-- The simulation after a linear solve stores the three fields. -/
theorem solve_fields_Ez (env : Env) (s : Sim Nx Ny) (hp : s.pol = .Ez) :
    ∃ t, s.solve_fields env = (.ok t, { s with fields := Sim.store .Ez s.fields t }) ∧
      ∀ c, c.isEz → Sim.store .Ez s.fields t c = some (linField s (solver_direct env s.A s.rhs) c) := by
  refine ⟨s.in_plane false s.eps_r (solver_direct env s.A s.rhs), ?_, ?_⟩
  · simp only [Sim.solve_fields, if_true, hp]
  · intro c hc
    cases c <;> simp only [Comp.isEz] at hc <;> simp only [Sim.store, Sim.in_plane, hp, linField]

theorem isLinear_iff (o : Objective Nx Ny) : o.isLinear = true ↔ ∀ a ∈ o.arg_list, a.nl = false := by
  unfold Objective.isLinear
  induction o.arg_list with
  | nil => simp [Objective.isLinear.go]
  | cons a l ih =>
    simp only [Objective.isLinear.go, List.mem_cons, forall_eq_or_imp]
    cases h : a.nl
    · simp [ih]
    · simp

theorem collect_ok (s : Sim Nx Ny) (F : ObjArg → Grid Nx Ny ℂ) (l : List ObjArg)
    (h : ∀ a ∈ l, (if a.nl then s.fields_nl a.component else s.fields a.component) = some (F a)) : Opt.collect s l = .ok (l.map F) := by
  induction l with
  | nil => rfl
  | cons a l ih =>
    simp only [Opt.collect, h a (List.mem_cons_self ..), ih fun b hb => h b (List.mem_cons_of_mem _ hb)]
    rfl

/-- The accumulation loop, for any invariant kept by the gradient functions. -/
theorem dJLoop_ok (env : Env) {k : ℕ} (I : Opt Nx Ny → Prop) (dJ : (d : Fin k) → Except PyErr (Grid Nx Ny ℂ)) (G : GradFn × Fin k × ObjArg → Grid Nx Ny ℝ)
    (l : List (GradFn × Fin k × ObjArg))
    (h : ∀ x ∈ l, ∀ o, I o → ∃ Fz p s1, (if x.2.2.nl then o.simulation.fields_nl o.simulation.pol.comp else o.simulation.fields o.simulation.pol.comp) = some Fz ∧
      dJ x.2.1 = .ok p ∧ Opt.gradFn env o x.1 p Fz = (.ok (G x), s1) ∧ I { o with simulation := s1 }) :
    ∀ (o : Opt Nx Ny) (acc : Grid Nx Ny ℝ), I o →
      ∃ o', I o' ∧ Opt.dJLoop env l dJ o none acc = (.ok (fun i j => acc i j + (l.map fun x => G x i j).sum), o', none) := by
  induction l with
  | nil =>
    intro o acc hI
    exact ⟨o, hI, by simp [Opt.dJLoop]⟩
  | cons x l ih =>
    intro o acc hI
    obtain ⟨g, d, a⟩ := x
    obtain ⟨Fz, p, s1, hF, hp, hg, hI1⟩ := h _ (List.mem_cons_self ..) o hI
    obtain ⟨o', hI', e⟩ := ih (fun x hx => h x (List.mem_cons_of_mem _ hx)) _ (fun i j => acc i j + G (g, d, a) i j) hI1
    refine ⟨o', hI', ?_⟩
    have ht : o.target none = o.simulation := rfl
    simp only at hF hp hg
    simp only [Opt.dJLoop, ht, hF, hp, hg]
    rw [e]
    congr 2
    funext i j
    simp only [List.map_cons, List.sum_cons]
    ring

/-- The zipped lists of `compute_dJ` enumerate the arguments in order. -/
theorem zip_args (J : ObjFn Nx Ny) (args : List ObjArg) (h : args.length = J.arity) :
    (Objective.mk' J args).grad_fn_list.zip ((Objective.mk' J args).dJ_list.zip (Objective.mk' J args).arg_list) =
      List.ofFn fun k : Fin J.arity => ((args.get (k.cast h.symm)).gradient, k, args.get (k.cast h.symm)) := by
  refine List.ext_getElem ?_ ?_
  · simp [Objective.mk', h]
  · intro n h1 h2
    simp [Objective.mk']

end Angler
