import Verif.Lemmas.AscentPath
import Mathlib.Analysis.Calculus.ContDiff.Operations
import Mathlib.Analysis.SpecialFunctions.Trigonometric.Deriv
import Mathlib.LinearAlgebra.Matrix.Adjugate

/-! # The objective is a smooth function of the density -/

namespace Angler

open Matrix

variable {Nx Ny : ℕ} {E : Type*} [NormedAddCommGroup E] [NormedSpace ℝ E] {m : WithTop ℕ∞}

theorem contDiff_tanh_all : ContDiff ℝ m Real.tanh := by
  have h : Real.tanh = fun x => Real.sinh x / Real.cosh x := funext Real.tanh_eq_sinh_div_cosh
  rw [h]
  exact Real.contDiff_sinh.div Real.contDiff_cosh fun x => (Real.cosh_pos x).ne'

/-- Determinants of matrices with smooth entries. -/
theorem contDiffAt_det {n : ℕ} {A : E → Mat n ℂ} {x : E} (hA : ∀ k l, ContDiffAt ℝ m (fun x => A x k l) x) : ContDiffAt ℝ m (fun x => (A x).det) x := by
  have e : (fun x => (A x).det) = fun x => ∑ σ : Equiv.Perm (Fin n), ((Equiv.Perm.sign σ : ℤ) : ℂ) * ∏ i, A x (σ i) i := by
    funext x
    rw [Matrix.det_apply']
  rw [e]
  refine ContDiffAt.sum fun σ _ => contDiffAt_const.mul ?_
  exact contDiffAt_prod fun i _ => hA _ _

/-- The solution of a linear system depends smoothly on the matrix (Cramer's rule). -/
theorem contDiffAt_solution {env : Env} (he : env.Exact) {n : ℕ} {A : E → Mat n ℂ} {b : Vec n ℂ} {x : E} (hA : ∀ k l, ContDiffAt ℝ m (fun x => A x k l) x) (hdet : (A x).det ≠ 0) (k : Fin n) :
    ContDiffAt ℝ m (fun x => solver_direct env (A x) b k) x := by
  have hd := contDiffAt_det hA
  have hc : ContDiffAt ℝ m (fun x => ((A x).updateCol k b).det) x := by
    refine contDiffAt_det fun p q => ?_
    by_cases h : q = k
    · subst h
      simp only [Matrix.updateCol_self]
      exact contDiffAt_const
    · simp only [Matrix.updateCol_ne h]
      exact hA p q
  have hev : ∀ᶠ y in nhds x, (A y).det ≠ 0 := hd.continuousAt.eventually_ne hdet
  refine (hc.mul (hd.inv hdet)).congr_of_eventuallyEq ?_
  filter_upwards [hev] with y hy
  have h1 : A y *ᵥ ((A y).det⁻¹ • (A y).cramer b) = b := by
    rw [Matrix.mulVec_smul, Matrix.mulVec_cramer, smul_smul, inv_mul_cancel₀ hy, one_smul]
  rw [solver_direct_unique he hy h1, Pi.smul_apply, Matrix.cramer_apply, smul_eq_mul, mul_comm]
  rfl

/-- The permittivity of a pixel depends smoothly on the density. -/
theorem contDiff_rho2eps_all (eps_m : ℝ) (W : Mat (Nx * Ny) ℝ) (eta beta : ℝ) (i : Fin Nx) (j : Fin Ny) : ContDiff ℝ m fun x : Grid Nx Ny ℝ => rho2eps x eps_m W eta beta i j := by
  have h1 : ContDiff ℝ m fun x : Grid Nx Ny ℝ => rho2rhot x W i j := by
    have e : (fun x : Grid Nx Ny ℝ => rho2rhot x W i j) = fun x => ∑ l, W (finProdFinEquiv (i, j)) l * x (finProdFinEquiv.symm l).1 (finProdFinEquiv.symm l).2 := rfl
    rw [e]
    refine ContDiff.sum fun l _ => contDiff_const.mul ?_
    exact contDiff_apply_apply ℝ ℝ _ _
  unfold rho2eps rhob2eps rhot2rhob
  exact contDiff_const.add (((contDiff_const.add (contDiff_tanh_all.comp (contDiff_const.mul (h1.sub contDiff_const)))).div_const _).mul contDiff_const)

namespace Spec.EzProblem
variable {o : Opt Nx Ny} {J : ObjFn Nx Ny} {args : List ObjArg}

/-- The matrix entries. -/
theorem contDiff_A (h : Spec.EzProblem o J args) (k l : Fin (Nx * Ny)) : ContDiff ℝ m fun x : Grid Nx Ny ℝ => (Spec.simAt o x).A k l := by
  have e : (fun x : Grid Nx Ny ℝ => (Spec.simAt o x).A k l) = fun x =>
      (construct_A o.simulation.omega o.simulation.xrange o.simulation.yrange (fun _ _ => 0 : Grid Nx Ny ℂ) o.simulation.NPML .Ez o.simulation.L0).1 k l +
        (spdiag fun k => (o.simulation.omega : ℂ) ^ 2 * ((EPSILON_0 * o.simulation.L0 : ℝ) : ℂ) * flatten (fun i j => ((rho2eps x o.eps_m o.W o.eta o.beta i j : ℝ) : ℂ)) k) k l := by
    funext x
    show (construct_A o.simulation.omega o.simulation.xrange o.simulation.yrange (fun i j => ((rho2eps x o.eps_m o.W o.eta o.beta i j : ℝ) : ℂ)) o.simulation.NPML o.simulation.pol o.simulation.L0).1 k l = _
    rw [h.pol, construct_A_Ez_split, Matrix.add_apply]
  rw [e]
  refine contDiff_const.add ?_
  by_cases hkl : k = l
  · subst hkl
    simp only [spdiag, Matrix.diagonal_apply_eq]
    refine contDiff_const.mul ?_
    exact Complex.ofRealCLM.contDiff.comp (contDiff_rho2eps_all o.eps_m o.W o.eta o.beta (finProdFinEquiv.symm k).1 (finProdFinEquiv.symm k).2)
  · simp only [spdiag, Matrix.diagonal_apply_ne _ hkl]
    exact contDiff_const

/-- The objective as a function of the density. -/
theorem contDiffAt (h : Spec.EzProblem o J args) (env : Env) (he : env.Exact) (hJ : ContDiff ℝ m J.eval) {F : Grid Nx Ny ℝ → ℝ} (hF : Spec.IsObjective env o F) {x : Grid Nx Ny ℝ} (hx : Spec.Box x) :
    ContDiffAt ℝ m F x := by
  rw [h.objective_eq env hF]
  have hsol : ∀ k, ContDiffAt ℝ m (fun x : Grid Nx Ny ℝ => solver_direct env (Spec.simAt o x).A o.simulation.rhs k) x := fun k =>
    contDiffAt_solution he (fun k l => (h.contDiff_A k l).contDiffAt) (h.solvable x hx) k
  have hD : ∀ (c : ℂ) (D : Mat (Nx * Ny) ℂ) (k : Fin (Nx * Ny)), ContDiffAt ℝ m (fun x : Grid Nx Ny ℝ => c * (D *ᵥ solver_direct env (Spec.simAt o x).A o.simulation.rhs) k) x := fun c D k => by
    refine contDiffAt_const.mul ?_
    have e : (fun x : Grid Nx Ny ℝ => (D *ᵥ solver_direct env (Spec.simAt o x).A o.simulation.rhs) k) = fun x => ∑ l, D k l * solver_direct env (Spec.simAt o x).A o.simulation.rhs l := rfl
    rw [e]
    exact ContDiffAt.sum fun l _ => contDiffAt_const.mul (hsol l)
  have hfield : ∀ (c : Comp) i j, ContDiffAt ℝ m (fun x : Grid Nx Ny ℝ => linField o.simulation (solver_direct env (Spec.simAt o x).A o.simulation.rhs) c i j) x := by
    intro c i j
    cases c
    case Hx => exact hD _ _ _
    case Hy => exact hD _ _ _
    all_goals exact hsol _
  unfold linObj
  simp only [linField_simAt o h.valid]
  refine hJ.contDiffAt.comp x ?_
  refine contDiffAt_pi.2 fun k => contDiffAt_pi.2 fun i => contDiffAt_pi.2 fun j => ?_
  exact hfield _ i j

end Spec.EzProblem

end Angler
