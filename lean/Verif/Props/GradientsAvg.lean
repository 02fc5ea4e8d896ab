import Verif.Model.GradientsAvg
import Verif.Props.GradientHz
import Verif.Props.GradientOutside
import Verif.Lemmas.Solvers

/-! # C113 — the `averaging` option of the Hz-polarisation gradients -/

namespace Angler

open Matrix

variable {Nx Ny : ℕ}

/-! ## The contributions of the pixels -/

/-- The contribution of each pixel to the sensitivity, without the filter and the weights of the design region. -/
noncomputable def hzKernel (env : Env) (o : Opt Nx Ny) (avg : Bool) (rho : Grid Nx Ny ℝ) (Hz b : Grid Nx Ny ℂ) : Vec (Nx * Ny) ℂ := fun k =>
  ((o.eps_m - 1 : ℝ) : ℂ) * (Opt.projMat o rho k : ℂ) *
    ((1 / Complex.I / (o.simulation.omega : ℂ)) ^ 2 * (1 / (Sim.eps_xy o.simulation.L0 avg o.simulation.eps_r).2 k) ^ 2 * (o.simulation.derivs.Dyf *ᵥ flatten Hz) k *
        (o.simulation.derivs.Dyfᵀ *ᵥ solver_direct env o.simulation.Aᵀ (flatten b)) k +
      (-1 / Complex.I / (o.simulation.omega : ℂ)) ^ 2 * (1 / (Sim.eps_xy o.simulation.L0 avg o.simulation.eps_r).1 k) ^ 2 * (o.simulation.derivs.Dxf *ᵥ flatten Hz) k *
        (o.simulation.derivs.Dxfᵀ *ᵥ solver_direct env o.simulation.Aᵀ (flatten b)) k)

theorem tail_opt_apply (env : Env) (o : Opt Nx Ny) (avg : Bool) (rho : Grid Nx Ny ℝ) (Hz b : Grid Nx Ny ℂ) (i0 : Fin Nx) (j0 : Fin Ny) :
    Opt.tail_Hz_opt env o avg rho Hz b i0 j0 =
      (∑ k, ((o.W (finProdFinEquiv (i0, j0)) k : ℝ) : ℂ) * (if avg then Opt.dAdeps_x o else Opt.dAdeps o) k * hzKernel env o avg rho Hz b k).re := by
  unfold Opt.tail_Hz_opt adjoint_linear_Hz Opt.filtDot drhot_drho
  show (_ : ℂ).re = _
  congr 1
  simp only [← Matrix.mulVec_mulVec, spdiag_mulVec, flatten_unflatten]
  rw [← Finset.sum_add_distrib]
  refine Finset.sum_congr rfl fun k _ => ?_
  simp only [Pi.smul_apply, smul_eq_mul]
  unfold hzKernel
  ring

/-- The permittivity of the averaged branch where the material is uniform. -/
theorem eps_xy_uniform (L0 : ℝ) (eps : Grid Nx Ny ℂ) (i : Fin Nx) (j : Fin Ny) (hx : eps (Spec.prev i) j = eps i j) (hy : eps i (Spec.prev j) = eps i j) :
    (Sim.eps_xy L0 true eps).1 (finProdFinEquiv (i, j)) = (Sim.eps_xy L0 false eps).1 (finProdFinEquiv (i, j)) ∧
    (Sim.eps_xy L0 true eps).2 (finProdFinEquiv (i, j)) = (Sim.eps_xy L0 false eps).2 (finProdFinEquiv (i, j)) := by
  have h1 : (Sim.eps_xy L0 true eps).1 = flatten (grid_average (fun i j => ((EPSILON_0 * L0 : ℝ) : ℂ) * eps i j) .x) := rfl
  have h2 : (Sim.eps_xy L0 true eps).2 = flatten (grid_average (fun i j => ((EPSILON_0 * L0 : ℝ) : ℂ) * eps i j) .y) := rfl
  have h3 : (Sim.eps_xy L0 false eps).1 = fun k => ((EPSILON_0 * L0 : ℝ) : ℂ) * flatten eps k := rfl
  have h4 : (Sim.eps_xy L0 false eps).2 = fun k => ((EPSILON_0 * L0 : ℝ) : ℂ) * flatten eps k := rfl
  rw [h1, h2, h3, h4, flatten_pair, flatten_pair]
  simp only [flatten_pair]
  constructor
  · show (_ * eps (Spec.prev i) j + _ * eps i j) / 2 = _
    rw [hx]; ring
  · show (_ * eps i (Spec.prev j) + _ * eps i j) / 2 = _
    rw [hy]; ring

theorem hzKernel_uniform (env : Env) (o : Opt Nx Ny) (rho : Grid Nx Ny ℝ) (Hz b : Grid Nx Ny ℂ) (i : Fin Nx) (j : Fin Ny)
    (hx : o.simulation.eps_r (Spec.prev i) j = o.simulation.eps_r i j) (hy : o.simulation.eps_r i (Spec.prev j) = o.simulation.eps_r i j) :
    hzKernel env o true rho Hz b (finProdFinEquiv (i, j)) = hzKernel env o false rho Hz b (finProdFinEquiv (i, j)) := by
  obtain ⟨h1, h2⟩ := eps_xy_uniform o.simulation.L0 o.simulation.eps_r i j hx hy
  unfold hzKernel
  rw [h1, h2]

theorem dAdeps_x_pair (o : Opt Nx Ny) (i : Fin Nx) (j : Fin Ny) :
    Opt.dAdeps_x o (finProdFinEquiv (i, j)) = (((o.design_region (Spec.prev i) j + o.design_region i j) / 2 : ℝ) : ℂ) * ((o.simulation.omega : ℂ) ^ 2 * ((EPSILON_0 * o.simulation.L0 : ℝ) : ℂ)) := by
  unfold Opt.dAdeps_x
  rw [flatten_pair]
  show (((o.design_region (Spec.prev i) j : ℝ) : ℂ) + ((o.design_region i j : ℝ) : ℂ)) / 2 * _ * _ = _
  push_cast
  ring

theorem dAdeps_pair (o : Opt Nx Ny) (i : Fin Nx) (j : Fin Ny) :
    Opt.dAdeps o (finProdFinEquiv (i, j)) = ((o.design_region i j : ℝ) : ℂ) * ((o.simulation.omega : ℂ) ^ 2 * ((EPSILON_0 * o.simulation.L0 : ℝ) : ℂ)) := by
  unfold Opt.dAdeps
  rw [flatten_pair]
  ring

theorem grad_opt_ok (env : Env) (o : Opt Nx Ny) (p Hz : Grid Nx Ny ℂ) (avg : Bool) (rho : Grid Nx Ny ℝ) (hr : o.simulation.rho = some (some rho)) :
    Opt.grad_linear_Hz_opt env o p Hz avg = .ok (Opt.tail_Hz_opt env o avg rho Hz fun i j => -p i j) := by
  unfold Opt.grad_linear_Hz_opt Opt.getRho
  rw [hr]
  rfl

theorem tail_agree (env : Env) (o : Opt Nx Ny) (rho : Grid Nx Ny ℝ) (Hz b : Grid Nx Ny ℂ) (i0 : Fin Nx) (j0 : Fin Ny)
    (h : ∀ i j, o.W (finProdFinEquiv (i0, j0)) (finProdFinEquiv (i, j)) ≠ 0 → o.simulation.eps_r (Spec.prev i) j = o.simulation.eps_r i j ∧
      o.simulation.eps_r i (Spec.prev j) = o.simulation.eps_r i j ∧ o.design_region (Spec.prev i) j = o.design_region i j) :
    Opt.tail_Hz_opt env o true rho Hz b i0 j0 = Opt.tail_Hz env o rho Hz b i0 j0 := by
  have e : Opt.tail_Hz env o rho Hz b i0 j0 = Opt.tail_Hz_opt env o false rho Hz b i0 j0 := rfl
  rw [e, tail_opt_apply, tail_opt_apply]
  congr 1
  rw [sum_flat, sum_flat]
  refine Finset.sum_congr rfl fun i _ => Finset.sum_congr rfl fun j _ => ?_
  by_cases hw : o.W (finProdFinEquiv (i0, j0)) (finProdFinEquiv (i, j)) = 0
  · rw [hw]; simp
  · obtain ⟨h1, h2, h3⟩ := h i j hw
    simp only [if_true, Bool.false_eq_true, if_false]
    rw [hzKernel_uniform env o rho Hz b i j h1 h2, dAdeps_x_pair, dAdeps_pair, h3]
    congr 3
    push_cast
    ring

/-! ## The theorems -/

/-- **C113, the default.** Without the keyword the three functions are the gradients of C32 used by `compute_dJ`. -/
theorem C113_default (env : Env) (o : Opt Nx Ny) (p Fz : Grid Nx Ny ℂ) :
    (Opt.gradFn env o .linear_Hz p Fz).1 = Opt.grad_linear_Hz_opt env o p Fz ∧ (Opt.gradFn env o .linear_Ex p Fz).1 = Opt.grad_linear_Ex_opt env o p Fz ∧
      (Opt.gradFn env o .linear_Ey p Fz).1 = Opt.grad_linear_Ey_opt env o p Fz := ⟨rfl, rfl, rfl⟩

/-- The adjoint sources of the electric fields, pixel by pixel. -/
theorem source_pair (c : ℂ) (d : Vec (Nx * Ny) ℂ) (D : Mat (Nx * Ny) ℂ) (p : Grid Nx Ny ℂ) (i : Fin Nx) (j : Fin Ny) :
    (unflatten (c • ((spdiag (fun k => 1 / d k) * Dᵀ) *ᵥ flatten fun i j => -p i j)) : Grid Nx Ny ℂ) i j =
      -(c / d (finProdFinEquiv (i, j)) * ∑ a, ∑ b, D (finProdFinEquiv (a, b)) (finProdFinEquiv (i, j)) * p a b) := by
  show c * ((spdiag (fun k => 1 / d k) * Dᵀ) *ᵥ flatten fun i j => -p i j) (finProdFinEquiv (i, j)) = _
  rw [← Matrix.mulVec_mulVec, spdiag_mulVec]
  have e : (Dᵀ *ᵥ flatten fun i j => -p i j) (finProdFinEquiv (i, j)) = -∑ a, ∑ b, D (finProdFinEquiv (a, b)) (finProdFinEquiv (i, j)) * p a b := by
    rw [mulVec_eq_sum', sum_flat, ← Finset.sum_neg_distrib]
    refine Finset.sum_congr rfl fun a _ => ?_
    rw [← Finset.sum_neg_distrib]
    refine Finset.sum_congr rfl fun b _ => ?_
    rw [flatten_pair, Matrix.transpose_apply]
    ring
  show c * (1 / d _ * (Dᵀ *ᵥ flatten fun i j => -p i j) (finProdFinEquiv (i, j))) = _
  rw [e]
  ring

/-- **C113, electric objectives.** With averaging the gradient of an Ex (Ey) objective is that of the Hz objective obtained through `E = ±(1/iω) ε⁻¹ D Hz`, where `ε` is the mean of the permittivities of the two pixels
that meet across the y edge (x edge). -/
theorem C113_source (env : Env) (o : Opt Nx Ny) (p Hz : Grid Nx Ny ℂ) :
    Opt.grad_linear_Ex_opt env o p Hz true = Opt.grad_linear_Hz_opt env o (fun i j => 1 / (Complex.I * o.simulation.omega) /
      (((EPSILON_0 * o.simulation.L0 : ℝ) : ℂ) * ((o.simulation.eps_r i (Spec.prev j) + o.simulation.eps_r i j) / 2)) *
        ∑ a, ∑ b, o.simulation.derivs.Dyf (finProdFinEquiv (a, b)) (finProdFinEquiv (i, j)) * p a b) Hz true ∧
    Opt.grad_linear_Ey_opt env o p Hz true = Opt.grad_linear_Hz_opt env o (fun i j => -1 / (Complex.I * o.simulation.omega) /
      (((EPSILON_0 * o.simulation.L0 : ℝ) : ℂ) * ((o.simulation.eps_r (Spec.prev i) j + o.simulation.eps_r i j) / 2)) *
        ∑ a, ∑ b, o.simulation.derivs.Dxf (finProdFinEquiv (a, b)) (finProdFinEquiv (i, j)) * p a b) Hz true := by
  have h1 : (Sim.eps_xy o.simulation.L0 true o.simulation.eps_r).1 = flatten (grid_average (fun i j => ((EPSILON_0 * o.simulation.L0 : ℝ) : ℂ) * o.simulation.eps_r i j) .x) := rfl
  have h2 : (Sim.eps_xy o.simulation.L0 true o.simulation.eps_r).2 = flatten (grid_average (fun i j => ((EPSILON_0 * o.simulation.L0 : ℝ) : ℂ) * o.simulation.eps_r i j) .y) := rfl
  have key : ∀ b b' : Grid Nx Ny ℂ, b = b' → (do let rho ← Opt.getRho o.simulation; return Opt.tail_Hz_opt env o true rho Hz b : Except PyErr (Grid Nx Ny ℝ)) =
      (do let rho ← Opt.getRho o.simulation; return Opt.tail_Hz_opt env o true rho Hz b') := by
    rintro b _ rfl
    rfl
  constructor
  · refine key _ _ (funext fun i => funext fun j => ?_)
    rw [source_pair, h2, flatten_pair]
    show -(_ / ((((EPSILON_0 * o.simulation.L0 : ℝ) : ℂ) * o.simulation.eps_r i (Spec.prev j) + ((EPSILON_0 * o.simulation.L0 : ℝ) : ℂ) * o.simulation.eps_r i j) / 2) * _) = _
    rw [← mul_add, mul_div_assoc, div_div 1 Complex.I]
  · refine key _ _ (funext fun i => funext fun j => ?_)
    rw [source_pair, h1, flatten_pair]
    show -(_ / ((((EPSILON_0 * o.simulation.L0 : ℝ) : ℂ) * o.simulation.eps_r (Spec.prev i) j + ((EPSILON_0 * o.simulation.L0 : ℝ) : ℂ) * o.simulation.eps_r i j) / 2) * _) = _
    rw [← mul_add, mul_div_assoc, div_div (-1) Complex.I]

/-- **C113, uniform surroundings.** With and without averaging the gradient of an Hz objective has the same value at each pixel whose filter neighbourhood has neighbours (to the left and below) of the same
material and on the same side of the border of the design region. -/
theorem C113_agree (env : Env) (o : Opt Nx Ny) (rho : Grid Nx Ny ℝ) (hr : o.simulation.rho = some (some rho)) (p Hz : Grid Nx Ny ℂ) (i0 : Fin Nx) (j0 : Fin Ny)
    (h : ∀ i j, o.W (finProdFinEquiv (i0, j0)) (finProdFinEquiv (i, j)) ≠ 0 → o.simulation.eps_r (Spec.prev i) j = o.simulation.eps_r i j ∧
      o.simulation.eps_r i (Spec.prev j) = o.simulation.eps_r i j ∧ o.design_region (Spec.prev i) j = o.design_region i j) :
    ∃ g g', Opt.grad_linear_Hz_opt env o p Hz true = .ok g ∧ Opt.grad_linear_Hz_opt env o p Hz false = .ok g' ∧ g i0 j0 = g' i0 j0 :=
  ⟨_, _, grad_opt_ok env o p Hz true rho hr, grad_opt_ok env o p Hz false rho hr, tail_agree env o rho Hz _ i0 j0 h⟩

/-- **C113, where the option gives the gradient.** The sum of the averaged gradients over the arguments of the objective is the exact derivative at each pixel whose filter neighbourhood lies inside uniform material,
has its left neighbours on the same side of the border of the design region, and on which the field and the adjoint field vary linearly.
Missing: all other pixels; there the property is false (`C113_false`). -/
theorem C113_exact_partial (env : Env) (he : env.Exact) (o : Opt Nx Ny) (J : ObjFn Nx Ny) (args : List ObjArg) (rho : Grid Nx Ny ℝ)
    (hS : Spec.LinearHz env o J args rho) (i0 : Fin Nx) (j0 : Fin Ny) (hW : Spec.FilterSym o.W o.design_region i0 j0)
    (hsm : ∀ i j, o.W (finProdFinEquiv (i, j)) (finProdFinEquiv (i0, j0)) ≠ 0 → ∀ (H : Grid Nx Ny ℂ) (a : Vec (Nx * Ny) ℂ) (k : Fin J.arity),
      (o.simulation.solve_fields env).2.fields .Hz = some H → o.simulation.Aᵀ *ᵥ a = -flatten (J.partials k fun _ => H) →
      Spec.LocallyLinear o.simulation.derivs o.simulation.eps_r (flatten H) a i j)
    (h : ∀ i j, o.W (finProdFinEquiv (i0, j0)) (finProdFinEquiv (i, j)) ≠ 0 → o.simulation.eps_r (Spec.prev i) j = o.simulation.eps_r i j ∧
      o.simulation.eps_r i (Spec.prev j) = o.simulation.eps_r i j ∧ o.design_region (Spec.prev i) j = o.design_region i j) :
    ∃ (H : Grid Nx Ny ℂ) (g : Fin J.arity → Grid Nx Ny ℝ) (f : ℝ → ℝ), (o.simulation.solve_fields env).2.fields .Hz = some H ∧
      (∀ k, Opt.grad_linear_Hz_opt env o (J.partials k fun _ => H) H true = .ok (g k)) ∧
      (∀ t, (Opt.compute_J env o (some (Spec.simAt o (Spec.bump rho i0 j0 t)))).1 = .ok (f t)) ∧ HasDerivAt f (∑ k, g k i0 j0) 0 := by
  obtain ⟨g, f, h1, h2, h3⟩ := C32_gradient_exact_partial env he o J args rho hS i0 j0 hW hsm
  obtain ⟨g', f', h1', -, h4, -⟩ := gradient_Hz_formula env he o J args rho hS i0 j0
  obtain rfl : g = g' := Except.ok.inj (h1.symm.trans h1')
  refine ⟨unflatten (solver_direct env o.simulation.A o.simulation.rhs), _, f, ?_, fun k => grad_opt_ok env o _ _ true rho hS.density, h2, ?_⟩
  · show Sim.store o.simulation.pol _ _ _ = _
    rw [hS.pol, ← in_plane_third o.simulation false o.simulation.eps_r]
    rfl
  · refine h3.congr_deriv ?_
    rw [h4]
    exact Finset.sum_congr rfl fun k _ => (tail_agree env o rho _ _ i0 j0 h).symm

/-- **C113, the border of the design region.** At an unfiltered pixel in uniform material the averaged gradient is the one without averaging times the average of the design region over the pixel and
its left neighbour: half of it at the left border of the region. -/
theorem C113_border (env : Env) (o : Opt Nx Ny) (rho : Grid Nx Ny ℝ) (hr : o.simulation.rho = some (some rho)) (p Hz : Grid Nx Ny ℂ) (i0 : Fin Nx) (j0 : Fin Ny) (hW : Spec.RowId o.W i0 j0)
    (hx : o.simulation.eps_r (Spec.prev i0) j0 = o.simulation.eps_r i0 j0) (hy : o.simulation.eps_r i0 (Spec.prev j0) = o.simulation.eps_r i0 j0) (hin : o.design_region i0 j0 = 1) :
    ∃ g g', Opt.grad_linear_Hz_opt env o p Hz true = .ok g ∧ Opt.grad_linear_Hz_opt env o p Hz false = .ok g' ∧
      g i0 j0 = (o.design_region (Spec.prev i0) j0 + 1) / 2 * g' i0 j0 := by
  refine ⟨_, _, grad_opt_ok env o p Hz true rho hr, grad_opt_ok env o p Hz false rho hr, ?_⟩
  rw [tail_opt_apply, tail_opt_apply]
  have hk : ∀ v : Vec (Nx * Ny) ℂ, ∑ k, ((o.W (finProdFinEquiv (i0, j0)) k : ℝ) : ℂ) * v k = v (finProdFinEquiv (i0, j0)) := fun v => by
    rw [Finset.sum_eq_single (finProdFinEquiv (i0, j0)) (fun k _ hk => by rw [hW k, if_neg (Ne.symm hk)]; simp) (by simp), hW, if_pos rfl]
    simp
  simp only [mul_assoc, hk, if_true, Bool.false_eq_true, if_false]
  rw [hzKernel_uniform env o rho Hz _ i0 j0 hx hy, dAdeps_x_pair, dAdeps_pair, hin, Complex.ofReal_one, one_mul, mul_assoc, Complex.re_ofReal_mul]

/-- **C113, outside the design region.** The averaged gradient vanishes at each pixel outside the design region whose left neighbour is outside as well, with the filter from `get_W` or without a filter.
Missing: pixels just right of the region; there the property is false (`C113_outside_false`). -/
theorem C113_outside_partial (env : Env) (o : Opt Nx Ny) (p Hz : Grid Nx Ny ℂ) (g : Grid Nx Ny ℝ)
    (hg : Opt.grad_linear_Hz_opt env o p Hz true = .ok g ∨ Opt.grad_linear_Ex_opt env o p Hz true = .ok g ∨ Opt.grad_linear_Ey_opt env o p Hz true = .ok g)
    (hW : o.W = 1 ∨ ∃ NPML R, get_W Nx Ny o.design_region NPML R = .ok o.W) (i0 : Fin Nx) (j0 : Fin Ny) (hd : o.design_region i0 j0 = 0) (hp : o.design_region (Spec.prev i0) j0 = 0) : g i0 j0 = 0 := by
  have hr : Spec.RowId o.W i0 j0 := by
    rcases hW with h1 | ⟨NPML, R, h1⟩
    · rw [h1]; exact rowId_one i0 j0
    · exact rowId_get_W h1 hd
  have key : ∀ rho b, Opt.tail_Hz_opt env o true rho Hz b i0 j0 = 0 := by
    intro rho b
    rw [tail_opt_apply, Finset.sum_eq_zero, Complex.zero_re]
    intro k _
    rw [hr k]
    by_cases h : finProdFinEquiv (i0, j0) = k
    · subst h
      simp only [if_true]
      rw [dAdeps_x_pair, hd, hp]
      simp
    · rw [if_neg h]
      simp
  rcases hrho : Opt.getRho o.simulation with e | rho
  · rcases hg with hg | hg | hg
    · unfold Opt.grad_linear_Hz_opt at hg; rw [hrho] at hg; cases hg
    · unfold Opt.grad_linear_Ex_opt at hg; rw [hrho] at hg; cases hg
    · unfold Opt.grad_linear_Ey_opt at hg; rw [hrho] at hg; cases hg
  · rcases hg with hg | hg | hg
    · unfold Opt.grad_linear_Hz_opt at hg; rw [hrho] at hg; cases hg; exact key _ _
    · unfold Opt.grad_linear_Ex_opt at hg; rw [hrho] at hg; cases hg; exact key _ _
    · unfold Opt.grad_linear_Ey_opt at hg; rw [hrho] at hg; cases hg; exact key _ _

/-! ## Witnesses -/

/-- The device of `C32_false`, with the value of the gradient function. -/
theorem hopt_tail (env : Env) (he : env.Exact) (hx : 1 < Nx) (hy : 1 < Ny) (i0 : Fin Nx) (j0 : Fin Ny) :
    ∃ (src p : Grid Nx Ny ℂ) (f : ℝ → ℝ) (f' : ℝ),
      let o := hopt src (Objective.mk' (linearJ p) [⟨.Hz, false, .linear_Hz⟩])
      let H : Grid Nx Ny ℂ := unflatten (solver_direct env o.simulation.A o.simulation.rhs)
      (∀ t, (Opt.compute_J env o (some (Spec.simAt o (Spec.bump (fun _ _ => 0) i0 j0 t)))).1 = .ok (f t)) ∧ HasDerivAt f f' 0 ∧ f' ≠ 0 ∧
        Opt.tail_Hz env o (fun _ _ => 0) H (fun i j => -p i j) i0 j0 = -f' := by
  obtain ⟨src, p, c, hc, -, -, g, f, f', h1, h2, h3, h4, h5⟩ := hopt_values env he hx hy (Spec.single i0 j0) (Spec.single i0 j0) i0 j0
  obtain ⟨g2, f2, k1, -, k3, -⟩ := gradient_Hz_formula env he _ _ _ _ (hopt_setup env hx hy src p) i0 j0
  obtain rfl : g = g2 := Except.ok.inj (h1.symm.trans k1)
  refine ⟨src, p, f, f', h2, h3, ?_⟩
  have k4 : g i0 j0 = Opt.tail_Hz env (hopt src (Objective.mk' (linearJ p) [⟨.Hz, false, .linear_Hz⟩])) (fun _ _ => 0)
      (unflatten (solver_direct env (hsim Nx Ny src).A (hsim Nx Ny src).rhs)) (fun i j => -p i j) i0 j0 := by
    rw [k3]
    exact Fin.sum_univ_one _
  have hnx := next_ne hx i0
  have hny := next_ne hy j0
  have b1 : Spec.bwdX (3 / ETA_0) (Spec.single i0 j0) i0 j0 = 1 / ((3 / ETA_0 : ℝ) : ℂ) := by rw [Spec.bwdX, single_self, single_ne_x _ _ hnx.2, sub_zero]
  have b2 : Spec.bwdX (3 / ETA_0) (Spec.single i0 j0) (Spec.next i0) j0 = -1 / ((3 / ETA_0 : ℝ) : ℂ) := by rw [Spec.bwdX, prev_next, single_self, single_ne_x _ _ hnx.1, zero_sub]
  have b3 : Spec.bwdY (3 / ETA_0) (Spec.single i0 j0) i0 j0 = 1 / ((3 / ETA_0 : ℝ) : ℂ) := by rw [Spec.bwdY, single_self, single_ne_y _ _ hny.2, sub_zero]
  have b4 : Spec.bwdY (3 / ETA_0) (Spec.single i0 j0) i0 (Spec.next j0) = -1 / ((3 / ETA_0 : ℝ) : ℂ) := by rw [Spec.bwdY, prev_next, single_self, single_ne_y _ _ hny.1, zero_sub]
  have b5 : Spec.fwdX (3 / ETA_0) (Spec.single i0 j0) i0 j0 = -1 / ((3 / ETA_0 : ℝ) : ℂ) := by rw [Spec.fwdX, single_self, single_ne_x _ _ hnx.1, zero_sub]
  have b6 : Spec.fwdY (3 / ETA_0) (Spec.single i0 j0) i0 j0 = -1 / ((3 / ETA_0 : ℝ) : ℂ) := by rw [Spec.fwdY, single_self, single_ne_y _ _ hny.1, zero_sub]
  have hh : (0 : ℝ) < 3 / ETA_0 := div_pos (by norm_num) ETA_0_pos
  rw [b1, b3, b5, b6] at h4
  rw [b1, b2, b3, b4] at h5
  have e1 : f' = c * (2 / (3 / ETA_0) ^ 2) := by
    rw [h5, ← Complex.ofReal_re (c * (2 / (3 / ETA_0) ^ 2))]
    congr 1
    push_cast
    ring
  have e2 : g i0 j0 = -(c * (2 / (3 / ETA_0) ^ 2)) := by
    rw [h4, ← Complex.ofReal_re (-(c * (2 / (3 / ETA_0) ^ 2)))]
    congr 1
    push_cast
    ring
  refine ⟨?_, ?_⟩
  · rw [e1]; positivity
  · rw [e1, ← e2]; exact k4.symm

/-- **C113, the option does not give the gradient.** On every grid (at least two cells each way, vacuum, no PML, no filter, every pixel a design pixel) and for every pixel there are a source and a linear objective
of Hz for which the averaged gradient at that pixel is exactly the negative of the derivative, which is not zero. -/
theorem C113_false (env : Env) (he : env.Exact) (hx : 1 < Nx) (hy : 1 < Ny) (i0 : Fin Nx) (j0 : Fin Ny) :
    ∃ (src p H : Grid Nx Ny ℂ),
      let o := hopt src (Objective.mk' (linearJ p) [⟨.Hz, false, .linear_Hz⟩])
      Spec.LinearHz env o (linearJ p) [⟨.Hz, false, .linear_Hz⟩] (fun _ _ => 0) ∧ (o.simulation.solve_fields env).2.fields .Hz = some H ∧
      ∃ g f f', Opt.grad_linear_Hz_opt env o p H true = .ok g ∧
        (∀ t, (Opt.compute_J env o (some (Spec.simAt o (Spec.bump (fun _ _ => 0) i0 j0 t)))).1 = .ok (f t)) ∧ HasDerivAt f f' 0 ∧ g i0 j0 = -f' ∧ f' ≠ 0 := by
  obtain ⟨src, p, f, f', h1, h2, h3, h4⟩ := hopt_tail env he hx hy i0 j0
  refine ⟨src, p, _, hopt_setup env hx hy src p, rfl, _, f, f', grad_opt_ok env _ p _ true (fun _ _ => 0) rfl, h1, h2, ?_, h3⟩
  rw [← h4]
  exact tail_agree env _ _ _ _ i0 j0 fun i j _ => ⟨rfl, rfl, rfl⟩

/-- **C113, C33 fails with averaging.** On every grid and for every pixel there are a device and an objective of Hz for which that pixel lies outside the design region and the averaged gradient there is
not zero. -/
theorem C113_outside_false (env : Env) (he : env.Exact) (hx : 1 < Nx) (hy : 1 < Ny) (i0 : Fin Nx) (j0 : Fin Ny) :
    ∃ (o : Opt Nx Ny) (p H : Grid Nx Ny ℂ) (g : Grid Nx Ny ℝ), o.W = 1 ∧ (∀ i j, o.design_region i j = 0 ∨ o.design_region i j = 1) ∧ o.design_region i0 j0 = 0 ∧
      (o.simulation.solve_fields env).2.fields .Hz = some H ∧ Opt.grad_linear_Hz_opt env o p H true = .ok g ∧ g i0 j0 ≠ 0 := by
  obtain ⟨src, p, f, f', h1, h2, h3, h4⟩ := hopt_tail env he hx hy i0 j0
  generalize hob : Objective.mk' (linearJ p) [⟨.Hz, false, .linear_Hz⟩] = ob at h1 h4
  let o : Opt Nx Ny := { hopt src ob with design_region := fun i _ => if i = i0 then 0 else 1 }
  refine ⟨o, p, unflatten (solver_direct env o.simulation.A o.simulation.rhs), _, rfl, fun i j => ?_, if_pos rfl, rfl, grad_opt_ok env o p _ true (fun _ _ => 0) rfl, ?_⟩
  · show (if i = i0 then (0 : ℝ) else 1) = 0 ∨ (if i = i0 then (0 : ℝ) else 1) = 1
    split_ifs
    · exact Or.inl rfl
    · exact Or.inr rfl
  · have hp : o.design_region (Spec.prev i0) j0 = 1 := if_neg (next_ne hx i0).2
    have hin : o.design_region i0 j0 = 0 := if_pos rfl
    have hk : ∀ v : Vec (Nx * Ny) ℂ, ∑ k, (((1 : Mat (Nx * Ny) ℝ) (finProdFinEquiv (i0, j0)) k : ℝ) : ℂ) * v k = v (finProdFinEquiv (i0, j0)) := fun v => by
      rw [Finset.sum_eq_single (finProdFinEquiv (i0, j0)) (fun k _ hk => by rw [Matrix.one_apply, if_neg (Ne.symm hk)]; simp) (by simp), Matrix.one_apply, if_pos rfl]
      simp
    generalize hH : (unflatten (solver_direct env o.simulation.A o.simulation.rhs) : Grid Nx Ny ℂ) = H
    have k1 := tail_opt_apply env o true (fun _ _ => 0) H (fun i j => -p i j) i0 j0
    have k2 := tail_opt_apply env (hopt src ob) false (fun _ _ => 0) H (fun i j => -p i j) i0 j0
    have k3 : Opt.tail_Hz_opt env (hopt src ob) false (fun _ _ => 0) H (fun i j => -p i j) i0 j0 = -f' := by rw [← h4, ← hH]; rfl
    rw [k3] at k2
    have hW : o.W = 1 := rfl
    have hW' : (hopt src ob).W = 1 := rfl
    simp only [mul_assoc, hW, hW', hk, if_true, Bool.false_eq_true, if_false] at k1 k2
    rw [hzKernel_uniform env o _ _ _ i0 j0 rfl rfl, dAdeps_x_pair, hp, hin, mul_assoc, Complex.re_ofReal_mul] at k1
    rw [dAdeps_pair, mul_assoc, Complex.re_ofReal_mul] at k2
    have e : hzKernel env o false (fun _ _ => 0) H (fun i j => -p i j) = hzKernel env (hopt src ob) false (fun _ _ => 0) H (fun i j => -p i j) := rfl
    have e2 : (hopt src ob).design_region i0 j0 = 1 := rfl
    have e3 : o.simulation = (hopt src ob).simulation := rfl
    rw [e, e3] at k1
    rw [e2, one_mul] at k2
    have k4 : Opt.tail_Hz_opt env o true (fun _ _ => 0) H (fun i j => -p i j) i0 j0 = (1 + 0) / 2 * -f' := by rw [k1, k2]
    rw [k4]
    simpa using h3

/-- The hypotheses of `C113_border` at the left border of a region: the averaged value is half the other one. -/
example (env : Env) (hx : 1 < Nx) (src p Hz : Grid Nx Ny ℂ) (ob : Objective Nx Ny) (i0 : Fin Nx) (j0 : Fin Ny) :
    ∃ g g', Opt.grad_linear_Hz_opt env { hopt src ob with design_region := fun i _ => if i = i0 then 1 else 0 } p Hz true = .ok g ∧
      Opt.grad_linear_Hz_opt env { hopt src ob with design_region := fun i _ => if i = i0 then 1 else 0 } p Hz false = .ok g' ∧ g i0 j0 = 1 / 2 * g' i0 j0 := by
  obtain ⟨g, g', h1, h2, h3⟩ := C113_border env { hopt src ob with design_region := fun i _ => if i = i0 then 1 else 0 } (fun _ _ => 0) rfl p Hz i0 j0 (rowId_one i0 j0) rfl rfl (if_pos rfl)
  refine ⟨g, g', h1, h2, ?_⟩
  rw [h3]
  have : (if Spec.prev i0 = i0 then (1 : ℝ) else 0) = 0 := if_neg (next_ne hx i0).2
  show ((if Spec.prev i0 = i0 then (1 : ℝ) else 0) + 1) / 2 * g' i0 j0 = _
  rw [this, zero_add]

/-- `C113_exact_partial` applies to a field that is linear across the pixel, on any grid with at least three cells in x; the derivative is not zero. -/
example (env : Env) (he : env.Exact) (hx : 2 < Nx) (hy : 1 < Ny) (i0 : Fin Nx) (j0 : Fin Ny) :
    ∃ (src p : Grid Nx Ny ℂ),
      let o := hopt src (Objective.mk' (linearJ p) [⟨.Hz, false, .linear_Hz⟩])
      ∃ (H : Grid Nx Ny ℂ) (g : Fin (linearJ p).arity → Grid Nx Ny ℝ) (f : ℝ → ℝ), (o.simulation.solve_fields env).2.fields .Hz = some H ∧ (∀ k, Opt.grad_linear_Hz_opt env o ((linearJ p).partials k fun _ => H) H true = .ok (g k)) ∧
        (∀ t, (Opt.compute_J env o (some (Spec.simAt o (Spec.bump (fun _ _ => 0) i0 j0 t)))).1 = .ok (f t)) ∧ HasDerivAt f (∑ k, g k i0 j0) 0 ∧ ∑ k, g k i0 j0 ≠ 0 := by
  obtain ⟨src, p, hsm, g, hg, hne⟩ := locallyLinear_witness env he hx hy i0 j0
  have hS := hopt_setup env (by omega) hy src p
  have hW : Spec.FilterSym (hopt src (Objective.mk' (linearJ p) [⟨.Hz, false, .linear_Hz⟩])).W (hopt src (Objective.mk' (linearJ p) [⟨.Hz, false, .linear_Hz⟩])).design_region i0 j0 :=
    filterSym_one (fun _ _ => Or.inr rfl) rfl
  obtain ⟨H, g', f, h0, h1, h2, h3⟩ := C113_exact_partial env he _ _ _ _ hS i0 j0 hW hsm fun _ _ _ => ⟨rfl, rfl, rfl⟩
  obtain ⟨g'', f'', k1, k2, k3⟩ := C32_gradient_exact_partial env he _ _ _ _ hS i0 j0 hW hsm
  obtain rfl : f = f'' := funext fun t => Except.ok.inj ((h2 t).symm.trans (k2 t))
  have hgg : g'' = g := Except.ok.inj (k1.symm.trans hg)
  refine ⟨src, p, H, g', f, h0, h1, h2, h3, ?_⟩
  rw [h3.unique k3, hgg]
  exact hne

end Angler
