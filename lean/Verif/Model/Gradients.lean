import Verif.Model.Objective
import Verif.Model.Adjoint
import Verif.Model.Filter

/-! # The `Optimization` object and `angler/gradients.py` -/

namespace Angler

open Matrix

/-- The attributes of an `Optimization` (`optimization.py:16-44`).  `R`, `field_start`, `nl_solver` are stored but not read after the constructor.
`W` is real: for `R=None` the code stores a complex identity (`sp.eye(..., dtype=complex64)`, line 31), whose imaginary part is 0.
`field_arg_list = none`: attribute absent until the first solve. -/
structure Opt (Nx Ny : ℕ) where
  objective : Objective Nx Ny
  simulation : Sim Nx Ny
  design_region : Grid Nx Ny ℝ
  W : Mat (Nx * Ny) ℝ
  eps_m : ℝ
  eta : ℝ
  beta : ℝ
  max_ind_shift : Option ℝ
  src_amplitudes : List ℝ
  objfn_list : List ℝ
  fields_current : Bool
  field_arg_list : Option (List (Grid Nx Ny ℂ))

namespace Opt
variable {Nx Ny : ℕ}

/-- `rho = optimization.simulation.rho` followed by `rho2rhot(rho, W)`: `AttributeError` when the attribute is absent, or is `None` (`rho.shape`,
`filter.py:95`). -/
def getRho (s : Sim Nx Ny) : Except PyErr (Grid Nx Ny ℝ) :=
  match s.rho with
  | some (some rho) => .ok rho
  | _ => .error .attributeError

/-- `proj_mat = drhob_drhot(rho2rhot(rho, W), eta, beta)`, `gradients.py:26-32` (repeated in each gradient function). -/
noncomputable def projMat (o : Opt Nx Ny) (rho : Grid Nx Ny ℝ) : Vec (Nx * Ny) ℝ := fun k =>
  drhob_drhot (flatten (rho2rhot rho o.W) k) o.eta o.beta

/-- `(eps_mat*filt_mat.multiply(v)).dot(aj)`, `gradients.py:37-39`: `multiply` broadcasts the vector `v` along the columns of `W`. -/
noncomputable def filtDot (o : Opt Nx Ny) (v aj : Vec (Nx * Ny) ℂ) : Vec (Nx * Ny) ℂ := fun i =>
  ∑ j, (((o.eps_m - 1 : ℝ) : ℂ) * ((drhot_drho o.W i j : ℂ) * v j)) * aj j

/-- `dAdeps = design_region*omega**2*EPSILON_0_`, flattened (`gradients.py:24,36`). -/
noncomputable def dAdeps (o : Opt Nx Ny) : Vec (Nx * Ny) ℂ := fun k =>
  ((flatten o.design_region k : ℝ) : ℂ) * (o.simulation.omega : ℂ) ^ 2 * ((EPSILON_0 * o.simulation.L0 : ℝ) : ℂ)

/-- The common tail of the Ez-polarisation gradients, `gradients.py:26-41`. -/
noncomputable def tail_Ez (o : Opt Nx Ny) (rho : Grid Nx Ny ℝ) (Ez Ez_aj : Grid Nx Ny ℂ) : Grid Nx Ny ℝ :=
  unflatten fun k => (filtDot o (fun j => flatten Ez j * (projMat o rho j : ℂ) * dAdeps o j) (flatten Ez_aj) k).re

/-- `grad_linear_Ez`, `gradients.py:16-41`; `p = dJ(*args)`. -/
noncomputable def grad_linear_Ez (env : Env) (o : Opt Nx Ny) (p Ez : Grid Nx Ny ℂ) : Except PyErr (Grid Nx Ny ℝ) := do
  let Ez_aj := adjoint_linear_Ez env o.simulation (fun i j => -p i j)
  let rho ← getRho o.simulation
  return tail_Ez o rho Ez Ez_aj

/-- `grad_linear_Hx`, `gradients.py:43-79`. -/
noncomputable def grad_linear_Hx (env : Env) (o : Opt Nx Ny) (p Ez : Grid Nx Ny ℂ) : Except PyErr (Grid Nx Ny ℝ) := do
  let M0 : ℂ := ((MU_0 * o.simulation.L0 : ℝ) : ℂ)
  let b_aj : Grid Nx Ny ℂ := unflatten ((-1 / Complex.I / (o.simulation.omega : ℂ) / M0) • (o.simulation.derivs.Dybᵀ *ᵥ flatten fun i j => -p i j))
  let Ez_aj := adjoint_linear_Ez env o.simulation b_aj
  let rho ← getRho o.simulation
  return tail_Ez o rho Ez Ez_aj

/-- `grad_linear_Hy`, `gradients.py:81-117`. -/
noncomputable def grad_linear_Hy (env : Env) (o : Opt Nx Ny) (p Ez : Grid Nx Ny ℂ) : Except PyErr (Grid Nx Ny ℝ) := do
  let M0 : ℂ := ((MU_0 * o.simulation.L0 : ℝ) : ℂ)
  let b_aj : Grid Nx Ny ℂ := unflatten ((1 / Complex.I / (o.simulation.omega : ℂ) / M0) • (o.simulation.derivs.Dxbᵀ *ᵥ flatten fun i j => -p i j))
  let Ez_aj := adjoint_linear_Ez env o.simulation b_aj
  let rho ← getRho o.simulation
  return tail_Ez o rho Ez Ez_aj

/-- `grad_kerr_Ez`, `gradients.py:119-142`: the adjoint solve comes first (with the nonlinear state left by the solver), then `compute_nl(Ez_nl)`
overwrites that state.  Also returns `optimization.simulation` as it leaves it. -/
noncomputable def grad_kerr_Ez (env : Env) (o : Opt Nx Ny) (p Ez_nl : Grid Nx Ny ℂ) : Except PyErr (Grid Nx Ny ℝ) × Sim Nx Ny :=
  match adjoint_kerr_Ez env o.simulation (fun i j => -p i j) with
  | .error e => (.error e, o.simulation)
  | .ok Ez_aj =>
    let s1 := o.simulation.compute_nl Ez_nl
    let E0 : ℂ := ((EPSILON_0 * s1.L0 : ℝ) : ℂ)
    let dAnldeps : Vec (Nx * Ny) ℂ := fun k =>
      dAdeps o k + ((flatten o.design_region k : ℝ) : ℂ) * (s1.omega : ℂ) ^ 2 * E0 * flatten s1.dnl_deps k
    match getRho s1 with
    | .error e => (.error e, s1)
    | .ok rho =>
      (.ok (unflatten fun k => (filtDot o (fun j => flatten Ez_nl j * (projMat o rho j : ℂ) * dAnldeps j) (flatten Ez_aj) k).re), s1)

/-- The common tail of the Hz-polarisation gradients with `averaging=False` (the default, never overridden by `compute_dJ`), `gradients.py:228-296`.
The names `Dxb`, `Dyb` in that code are bound to the *forward* differences `derivs['Dxf']`, `derivs['Dyf']` (lines 233-234). -/
noncomputable def tail_Hz (env : Env) (o : Opt Nx Ny) (rho : Grid Nx Ny ℝ) (Hz b_aj : Grid Nx Ny ℂ) : Grid Nx Ny ℝ :=
  let s := o.simulation
  let e := Sim.eps_xy s.L0 false s.eps_r
  let Ex_vec := (1 / Complex.I / (s.omega : ℂ)) • ((spdiag (fun k => 1 / e.2 k) * s.derivs.Dyf) *ᵥ flatten Hz)
  let Ey_vec := (-1 / Complex.I / (s.omega : ℂ)) • ((spdiag (fun k => 1 / e.1 k) * s.derivs.Dxf) *ᵥ flatten Hz)
  let aj := adjoint_linear_Hz env s b_aj
  unflatten fun k =>
    (filtDot o (fun j => Ex_vec j * (projMat o rho j : ℂ) * dAdeps o j) (flatten aj.1) k +
     filtDot o (fun j => Ey_vec j * (projMat o rho j : ℂ) * dAdeps o j) (flatten aj.2) k).re

/-- `grad_linear_Hz`, `gradients.py:226-296`. -/
noncomputable def grad_linear_Hz (env : Env) (o : Opt Nx Ny) (p Hz : Grid Nx Ny ℂ) : Except PyErr (Grid Nx Ny ℝ) := do
  let rho ← getRho o.simulation
  return tail_Hz env o rho Hz fun i j => -p i j

/-- `grad_linear_Ex`, `gradients.py:298-367`. -/
noncomputable def grad_linear_Ex (env : Env) (o : Opt Nx Ny) (p Hz : Grid Nx Ny ℂ) : Except PyErr (Grid Nx Ny ℝ) := do
  let s := o.simulation
  let e := Sim.eps_xy s.L0 false s.eps_r
  let b_aj : Grid Nx Ny ℂ := unflatten ((1 / Complex.I / (s.omega : ℂ)) • ((spdiag (fun k => 1 / e.2 k) * s.derivs.Dyfᵀ) *ᵥ flatten fun i j => -p i j))
  let rho ← getRho o.simulation
  return tail_Hz env o rho Hz b_aj

/-- `grad_linear_Ey`, `gradients.py:369-438`. -/
noncomputable def grad_linear_Ey (env : Env) (o : Opt Nx Ny) (p Hz : Grid Nx Ny ℂ) : Except PyErr (Grid Nx Ny ℝ) := do
  let s := o.simulation
  let e := Sim.eps_xy s.L0 false s.eps_r
  let b_aj : Grid Nx Ny ℂ := unflatten ((-1 / Complex.I / (s.omega : ℂ)) • ((spdiag (fun k => 1 / e.1 k) * s.derivs.Dxfᵀ) *ᵥ flatten fun i j => -p i j))
  let rho ← getRho o.simulation
  return tail_Hz env o rho Hz b_aj

/-- Calling a gradient function: result and `optimization.simulation` afterwards.  `grad_kerr_Hx`, `grad_kerr_Hy` use the undefined name `Ez`
(`gradients.py:156,194`): `NameError`; the Hz-polarisation Kerr gradients raise `NotImplementedError` (`gradients.py:441-447`). -/
noncomputable def gradFn (env : Env) (o : Opt Nx Ny) (g : GradFn) (p Fz : Grid Nx Ny ℂ) : Except PyErr (Grid Nx Ny ℝ) × Sim Nx Ny :=
  match g with
  | .linear_Ez => (grad_linear_Ez env o p Fz, o.simulation)
  | .linear_Hx => (grad_linear_Hx env o p Fz, o.simulation)
  | .linear_Hy => (grad_linear_Hy env o p Fz, o.simulation)
  | .linear_Hz => (grad_linear_Hz env o p Fz, o.simulation)
  | .linear_Ex => (grad_linear_Ex env o p Fz, o.simulation)
  | .linear_Ey => (grad_linear_Ey env o p Fz, o.simulation)
  | .kerr_Ez => grad_kerr_Ez env o p Fz
  | .kerr_Hx => (.error .nameError, o.simulation)
  | .kerr_Hy => (.error .nameError, o.simulation)
  | .kerr_Hz => (.error .notImplementedError, o.simulation)
  | .kerr_Ex => (.error .notImplementedError, o.simulation)
  | .kerr_Ey => (.error .notImplementedError, o.simulation)

end Opt

end Angler
