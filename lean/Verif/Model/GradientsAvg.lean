import Verif.Model.Gradients

/-! # The `averaging` option of the Hz-polarisation gradients, `angler/gradients.py:228-438` -/

namespace Angler.Opt

open Matrix

variable {Nx Ny : ℕ}

/-- `dAdeps_vec_x`, `gradients.py:278-279,282` (also 349-350,353 and 420-421,424): the design region averaged along x, times `omega**2*EPSILON_0_`.  `dAdeps_vec_y` (lines 280-281, 283) is computed but
never used: line 285 multiplies the y component by `dAdeps_vec_x` as well. -/
noncomputable def dAdeps_x (o : Opt Nx Ny) : Vec (Nx * Ny) ℂ := fun k =>
  flatten (grid_average (fun i j => ((o.design_region i j : ℝ) : ℂ)) .x) k * (o.simulation.omega : ℂ) ^ 2 * ((EPSILON_0 * o.simulation.L0 : ℝ) : ℂ)

/-- The common tail of the Hz-polarisation gradients with the keyword `averaging`, `gradients.py:228-296`, 298-367, 369-438: lines 239-246 choose the permittivities of the forward field, line 263 passes the
keyword on to `adjoint_linear_Hz`, lines 276-294 choose the weights. -/
noncomputable def tail_Hz_opt (env : Env) (o : Opt Nx Ny) (averaging : Bool) (rho : Grid Nx Ny ℝ) (Hz b_aj : Grid Nx Ny ℂ) : Grid Nx Ny ℝ :=
  let s := o.simulation
  let e := Sim.eps_xy s.L0 averaging s.eps_r
  let Ex_vec := (1 / Complex.I / (s.omega : ℂ)) • ((spdiag (fun k => 1 / e.2 k) * s.derivs.Dyf) *ᵥ flatten Hz)
  let Ey_vec := (-1 / Complex.I / (s.omega : ℂ)) • ((spdiag (fun k => 1 / e.1 k) * s.derivs.Dxf) *ᵥ flatten Hz)
  let aj := adjoint_linear_Hz env s b_aj averaging
  let w := if averaging then dAdeps_x o else dAdeps o
  unflatten fun k =>
    (filtDot o (fun j => Ex_vec j * (projMat o rho j : ℂ) * w j) (flatten aj.1) k +
     filtDot o (fun j => Ey_vec j * (projMat o rho j : ℂ) * w j) (flatten aj.2) k).re

/-- `grad_linear_Hz(optimization, dJ, Hz, args, averaging)`, `gradients.py:228-296`; `p = dJ(*args)`. -/
noncomputable def grad_linear_Hz_opt (env : Env) (o : Opt Nx Ny) (p Hz : Grid Nx Ny ℂ) (averaging : Bool := false) : Except PyErr (Grid Nx Ny ℝ) := do
  let rho ← getRho o.simulation
  return tail_Hz_opt env o averaging rho Hz fun i j => -p i j

/-- `grad_linear_Ex(optimization, dJ, Hz, args, averaging)`, `gradients.py:298-367`. -/
noncomputable def grad_linear_Ex_opt (env : Env) (o : Opt Nx Ny) (p Hz : Grid Nx Ny ℂ) (averaging : Bool := false) : Except PyErr (Grid Nx Ny ℝ) := do
  let s := o.simulation
  let e := Sim.eps_xy s.L0 averaging s.eps_r
  let b_aj : Grid Nx Ny ℂ := unflatten ((1 / Complex.I / (s.omega : ℂ)) • ((spdiag (fun k => 1 / e.2 k) * s.derivs.Dyfᵀ) *ᵥ flatten fun i j => -p i j))
  let rho ← getRho o.simulation
  return tail_Hz_opt env o averaging rho Hz b_aj

/-- `grad_linear_Ey(optimization, dJ, Hz, args, averaging)`, `gradients.py:369-438`. -/
noncomputable def grad_linear_Ey_opt (env : Env) (o : Opt Nx Ny) (p Hz : Grid Nx Ny ℂ) (averaging : Bool := false) : Except PyErr (Grid Nx Ny ℝ) := do
  let s := o.simulation
  let e := Sim.eps_xy s.L0 averaging s.eps_r
  let b_aj : Grid Nx Ny ℂ := unflatten ((-1 / Complex.I / (s.omega : ℂ)) • ((spdiag (fun k => 1 / e.1 k) * s.derivs.Dxfᵀ) *ᵥ flatten fun i j => -p i j))
  let rho ← getRho o.simulation
  return tail_Hz_opt env o averaging rho Hz b_aj

end Angler.Opt
