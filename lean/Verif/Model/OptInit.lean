import Verif.Model.OptRun

/-! # `Optimization.__init__` (`angler/optimization.py:16-44`) -/

namespace Angler

variable {Nx Ny : ℕ}

/-- `Optimization(objective, simulation, design_region, eps_m, R, eta, beta, max_ind_shift=...)`, `optimization.py:16-44`.  `R=None` gives the identity as filter, otherwise `get_W` may raise.
`field_start` and `nl_solver` are stored by the code and never read, `R` is only read here; `field_arg_list` is not yet an attribute.  The defaults are those of lines 16-18. -/
noncomputable def Opt.init (objective : Objective Nx Ny) (simulation : Sim Nx Ny) (design_region : Grid Nx Ny ℝ) (eps_m : ℝ := 5) (R : Option ℕ := none) (eta : ℝ := 1 / 2) (beta : ℝ := 1e-9)
    (max_ind_shift : Option ℝ := none) : Except PyErr (Opt Nx Ny) := do
  let W ← match R with
    | some R => get_W Nx Ny design_region simulation.NPML R
    | none => pure 1
  return { objective := objective, simulation := simulation, design_region := design_region, W := W, eps_m := eps_m, eta := eta, beta := beta, max_ind_shift := max_ind_shift,
           src_amplitudes := [], objfn_list := [], fields_current := false, field_arg_list := none }

end Angler
