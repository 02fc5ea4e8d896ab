import Verif.Model.Py
import Verif.Model.Grid
import Mathlib.Analysis.SpecialFunctions.Trigonometric.DerivHyp

/-! # `angler/utils.py`: density / permittivity helpers

`npa.tanh` etc. act elementwise; each function is given at one pixel. -/

namespace Angler.Utils

/-- `eps2rho_bar(eps, eps_m)`, `utils.py:11-12`. -/
noncomputable def eps2rho_bar (eps eps_m : ℝ) : ℝ := (eps - 1) / (eps_m - 1)

/-- `rho_bar2eps(rho_bar, eps_m)`, `utils.py:14-15`. -/
def rho_bar2eps (rho_bar eps_m : ℝ) : ℝ := rho_bar * (eps_m - 1) + 1

/-- `deps_drho_bar(eps, eps_m)`, `utils.py:17-18`. -/
noncomputable def deps_drho_bar (_eps eps_m : ℝ) : ℝ := 1 / (eps_m - 1)

/-- `rho_bar(rho, eta, beta)`, `utils.py:20-23`. -/
noncomputable def rho_bar (rho eta beta : ℝ) : ℝ :=
  let num := Real.tanh (beta * eta) + Real.tanh (beta * (rho - eta))
  let den := Real.tanh (beta * eta) + Real.tanh (beta * (1 - eta))
  num / den

/-- `drho_bar_drho(rho, eta, beta)`, `utils.py:25-29`.  The first statement evaluates `partial`, a global name that `utils.py` never imports, before anything else:
`NameError`.  (Were it imported, the argument `rho_bar`, local by the assignment, would be unbound.) -/
def drho_bar_drho (_rho _eta _beta : ℝ) : Except PyErr ℝ := .error .nameError

/-- `n2_from_chi3(chi3)`, `constants.py:18-20`: `np` (and `eps_m`) are not defined in `constants.py`: `NameError`. -/
def n2_from_chi3 (_chi3 : ℝ) : Except PyErr ℝ := .error .nameError

end Angler.Utils
