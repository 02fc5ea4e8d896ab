import Verif.Model.Py
import Verif.Model.Grid
import Mathlib.Analysis.Complex.Norm

/-! # `angler/nonlinearity.py` -/

namespace Angler

/-- The admissible values of `eps_max`.  Every lambda of a scaled nonlinearity divides by `eps_max - 1` (`nonlinearity.py:25-27`), so `eps_max = 1` gives a
`ZeroDivisionError` or `inf`/`nan` as soon as the nonlinearity is evaluated; the model leaves this one value out of the inputs, so that no
statement rests on a division by zero. -/
abbrev EpsMax := {m : ℝ // m ≠ 1}

/-- A constructed `Nonlinearity` object (`nonlinearity.py:8-39`).  After a successful constructor `nl_type` is `'kerr'`, and `eps_max` is present when
`eps_scale` is set; so the three stored lambdas are determined by `chi`, `nl_region` and `scale = some eps_max` / `none`.
`chi` is real (a lossless Kerr coefficient). -/
structure Nonlinearity (Nx Ny : ℕ) where
  chi : ℝ
  nl_region : Grid Nx Ny ℝ
  scale : Option EpsMax

namespace Nonlinearity
variable {Nx Ny : ℕ}

/-- `Nonlinearity.__init__`, `nonlinearity.py:8-39`. -/
def init (chi : ℝ) (nl_region : Grid Nx Ny ℝ) (nl_type : String) (eps_scale : Bool) (eps_max : Option EpsMax) :
    Except PyErr (Nonlinearity Nx Ny) :=
  if nl_type = "kerr" then
    if eps_scale then
      match eps_max with
      | none => .error .assertionError
      | some m => .ok ⟨chi, nl_region, some m⟩
    else .ok ⟨chi, nl_region, none⟩
  else .error .assertionError

/-- The lambda `eps_nl(e, eps_r)`, `nonlinearity.py:25,30`. -/
noncomputable def eps_nl (n : Nonlinearity Nx Ny) (e eps_r : Grid Nx Ny ℂ) : Grid Nx Ny ℂ := fun i j =>
  match n.scale with
  | some eps_max => 3 * (n.chi : ℂ) * (n.nl_region i j : ℂ) * ((‖e i j‖ ^ 2 : ℝ) : ℂ) * ((eps_r i j - 1) / (((eps_max : ℝ) : ℂ) - 1))
  | none => 3 * (n.chi : ℂ) * (n.nl_region i j : ℂ) * ((‖e i j‖ ^ 2 : ℝ) : ℂ)

/-- The lambda `dnl_de(e, eps_r)`, `nonlinearity.py:26,31`. -/
noncomputable def dnl_de (n : Nonlinearity Nx Ny) (e eps_r : Grid Nx Ny ℂ) : Grid Nx Ny ℂ := fun i j =>
  match n.scale with
  | some eps_max => 3 * (n.chi : ℂ) * (n.nl_region i j : ℂ) * (starRingEnd ℂ) (e i j) * ((eps_r i j - 1) / (((eps_max : ℝ) : ℂ) - 1))
  | none => 3 * (n.chi : ℂ) * (n.nl_region i j : ℂ) * (starRingEnd ℂ) (e i j)

/-- The lambda `dnl_deps(e, eps_r)`, `nonlinearity.py:27,32`. -/
noncomputable def dnl_deps (n : Nonlinearity Nx Ny) (e _eps_r : Grid Nx Ny ℂ) : Grid Nx Ny ℂ := fun i j =>
  match n.scale with
  | some eps_max => 3 * (n.chi : ℂ) * (n.nl_region i j : ℂ) * ((‖e i j‖ ^ 2 : ℝ) : ℂ) * (1 / (((eps_max : ℝ) : ℂ) - 1))
  | none => 0

end Nonlinearity

end Angler
