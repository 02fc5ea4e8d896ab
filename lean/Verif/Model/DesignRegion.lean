import Verif.Model.Simulation
import Verif.Model.Filter

/-! # `Simulation.init_design_region` (`angler/simulation.py:306-341`) -/

namespace Angler

/-- The `style` strings of `init_design_region`; any other string (including the default `''`) is `other`. -/
inductive Style | full | halfway | empty | random | random_sym | other
  deriving DecidableEq, Repr

variable {Nx Ny : ℕ}

/-- `np.fliplr(R)[i, j] = R[i, Ny-1-j]` (`simulation.py:335`). -/
def fliplr {α : Type} (R : Grid Nx Ny α) : Grid Nx Ny α := fun i j => R i j.rev

open Classical in
/-- The array assigned to `self.eps_r`, `simulation.py:309-339`; `draw` is the result of `np.random.random(shape)`.  `none`: nothing is assigned.
In the two random styles the new array is a *float* array, so the pixels copied into it (lines 328, 337) lose their imaginary part (numpy only warns). -/
noncomputable def designEps (eps : Grid Nx Ny ℂ) (design : Grid Nx Ny ℝ) (eps_m : ℝ) (style : Style) (draw : Grid Nx Ny ℝ) : Option (Grid Nx Ny ℂ) :=
  match style with
  | .full => some fun i j => if design i j = 1 then (eps_m : ℂ) else eps i j
  | .halfway => some fun i j => if design i j = 1 then ((eps_m / 2 + 1 / 2 : ℝ) : ℂ) else eps i j
  | .empty => some fun i j => if design i j = 1 then 1 else eps i j
  | .random => some fun i j => if design i j = 0 then (((eps i j).re : ℝ) : ℂ) else (((eps_m - 1) * draw i j + 1 : ℝ) : ℂ)
  | .random_sym => some fun i j => if design i j = 0 then (((eps i j).re : ℝ) : ℂ) else (((eps_m - 1) * (1 / 2 * (fliplr draw i j + draw i j)) + 1 : ℝ) : ℂ)
  | .other => none

/-- `init_design_region`, `simulation.py:306-341`, effect on the simulation object itself (aliasing: `Model/Heap.lean`).
The last line stores `eps2rho(self.eps_r, eps_m)`; modelled for real permittivities (`.re`). -/
noncomputable def Sim.init_design_region (s : Sim Nx Ny) (design : Grid Nx Ny ℝ) (eps_m : ℝ) (style : Style) (draw : Grid Nx Ny ℝ) : Sim Nx Ny :=
  let s1 := match designEps s.eps_r design eps_m style draw with
    | some e => s.set_eps_r e
    | none => s
  { s1 with rho := some (some fun i j => eps2rho (s1.eps_r i j).re eps_m) }

end Angler
