import Verif.Model.Objective
import Verif.Model.Structures
import Verif.Model.Mode
import Verif.Model.Plots
import Mathlib.Analysis.SpecialFunctions.Complex.Circle
import Mathlib.Algebra.BigOperators.Field

/-! # The accelerator notebooks (`Notebooks/Accelerator.ipynb`, `Notebooks/Accelerator_multi_channel.ipynb`)

The source, the normalisation and the objective functions of the cells of these notebooks.  The weights `eta` do not depend on the fields, so an exception raised while they are built is an exception
of building the objective here. -/

namespace Angler

variable {Nx Ny : ℕ}

/-- `a[r, :] = v` for a two-dimensional array. -/
def setRow {α : Type} (a : Grid Nx Ny α) (r : ℤ) (v : Fin Ny → α) : Except PyErr (Grid Nx Ny α) := do
  let k ← Mode.pyIndex Nx r
  return fun i j => if i = k then v j else a i j

/-- `simulation.src = np.zeros((Nx, Ny)); simulation.src[NPML[0] + int(spc/dl), :] = amp` (cell 7 of `Accelerator.ipynb`, `amp = 1e-9`): a line current. -/
noncomputable def lineSource (Nx Ny : ℕ) (NPML : ℤ × ℤ) (spc dl : ℝ) (amp : ℂ) : Except PyErr (Grid Nx Ny ℂ) :=
  if dl = 0 then .error .zeroDivisionError else setRow (fun _ _ => 0) (NPML.1 + pyInt (spc / dl)) fun _ => amp

/-- The row `1/Ny*npa.exp(1j*2*npa.pi*dl*npa.linspace(0, Ny-1, Ny)/beta/lambda0)` (cell 10 of `Accelerator.ipynb`). -/
noncomputable def electronRow (Ny : ℕ) (dl beta lambda0 : ℝ) : Except PyErr (Fin Ny → ℂ) :=
  if Ny = 0 then .error .zeroDivisionError
  else open Classical in if beta = 0 ∨ lambda0 = 0 then .error .nonFinite
  else .ok fun j => 1 / (Ny : ℂ) * Complex.exp (Complex.I * 2 * Real.pi * dl * (npLinspace 0 ((Ny : ℝ) - 1) Ny j : ℝ) / beta / lambda0)

/-- `E0 = np.mean(np.abs(Ey[nx, :]))`, `nx = int(Nx/2)` (cells 5 and 8 of `Accelerator.ipynb`); the mean of an empty row is `nan`. -/
noncomputable def meanRow (Ey : Grid Nx Ny ℂ) : Except PyErr ℝ := do
  let k ← Mode.pyIndex Nx (pyInt ((Nx : ℝ) / 2))
  if Ny = 0 then .error .nonFinite else return (∑ j, ‖Ey k j‖) / Ny

/-- The weights `eta` of `J` in `Accelerator.ipynb` (cell 10). -/
noncomputable def accelEta (Nx Ny : ℕ) (dl beta lambda0 : ℝ) : Except PyErr (Grid Nx Ny ℂ) := do
  let v ← electronRow Ny dl beta lambda0
  setRow (fun _ _ => 0) (pyInt ((Nx : ℝ) / 2)) v

open Classical in
/-- `J(ey)` of `Accelerator.ipynb` (cell 10): `npa.sum(npa.real(ey*eta)) / E0`, with the derivative autograd gives for it. -/
noncomputable def accelJ (Nx Ny : ℕ) (dl beta lambda0 E0 : ℝ) : Except PyErr (ObjFn Nx Ny) := do
  let eta ← accelEta Nx Ny dl beta lambda0
  if E0 = 0 then .error .nonFinite else return { arity := 1, eval := fun x => (∑ i, ∑ j, (x 0 i j * eta i j).re) / E0, partials := fun _ _ i j => eta i j / E0 }

/-- One pass of the loop `for center in centers` (cell 10 of `Accelerator_multi_channel.ipynb`). -/
noncomputable def addChannel (dl beta lambda0 : ℝ) (eta : Grid Nx Ny ℂ) (center : ℝ) : Except PyErr (Grid Nx Ny ℂ) :=
  if dl = 0 then .error .zeroDivisionError
  else do
    let v ← electronRow Ny dl beta lambda0
    let eta1 ← setRow eta (pyInt ((Nx : ℝ) / 2) - pyInt (center / dl)) v
    setRow eta1 (pyInt ((Nx : ℝ) / 2) + pyInt (center / dl)) v

/-- `centers = [i * (gap + L) for i in range(num_channels//2+1)]` and the loop over it (cell 10 of `Accelerator_multi_channel.ipynb`): the weights of all channels. -/
noncomputable def multiEta (Nx Ny : ℕ) (dl beta lambda0 gap L : ℝ) (num_channels : ℤ) : Except PyErr (Grid Nx Ny ℂ) :=
  ((List.range (num_channels / 2 + 1).toNat).map fun i : ℕ => (i : ℝ) * (gap + L)).foldlM (addChannel dl beta lambda0) fun _ _ => 0

open Classical in
/-- `J(ex, ey)` of `Accelerator_multi_channel.ipynb` (cell 10); where numpy would return `nan` or `inf` the model returns `nonFinite`. -/
noncomputable def multiGain (dl beta lambda0 gap L : ℝ) (num_channels : ℤ) (ex ey : Grid Nx Ny ℂ) : Except PyErr ℝ := do
  let eta ← multiEta Nx Ny dl beta lambda0 gap L num_channels
  let mx ← arrMax fun i j => ‖ex i j‖
  let my ← arrMax fun i j => ‖ey i j‖
  if Real.sqrt (mx ^ 2 + my ^ 2) = 0 ∨ num_channels = 0 then .error .nonFinite else return (∑ i, ∑ j, (ey i j * eta i j).re) / Real.sqrt (mx ^ 2 + my ^ 2) / num_channels

end Angler
