import Verif.Model.Plots
import Verif.Model.ScanPower
import Mathlib.Analysis.SpecialFunctions.Trigonometric.Basic
import Mathlib.Analysis.SpecialFunctions.Complex.Circle

/-! # Animations, plots of power scans, progress bar -/

namespace Angler

variable {Nx Ny : ℕ}

/-- What `plt_base_ani` hands to matplotlib: the frames (row index `y`), the colour limits, and the numbers of rows and columns of the array `imshow` lays out the axes for (line 67:
the transpose of the already transposed array; `set_data` replaces the pixels and keeps the extent). -/
structure Movie (rows cols : ℕ) where
  layout : ℕ × ℕ
  frames : List (Grid rows cols ℝ)
  vmin : ℝ
  vmax : ℝ

/-- `animate(i)`, `plot.py:80-83`, of the array before the transposition of line 64; `Nframes - 1` is an integer, so one frame means a division by zero. -/
noncomputable def animate (field_val : Grid Nx Ny ℂ) (Nframes : ℤ) (i : ℕ) : Except PyErr (Grid Ny Nx ℝ) :=
  if Nframes - 1 = 0 then .error .zeroDivisionError
  else .ok fun y x => (field_val x y * Complex.exp (Complex.I * 2 * Real.pi * i / ((Nframes - 1 : ℤ) : ℂ))).re

/-- `plt_base_ani(field_val, cbar, Nframes, interval)`, `plot.py:62-88`, played once: `FuncAnimation` calls `init` and then `animate(0)`, …, `animate(Nframes - 1)`. -/
noncomputable def plt_base_ani (field_val : Grid Nx Ny ℂ) (Nframes : ℕ := 40) : Except PyErr (Movie Ny Nx) :=
  match arrMax fun i j => ‖field_val i j‖ with
  | .error e => .error e
  | .ok vmax =>
    match (List.range Nframes).mapM (animate field_val Nframes) with
    | .error e => .error e
    | .ok fs => .ok ⟨(Nx, Ny), fs, -vmax, vmax⟩

/-- The curves of `plot_transmissions(transmissions, legend)`, `optimization.py:580-590`: `plt.plot(p)` with one argument draws the entries of the list against `0, 1, 2, …`. -/
def plot_transmissions (transmissions : List (List PyFloat)) : List (List (ℕ × PyFloat)) := transmissions.map fun p => p.zipIdx.map fun q => (q.2, q.1)

end Angler
