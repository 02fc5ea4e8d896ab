import Verif.Model.Device
import Verif.Model.Plots

/-! # `data/plot_generator.py` and `data/TOC_generator.py`

The figures of the paper, drawn from a `Device` (`data/device_saver.py`).  What is modelled is the data handed to matplotlib: the coordinates and the arrays of the panels of the permittivity and of the
fields, their colour limits, the points and legends of the curves.  Left out: the drawing of the empty structure (`structures.py`, modelled elsewhere) except for the exception raised by calling
`three_port` with an argument missing; arrows, texts and scale bars; the imports (`from fdfdpy import …` and `from structures import …` need packages that are not in the repository).  The permittivity
is taken to be real (the real part is drawn). -/

namespace Angler

variable {Nx Ny : ℕ}

/-- `pad_array(array, padding, val)`, `plot_generator.py:55-60`: the transposed array between two blocks of `padding` rows filled with `val`. -/
def pad_array (array : Grid Nx Ny ℝ) (padding : ℕ) (val : ℝ) : Grid (padding + Ny + padding) Nx ℝ :=
  fun r i => if h : padding ≤ r.val ∧ r.val - padding < Ny then array i ⟨r.val - padding, h.2⟩ else val

/-- `pad_list(ls, padding, dl)`, `plot_generator.py:62-67`. -/
noncomputable def pad_list (ls : List ℝ) (padding : ℕ) (dl : ℝ) : List ℝ :=
  let N_new := ls.length + 2 * padding
  let n : ℝ := (N_new : ℝ) / 2
  (List.range N_new).map fun l : ℕ => dl * ((l : ℝ) - n)

/-- `np.flipud(array.T)`. -/
def flipT (array : Grid Nx Ny ℝ) : Grid Ny Nx ℝ := fun r i => array i r.rev

/-- A figure: coordinates of the columns and rows, the permittivity, the two field panels with their common colour limits, the curve of the objective function, the curves of the power scan with their
legends, and the power marked by the dashed line. -/
structure PaperFigure (rows cols : ℕ) where
  xs : List ℝ
  ys : List ℝ
  eps : Grid rows cols ℝ
  lin : Grid rows cols ℝ
  nl : Grid rows cols ℝ
  vmin : ℝ
  vmax : ℝ
  objective : List (ℕ × ℝ)
  power : List (String × List (ℝ × PyFloat))
  marked : ℝ

namespace Device

/-- `E / np.sqrt(D.W_in)`, `plot_generator.py:199,237,645,681`; without a positive input power the result is not finite. -/
noncomputable def scaled {m n : ℕ} (E : Grid m n ℝ) (W_in : ℝ) : Except PyErr (Grid m n ℝ) :=
  open Classical in if 0 < W_in then .ok fun i j => E i j / Real.sqrt W_in else .error .nonFinite

/-- `(range(1, len(obj_list) + 1), obj_list)`, `plot_generator.py:271-273,713-715`. -/
def objective_curve (l : List ℝ) : List (ℕ × ℝ) := (List.range l.length).map (· + 1) |>.zip l

/-- `(D.powers, D.transmissions[k])`, `plot_generator.py:292,722-723`. -/
def power_curve (p : List ℝ × List (List PyFloat)) (k : ℕ) : Except PyErr (List (ℝ × PyFloat)) :=
  match p.2[k]? with
  | none => .error .indexError
  | some t => if p.1.length = t.length then .ok (p.1.zip t) else .error .valueError

/-- `plot_two_port(D)`, `plot_generator.py:76-307`. -/
noncomputable def plot_two_port (D : Device Nx Ny) : Except PyErr (PaperFigure (50 + Ny + 50) Nx) := do
  let y_range ← attr D.y_range
  let dl ← attr D.dl
  let ys := pad_list y_range 50 dl
  let xs ← attr D.x_range
  let Ez ← attr D.Ez
  let W_in ← attr D.W_in
  let E_lin ← scaled (pad_array (fun i j => ‖Ez i j‖) 50 1e-3) W_in
  let m ← arrMax E_lin
  let Ez_nl ← attr D.Ez_nl
  let E_nl ← scaled (pad_array (fun i j => ‖Ez_nl i j‖) 50 1e-3) W_in
  let powers ← attr D.powers
  let t ← power_curve powers 0
  return { xs := xs, ys := ys, eps := pad_array (fun i j => (D.simulation.eps_r i j).re) 50 1, lin := E_lin, nl := E_nl, vmin := 3, vmax := m / 1.5,
           objective := objective_curve D.optimization.objfn_list, power := [("", t)], marked := W_in }

/-- `plot_ortho_port(D)`, `plot_generator.py:522-734`. -/
noncomputable def plot_ortho_port (D : Device Nx Ny) : Except PyErr (PaperFigure Ny Nx) := do
  let xs ← attr D.x_range
  let ys ← attr D.y_range
  let Ez ← attr D.Ez
  let W_in ← attr D.W_in
  let E_lin ← scaled (flipT fun i j => ‖Ez i j‖) W_in
  let m ← arrMax E_lin
  let Ez_nl ← attr D.Ez_nl
  let E_nl ← scaled (flipT fun i j => ‖Ez_nl i j‖) W_in
  let powers ← attr D.powers
  let t0 ← power_curve powers 0
  let t1 ← power_curve powers 1
  return { xs := xs, ys := ys, eps := flipT (fun i j => (D.simulation.eps_r i j).re), lin := E_lin, nl := E_nl, vmin := 8, vmax := m / 1.5,
           objective := objective_curve D.optimization.objfn_list, power := [("right port", t0), ("bottom port", t1)], marked := W_in }

/-- `plot_Device(D)`, `plot_generator.py:42-53`.  `plot_three_port` (`plot_generator.py:315-514`) calls `three_port` with eight arguments, of which nine are required (line 326). -/
noncomputable def plot_Device (D : Device Nx Ny) : Except PyErr (Σ rows, PaperFigure rows Nx) :=
  match D.geometry with
  | none => .error .attributeError
  | some (.two_port _) => do return ⟨_, ← D.plot_two_port⟩
  | some (.three_port _ _ _) => .error .typeError
  | some (.ortho_port _ _) => do return ⟨_, ← D.plot_ortho_port⟩

/-- `plot_Device(D)` of `TOC_generator.py:29-40`: `plot_two_port` and `plot_three_port` are not defined there, and `plot_ortho_port` (`TOC_generator.py:53-137`) reads the local name `eps_final` (line
80), which nothing assigns, after the linear field has been drawn. -/
noncomputable def toc_plot_Device (D : Device Nx Ny) : Except PyErr (PaperFigure Ny Nx) :=
  match D.geometry with
  | none => .error .attributeError
  | some (.two_port _) => .error .nameError
  | some (.three_port _ _ _) => .error .nameError
  | some (.ortho_port _ _) => do
    let Ez ← attr D.Ez
    let W_in ← attr D.W_in
    let E_lin ← scaled (flipT fun i j => ‖Ez i j‖) W_in
    let _ ← arrMax E_lin
    let _ ← attr D.x_range
    let _ ← attr D.y_range
    .error .nameError

end Device

end Angler
