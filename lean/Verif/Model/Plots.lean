import Verif.Model.OptRun
import Verif.Model.ScanPower
import Mathlib.Data.Finset.Lattice.Fold

/-! # Plots: `plt_abs`, `plt_re`, `plt_diff`, `plt_eps` (`simulation.py:352-445`), `plot.py`, `plt_objs`, `plot_it` (`optimization.py:324-375, 449-467`)

What is modelled is the data handed to matplotlib: the array given to `imshow`, the array given to `contour`, the colour limits, and the points of curves.  How matplotlib draws them (colour map, colour
bar, log scale, tick marks, the file format) is not. -/

namespace Angler

variable {Nx Ny : ℕ}

/-- `a.max()`; numpy raises `ValueError` for an empty array. -/
noncomputable def arrMax {m n : ℕ} (g : Grid m n ℝ) : Except PyErr ℝ :=
  if h : (Finset.univ : Finset (Fin m × Fin n)).Nonempty then .ok (Finset.univ.sup' h fun p => g p.1 p.2) else .error .valueError

/-- `a.min()`. -/
noncomputable def arrMin {m n : ℕ} (g : Grid m n ℝ) : Except PyErr ℝ :=
  if h : (Finset.univ : Finset (Fin m × Fin n)).Nonempty then .ok (Finset.univ.inf' h fun p => g p.1 p.2) else .error .valueError

/-- `np.hstack(t*[g])`: `t` copies side by side along the second axis; `ValueError` without any copy. -/
def hstackTile {α : Type} (t : ℕ) (g : Grid Nx Ny α) : Except PyErr (Grid Nx (t * Ny) α) :=
  if t = 0 then .error .valueError else .ok fun i j => g i (finProdFinEquiv.symm j).2

/-- What `plt_base` and `plt_base_eps` (`plot.py:7-59`) hand to matplotlib: the transposed arrays (row index `y`, drawn from the bottom: `origin='lower'`) and the colour limits. -/
structure Picture (rows cols : ℕ) where
  data : Grid rows cols ℝ
  outline : Grid rows cols ℝ
  vmin : ℝ
  vmax : ℝ

/-- `plt_base(field_val, outline_val, …, vmin, vmax, …)`, `plot.py:7-33`; `plt_base_eps`, `plot.py:36-59`, does the same. -/
def plt_base {m n : ℕ} (field_val outline_val : Grid m n ℝ) (vmin vmax : ℝ) : Picture n m :=
  ⟨fun y x => field_val x y, fun y x => outline_val x y, vmin, vmax⟩

namespace Sim

/-- `plt_abs(nl, …, vmin, vmax, …, tiled_y)`, `simulation.py:352-378`.  `np.abs(None)` raises `TypeError`. -/
noncomputable def plt_abs (s : Sim Nx Ny) (nl : Bool := false) (vmin vmax : Option ℝ := none) (tiled_y : ℕ := 1) : Except PyErr (Picture (tiled_y * Ny) Nx) :=
  match s.fields s.pol.comp with
  | none => .error .valueError
  | some f => do
    let eps_r ← hstackTile tiled_y s.eps_r
    let field_val ←
      match (if nl then s.fields_nl s.pol.comp else some f) with
      | none => .error .typeError
      | some F => hstackTile tiled_y fun i j => ‖F i j‖
    let vmax' ←
      match vmax with
      | some v => .ok v
      | none => arrMax field_val
    .ok (plt_base field_val (fun i j => ‖eps_r i j‖) (vmin.getD 0) vmax')

/-- `plt_re(nl, …, tiled_y)`, `simulation.py:380-402`.  `np.real(None)` is an object array, of which `np.abs` raises `TypeError`. -/
noncomputable def plt_re (s : Sim Nx Ny) (nl : Bool := false) (tiled_y : ℕ := 1) : Except PyErr (Picture (tiled_y * Ny) Nx) := do
  let eps_r ← hstackTile tiled_y s.eps_r
  match s.fields s.pol.comp with
  | none => .error .valueError
  | some f =>
    let field_val ←
      match (if nl then s.fields_nl s.pol.comp else some f) with
      | none => .error .typeError
      | some F => hstackTile tiled_y fun i j => (F i j).re
    let v ← arrMax fun i j => |field_val i j|
    .ok (plt_base field_val (fun i j => ‖eps_r i j‖) (-v) v)

/-- The normalisation of `plt_diff`, `simulation.py:421-422`; a zero linear field makes the quotient `nan` or infinite: `nonFinite`. -/
noncomputable def normDiff {m n : ℕ} (field_diff field_lin : Grid m n ℝ) (normalize : Bool) : Except PyErr (Grid m n ℝ) :=
  if normalize then
    match arrMax fun i j => |field_lin i j| with
    | .error e => .error e
    | .ok v => open Classical in if v = 0 then .error .nonFinite else .ok fun i j => field_diff i j / v
  else .ok field_diff

/-- `plt_diff(…, vmax, tiled_y, normalize)`, `simulation.py:404-430`. -/
noncomputable def plt_diff (s : Sim Nx Ny) (vmax : Option ℝ := none) (tiled_y : ℕ := 1) (normalize : Bool := true) : Except PyErr (Picture (tiled_y * Ny) Nx) := do
  let eps_r ← hstackTile tiled_y s.eps_r
  let field_lin ←
    match s.fields s.pol.comp with
    | none => .error .typeError
    | some f => hstackTile tiled_y fun i j => ‖f i j‖
  let field_nl ←
    match s.fields_nl s.pol.comp with
    | none => .error .typeError
    | some F => hstackTile tiled_y fun i j => ‖F i j‖
  let field_diff ← normDiff (fun i j => field_lin i j - field_nl i j) field_lin normalize
  let v ←
    match vmax with
    | some v => .ok v
    | none => arrMax fun i j => |field_diff i j|
  .ok (plt_base field_diff (fun i j => ‖eps_r i j‖) (-v) v)

/-- `plt_eps(…, tiled_y)`, `simulation.py:432-445`. -/
noncomputable def plt_eps (s : Sim Nx Ny) (tiled_y : ℕ := 1) : Except PyErr (Picture (tiled_y * Ny) Nx) := do
  let eps_r ← hstackTile tiled_y s.eps_r
  let a : Grid Nx (tiled_y * Ny) ℝ := fun i j => ‖eps_r i j‖
  let lo ← arrMin a
  let hi ← arrMax a
  .ok (plt_base a a lo hi)

end Sim

/-- The argument `norm` of `plt_objs`. -/
inductive ObjNorm | none | field | power

namespace Opt

/-- `o/a` of two floats in `plt_objs`; a zero denominator gives `inf` or `nan`. -/
noncomputable def divObj (o a : ℝ) : Except PyErr ℝ := open Classical in if a = 0 then .error .nonFinite else .ok (o / a)

/-- `plt_objs(norm, ax)`, `optimization.py:449-467`: the points `(iteration, value)` of the curve.  `ax` is used as it is given, and the default is `None` (`AttributeError` at `ax.set_ylabel`);
`ax.plot` raises `ValueError` if the two lists differ in length. -/
noncomputable def plt_objs (o : Opt Nx Ny) (norm : ObjNorm := .none) (ax : Bool := false) : Except PyErr (List (ℕ × ℝ)) := do
  let iter_range := (List.range o.objfn_list.length).map (· + 1)
  let obj_scaled ←
    match norm with
    | .field => (o.objfn_list.zip o.src_amplitudes).mapM fun p => divObj p.1 p.2
    | .power => (o.objfn_list.zip o.src_amplitudes).mapM fun p => divObj p.1 (p.2 ^ 2)
    | .none => .ok o.objfn_list
  if ax = false then .error .attributeError
  else if obj_scaled.length ≠ iter_range.length then .error .valueError
  else .ok (iter_range.zip obj_scaled)

/-- A value for `Temp_plt.plot_what` (`plot.py:91-99`): a tuple of names, or a string, which Python takes as the tuple of its characters. -/
inductive PlotWhat
  | tuple (l : List String)
  | str (s : String)

/-- The items over which `enumerate(plot_what)` runs. -/
def PlotWhat.items : PlotWhat → List String
  | .tuple l => l
  | .str s => s.toList.map String.singleton

/-- The default `plot_what=('eps')` of `Temp_plt.__init__`, `plot.py:92`: without a comma this is the string `'eps'`. -/
def PlotWhat.default : PlotWhat := .str "eps"

/-- One drawn panel of `plot_it`. -/
inductive Panel (Nx Ny : ℕ)
  | picture (p : Picture (1 * Ny) Nx)
  | curve (l : List (ℕ × ℝ))

/-- One pass of the loop of `plot_it`, `optimization.py:351-372`: nothing for an unknown name. -/
noncomputable def panel (o : Opt Nx Ny) (vmin vmax : ℝ) (name : String) : Except PyErr (Option (Panel Nx Ny)) :=
  if name = "eps" then (o.simulation.plt_eps).map fun p => some (.picture p)
  else if name = "of" then (o.plt_objs .none true).map fun c => some (.curve c)
  else if name = "elin" then (o.simulation.plt_abs false (some vmin) (some vmax)).map fun p => some (.picture p)
  else if name = "enl" then (o.simulation.plt_abs true (some vmin) (some vmax)).map fun p => some (.picture p)
  else .ok none

/-- The figure and the loop of `plot_it`, `optimization.py:344-372`: the panels that get a picture, by position.  `plt.subplots(1, 1)` returns the axes themselves, not an array, so that `axs[n]` raises
`TypeError`; `plt.subplots(1, 0)` raises `ValueError`. -/
noncomputable def plotPanels (o : Opt Nx Ny) (vmin vmax : ℝ) (items : List String) : Except PyErr (List (ℕ × Panel Nx Ny)) :=
  if items.length = 0 then .error .valueError
  else if items.length = 1 then
    (if items.any fun n => n = "eps" ∨ n = "of" ∨ n = "elin" ∨ n = "enl" then .error .typeError else .ok [])
  else
    match items.mapM (o.panel vmin vmax) with
    | .error e => .error e
    | .ok ps => .ok (ps.zipIdx.filterMap fun p => p.1.map fun q => (p.2, q))

/-- `plot_it(iteration)`, `optimization.py:324-375`, for a simulation with stored input power `W_in` (`none`: the attribute was never set).  A negative `W_in` makes `vmin` `nan`: `nonFinite`.
What matplotlib does with the data (logarithmic colours, saving the file) is not modelled. -/
noncomputable def plot_it (o : Opt Nx Ny) (W_in : Option ℝ) (what : PlotWhat) : Except PyErr (List (ℕ × Panel Nx Ny)) :=
  match W_in with
  | none => .error .attributeError
  | some W =>
    open Classical in
    if W < 0 then .error .nonFinite
    else
      match o.simulation.fields .Ez with
      | none => .error .typeError
      | some Ez =>
        match arrMax fun i j => ‖Ez i j‖ with
        | .error e => .error e
        | .ok m => o.plotPanels (4 * Real.sqrt W) (m / 1.5) what.items

end Opt

end Angler
