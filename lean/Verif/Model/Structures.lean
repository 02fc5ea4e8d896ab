import Verif.Model.Grid
import Verif.Model.Py

/-! # `angler/structures.py`

Real parameters; `NPML` a pair of integers.  Every structure computes the size of its grid, so it returns a `Structure` carrying it.  `int(…/dl)` with `dl = 0` raises
`ZeroDivisionError`; a negative size makes `np.linspace` raise `ValueError` and an empty grid makes `np.vectorize` raise `ValueError`. -/

namespace Angler

/-- A region: a function of two coordinates returning a boolean. -/
abbrev Region := ℝ → ℝ → Prop

/-- `np.linspace(a, b, N)[k]` (`N = 1` gives `a`). -/
noncomputable def npLinspace (a b : ℝ) (N k : ℕ) : ℝ := if N ≤ 1 then a else a + k * ((b - a) / ((N : ℝ) - 1))

/-- One coordinate vector of `get_grid(shape, dl)`, `structures.py:16-17`. -/
noncomputable def gridCoord (N : ℕ) (dl : ℝ) (k : ℕ) : ℝ := npLinspace (-(N : ℝ) / 2 * dl) ((N : ℝ) / 2 * dl) N k

/-- `get_grid(shape, dl)`, `structures.py:10-21`. -/
noncomputable def get_grid (Nx Ny : ℕ) (dl : ℝ) : Grid Nx Ny ℝ × Grid Nx Ny ℝ := (fun i _ => gridCoord Nx dl i, fun _ j => gridCoord Ny dl j)

open Classical in
/-- The loop of `apply_regions`, `structures.py:31-38`. -/
noncomputable def paint {Nx Ny : ℕ} (regs : List Region) (xs ys : Grid Nx Ny ℝ) (eps_start eps_background : ℝ) : Grid Nx Ny ℝ :=
  regs.foldl (fun eps reg => fun i j => if reg (xs i j) (ys i j) then eps_start else eps i j) fun _ _ => eps_background * 1

/-- `apply_regions(reg_list, xs, ys, eps_start, eps_background)`, `structures.py:24-40`, for a list.  `np.vectorize` raises `ValueError` on an empty grid (but is only reached when
there is a region). -/
noncomputable def apply_regions {Nx Ny : ℕ} (regs : List Region) (xs ys : Grid Nx Ny ℝ) (eps_start : ℝ) (eps_background : ℝ := 1) : Except PyErr (Grid Nx Ny ℝ) :=
  if regs ≠ [] ∧ Nx * Ny = 0 then .error .valueError else .ok (paint regs xs ys eps_start eps_background)

/-- The pair `(eps_r, design_region)` returned by the structure functions. -/
structure Structure where
  Nx : ℕ
  Ny : ℕ
  eps_r : Grid Nx Ny ℝ
  design_region : Grid Nx Ny ℝ

/-- The common end of the structure functions: `get_grid` on the integer shape, paint `regs`, paint `des` with 2 and subtract 1. -/
noncomputable def build (Nx Ny : ℤ) (dl : ℝ) (regs des : List Region) (eps_start : ℝ) (eps_background : ℝ := 1) : Except PyErr Structure :=
  if Nx < 0 ∨ Ny < 0 then .error .valueError
  else
    let g := get_grid Nx.toNat Ny.toNat dl
    match apply_regions regs g.1 g.2 eps_start eps_background with
    | .error e => .error e
    | .ok eps =>
      match apply_regions des g.1 g.2 2 with
      | .error e => .error e
      | .ok d => .ok ⟨Nx.toNat, Ny.toNat, eps, fun i j => d i j - 1⟩

/-- The regions of `three_port`, `structures.py:68-73`: `box`, `wg_in`, `wg_top`, `wg_bot` (`y_mid`, `y_bot`, `y_top`, `wg_width_px` of lines 59-62). -/
noncomputable def threePortRegions (L H w d dl : ℝ) (Ny : ℤ) : Region × List Region :=
  let ny := pyInt (Ny / 2)
  let y_mid := dl * pyInt (Ny / 2 - ny)
  let y_bot := dl * pyInt (Ny / 2 - ny - d / 2 / dl)
  let y_top := dl * pyInt (Ny / 2 - ny + d / 2 / dl)
  let wg_width_px := pyInt (w / dl)
  let box : Region := fun x y => |x| < L / 2 ∧ |y - y_mid| < H / 2
  let wg_in : Region := fun x y => x < 0 ∧ |y - y_mid| < dl * wg_width_px / 2
  let wg_top : Region := fun x y => 0 < x ∧ |y - y_bot| < dl * wg_width_px / 2
  let wg_bot : Region := fun x y => 0 < x ∧ |y - y_top| < dl * wg_width_px / 2
  (box, [box, wg_in, wg_top, wg_bot])

open Classical in
/-- `three_port(L, H, w, d, l, spc, dl, NPML, eps_start, eps_background)`, `structures.py:43-78`. -/
noncomputable def three_port (L H w d l spc dl : ℝ) (NPML : ℤ × ℤ) (eps_start : ℝ) (eps_background : ℝ := 1) : Except PyErr Structure :=
  if dl = 0 then .error .zeroDivisionError
  else
    let Nx := 2 * NPML.1 + pyInt ((2 * l + L) / dl)
    let Ny := 2 * NPML.2 + pyInt ((H + 2 * spc) / dl)
    let r := threePortRegions L H w d dl Ny
    build Nx Ny dl r.2 [r.1] eps_start eps_background

open Classical in
/-- `two_port(L, H, w, l, spc, dl, NPML, eps_start)`, `structures.py:81-108`. -/
noncomputable def two_port (L H w l spc dl : ℝ) (NPML : ℤ × ℤ) (eps_start : ℝ) : Except PyErr Structure :=
  if dl = 0 then .error .zeroDivisionError
  else
    let Nx := 2 * NPML.1 + pyInt ((2 * l + L) / dl)
    let Ny := 2 * NPML.2 + pyInt ((H + 2 * spc) / dl)
    let box : Region := fun x y => |x| < L / 2 ∧ |y| < H / 2
    let wg : Region := fun _ y => |y| < w / 2
    build Nx Ny dl [wg] [box] eps_start

open Classical in
/-- `N_port(N, L, H, w, d, l, spc, dl, NPML, eps_start, eps_background)`, `structures.py:111-149`; `range(N)` is empty for negative `N`, hence a natural number. -/
noncomputable def N_port (N : ℕ) (L H w d l spc dl : ℝ) (NPML : ℤ × ℤ) (eps_start : ℝ) (eps_background : ℝ := 1) : Except PyErr Structure :=
  if dl = 0 then .error .zeroDivisionError
  else
    let Nx := 2 * NPML.1 + pyInt ((2 * l + L) / dl)
    let Ny := 2 * NPML.2 + pyInt ((H + 2 * spc) / dl)
    let wg_width_px := pyInt (w / dl)
    let box : Region := fun x y => |x| < L / 2 ∧ |y - 0| < H / 2
    let wg_in : Region := fun x y => x < 0 ∧ |y - 0.01| < dl * wg_width_px / 2
    let outs : List Region := (List.range N).map fun i : ℕ => fun x y => 0 < x ∧ |y - ((i : ℝ) - ((N : ℝ) - 1) / 2) * d| < dl * wg_width_px / 2
    build Nx Ny dl ([box, wg_in] ++ outs) [box] eps_start eps_background

open Classical in
/-- `ortho_port(L, L2, H, H2, w, l, dl, NPML, eps_start)`, `structures.py:151-184`. -/
noncomputable def ortho_port (L L2 H H2 w l dl : ℝ) (NPML : ℤ × ℤ) (eps_start : ℝ) : Except PyErr Structure :=
  if dl = 0 then .error .zeroDivisionError
  else
    let Nx := 2 * NPML.1 + pyInt ((2 * l + L) / dl)
    let Ny := 2 * NPML.2 + pyInt ((2 * l + H) / dl)
    let box : Region := fun x y => |x| < L / 2 ∧ |y| < w / 2
    let box2 : Region := fun x y => |x| < L2 / 2 ∧ |y| < H2 / 2
    let box3 : Region := fun x y => (-w / 2 < x ∧ x < w / 2 + dl / 2) ∧ (-H2 / 2 < y ∧ y < H / 2)
    let wg : Region := fun _ y => |y| < w / 2
    let wg2 : Region := fun x y => (-w / 2 < x ∧ x < w / 2 + dl / 2) ∧ 0 < y
    build Nx Ny dl [wg, wg2] [box, box2, box3] eps_start

open Classical in
/-- `accelerator(beta, gap, lambda0, L, spc, dl, NPML, eps_start)`, `structures.py:187-214`. -/
noncomputable def accelerator (beta gap lambda0 L spc dl : ℝ) (NPML : ℤ × ℤ) (eps_start : ℝ) : Except PyErr Structure :=
  if dl = 0 then .error .zeroDivisionError
  else
    let Nx := 2 * NPML.1 + pyInt ((4 * spc + 2 * L + gap) / dl)
    let Ny := pyInt (beta * lambda0 / dl)
    let des : Region := fun x _ => gap / 2 < |x| ∧ |x| < gap / 2 + L
    build Nx Ny dl [des] [des] eps_start

open Classical in
/-- `accelerator_multi(beta, gap, lambda0, L, spc, num_channels, dl, NPML, eps_start)`, `structures.py:216-254`; `num_channels` an integer, `%` and `//` the floor versions. -/
noncomputable def accelerator_multi (beta gap lambda0 L spc : ℝ) (num_channels : ℤ) (dl : ℝ) (NPML : ℤ × ℤ) (eps_start : ℝ) : Except PyErr Structure :=
  if num_channels % 2 ≠ 1 then .error .valueError
  else if dl = 0 then .error .zeroDivisionError
  else
    let Nx := 2 * NPML.1 + pyInt ((4 * spc + 2 * L * num_channels + gap * num_channels) / dl)
    let Ny := pyInt (beta * lambda0 / dl)
    let des : List Region := (List.range (num_channels / 2 + 1).toNat).map fun i : ℕ => fun x _ => gap / 2 < |x| - (i : ℝ) * (gap + L) ∧ |x| - (i : ℝ) * (gap + L) < gap / 2 + L
    build Nx Ny dl des des eps_start

end Angler
