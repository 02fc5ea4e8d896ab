import Verif.Model.Grid

/-! # `angler/derivatives.py` -/

namespace Angler

open Matrix

/-- `createDws(w, s, [dx, dy], [Nx, Ny])`, `derivatives.py:7-40`.
The string tests `w is 'x'`, `s is 'f'` are modelled as equality (they are identity tests on interned literals; every call in the
package passes a literal).  In the size-one branches (`derivatives.py:29,39`) the code returns `sp.eye(Ny)` resp. `sp.eye(Nx)`; since then
`Nx = 1` (resp. `Ny = 1`) this is the identity of size `Nx*Ny`. -/
noncomputable def createDws (w : Axis) (s : Dir) (dx dy : ℝ) (Nx Ny : ℕ) : Mat (Nx * Ny) ℂ :=
  match w with
  | .x =>
    if 1 < Nx then
      match s with
      | .f => (1 / (dx : ℂ)) • kron (diags Nx [-1, 1, 1] [0, 1, -(Nx : ℤ) + 1]) (1 : Mat Ny ℂ)
      | .b => (1 / (dx : ℂ)) • kron (diags Nx [1, -1, -1] [0, -1, (Nx : ℤ) - 1]) (1 : Mat Ny ℂ)
    else 1
  | .y =>
    if 1 < Ny then
      match s with
      | .f => (1 / (dy : ℂ)) • kron (1 : Mat Nx ℂ) (diags Ny [-1, 1, 1] [0, 1, -(Ny : ℤ) + 1])
      | .b => (1 / (dy : ℂ)) • kron (1 : Mat Nx ℂ) (diags Ny [1, -1, -1] [0, -1, (Ny : ℤ) - 1])
    else 1

end Angler
