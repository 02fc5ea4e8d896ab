import Verif.Model.Constants
import Verif.Model.Grid

/-! # `angler/pml.py` -/

namespace Angler

open Matrix

/-- `sig_w(l, dw, m=4, lnR=-12)`, `pml.py:7-11`, at its default arguments (no caller passes others). -/
noncomputable def sig_w (l dw : ℝ) : ℝ :=
  let sig_max := -(4 + 1) * (-12) / (2 * ETA_0 * dw)
  sig_max * (l / dw) ^ 4

/-- `S(l, dw, omega, L0)`, `pml.py:14-17`. -/
noncomputable def Sfac (l dw omega L0 : ℝ) : ℂ :=
  1 - Complex.I * ((sig_w l dw : ℝ) : ℂ) / ((omega * EPSILON_0 * L0 : ℝ) : ℂ)

/-- `create_sfactor(wrange, L0, s, omega, Nw, Nw_pml)`, `pml.py:20-39`; entry `i` of the returned array.
`wrange = [w0, w1]`; `np.diff(wrange)[0] = w1 - w0`. -/
noncomputable def create_sfactor (wrange : ℝ × ℝ) (L0 : ℝ) (s : Dir) (omega : ℝ) (Nw Nw_pml : ℕ) (i : Fin Nw) : ℂ :=
  if Nw_pml < 1 then 1
  else
    let hw : ℝ := (wrange.2 - wrange.1) / Nw
    let dw : ℝ := Nw_pml * hw
    let iz : ℤ := (i : ℕ)
    match s with
    | .f =>
      if iz ≤ Nw_pml then Sfac (hw * ((Nw_pml : ℝ) - (i : ℕ) + 0.5)) dw omega L0
      else if iz > (Nw : ℤ) - Nw_pml then
        Sfac (hw * (((i : ℕ) : ℝ) - ((Nw : ℝ) - Nw_pml) - 0.5)) dw omega L0
      else 1
    | .b =>
      if iz ≤ Nw_pml then Sfac (hw * ((Nw_pml : ℝ) - (i : ℕ) + 1)) dw omega L0
      else if iz > (Nw : ℤ) - Nw_pml then
        Sfac (hw * (((i : ℕ) : ℝ) - ((Nw : ℝ) - Nw_pml) - 1)) dw omega L0
      else 1

/-- The four diagonal matrices returned by `S_create`, `pml.py:42-89`, in the order `(Sx_f, Sx_b, Sy_f, Sy_b)`. -/
structure SMats (Nx Ny : ℕ) where
  xf : Mat (Nx * Ny) ℂ
  xb : Mat (Nx * Ny) ℂ
  yf : Mat (Nx * Ny) ℂ
  yb : Mat (Nx * Ny) ℂ

/-- `S_create(omega, L0, N, Npml, xrange, yrange)`, `pml.py:42-89`, for a two-dimensional grid:
`Sx_f_2D[i,j] = 1/s_vector_x_f[i]`, `Sy_f_2D[i,j] = 1/s_vector_y_f[j]`, flattened and put on the diagonal. -/
noncomputable def S_create (omega L0 : ℝ) (Nx Ny : ℕ) (NPML : ℕ × ℕ) (xrange yrange : ℝ × ℝ) : SMats Nx Ny where
  xf := spdiag (flatten fun i _ => 1 / create_sfactor xrange L0 .f omega Nx NPML.1 i)
  xb := spdiag (flatten fun i _ => 1 / create_sfactor xrange L0 .b omega Nx NPML.1 i)
  yf := spdiag (flatten fun _ j => 1 / create_sfactor yrange L0 .f omega Ny NPML.2 j)
  yb := spdiag (flatten fun _ j => 1 / create_sfactor yrange L0 .b omega Ny NPML.2 j)

end Angler
