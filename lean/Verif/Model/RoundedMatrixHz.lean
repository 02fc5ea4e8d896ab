import Verif.Model.RoundedMatrix

/-! # Floating-point assembly of the Hz system matrix (`angler/linalg.py`)

The Hz branch of `construct_A` with every operation rounded, in the same arithmetic as `Model/RoundedMatrix.lean`. -/

namespace Angler.FlLib

variable {Nx Ny : ℕ}

/-- `grid_average(center_array, w)`, `linalg.py:19-25`, rounded. -/
noncomputable def grid_average (F : FlLib) (a : Grid Nx Ny ℂ) (w : Axis) : Grid Nx Ny ℂ :=
  match w with
  | .x => fun i j => F.rndC (F.addC (a (rollBack i) j) (a i j) / 2)
  | .y => fun i j => F.rndC (F.addC (a i (rollBack j)) (a i j) / 2)

/-- `vector_eps_x` and `vector_eps_y`, `linalg.py:72-77`. -/
noncomputable def vector_eps (F : FlLib) (averaging : Bool) (eps_r : Grid Nx Ny ℂ) (L0 : ℝ) (w : Axis) : Vec (Nx * Ny) ℂ :=
  let E0 := F.mul F.eps0 L0
  if averaging then flatten (F.grid_average (fun i j => F.mulC (E0 : ℝ) (eps_r i j)) w) else fun k => F.mulC (E0 : ℝ) (flatten eps_r k)

/-- `A` of the Hz branch of `construct_A`, `linalg.py:71-96`.  The reciprocals of real arrays are those of the complex numbers with imaginary part 0. -/
noncomputable def construct_A_Hz (F : FlLib) (omega dl : ℝ) (eps_r : Grid Nx Ny ℂ) (NPML : ℕ × ℕ) (L0 : ℝ) (averaging : Bool := true) : Mat (Nx * Ny) ℂ :=
  let M0 := F.mul F.mu0 L0
  let D (w : Axis) (s : Dir) := F.deriv w s dl L0 omega Nx Ny NPML
  let T (w : Axis) : Mat (Nx * Ny) ℂ := spdiag fun k => F.cinv (F.vector_eps averaging eps_r L0 w k)
  let block (w : Axis) := F.matMul (F.matMul (D w .f) (T w)) (D w .b)
  Matrix.of fun i j => F.addC (F.addC (block .x i j) (block .y i j)) (F.mulC (F.mul (F.mul omega omega) M0 : ℝ) ((1 : Mat (Nx * Ny) ℂ) i j))

end Angler.FlLib
