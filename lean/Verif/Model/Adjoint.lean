import Verif.Model.NonlinearSolvers
import Mathlib.Logic.Equiv.Fin.Basic

/-! # `angler/adjoint.py` -/

namespace Angler

open Matrix

variable {Nx Ny : ℕ}

/-- `adjoint_linear_Ez(simulation, b_aj)`, `adjoint.py:12-26`. -/
noncomputable def adjoint_linear_Ez (env : Env) (s : Sim Nx Ny) (b_aj : Grid Nx Ny ℂ) : Grid Nx Ny ℂ :=
  unflatten (solver_direct env s.Aᵀ (flatten b_aj))

/-- `adjoint_linear_Hz(simulation, b_aj, averaging)`, `adjoint.py:29-61`. -/
noncomputable def adjoint_linear_Hz (env : Env) (s : Sim Nx Ny) (b_aj : Grid Nx Ny ℂ) (averaging : Bool := false) :
    Grid Nx Ny ℂ × Grid Nx Ny ℂ :=
  let hz := solver_direct env s.Aᵀ (flatten b_aj)
  let e := Sim.eps_xy s.L0 averaging s.eps_r
  let ex := (1 / Complex.I / (s.omega : ℂ)) • ((spdiag (fun k => 1 / e.2 k) * s.derivs.Dyfᵀ) *ᵥ hz)
  let ey := (-1 / Complex.I / (s.omega : ℂ)) • ((spdiag (fun k => 1 / e.1 k) * s.derivs.Dxfᵀ) *ᵥ hz)
  (unflatten ex, unflatten ey)

/-- The matrix `C_full` of `adjoint.py:80-82`, with the two halves stacked in one index range as scipy does:
`[[C11, C12], [conj C12, conj C11]]`. -/
def stackConj {n : ℕ} (C11 C12 : Mat n ℂ) : Mat (n + n) ℂ :=
  Matrix.reindex finSumFinEquiv finSumFinEquiv
    (Matrix.fromBlocks C11 C12 (C12.map (starRingEnd ℂ)) (C11.map (starRingEnd ℂ)))

/-- `np.vstack((b, conj b)).reshape((-1,))` (`adjoint.py:85`, flattened by `solver_direct`, `linalg.py:127`). -/
def stackVec {n : ℕ} (b : Vec n ℂ) : Vec (n + n) ℂ := Fin.append b fun k => (starRingEnd ℂ) (b k)

/-- The solution vector `ez` of `adjoint_kerr_Ez`, `adjoint.py:75-85`: uses `fields_nl['Ez']`, `Anl` and `dnl_de` as the last nonlinear solve left them.
`simulation.Anl` absent: `AttributeError`; no stored field: `TypeError` from `dAde*None`. -/
noncomputable def adjoint_kerr_vec (env : Env) (s : Sim Nx Ny) (b_aj : Grid Nx Ny ℂ) : Except PyErr (Vec (Nx * Ny + Nx * Ny) ℂ) :=
  match s.Anl with
  | none => .error .attributeError
  | some Anl0 =>
    match s.fields_nl .Ez with
    | none => .error .typeError
    | some Ez =>
      let Anl := s.A + Anl0
      let dAde : Vec (Nx * Ny) ℂ := fun k => (s.omega : ℂ) ^ 2 * ((EPSILON_0 * s.L0 : ℝ) : ℂ) * flatten s.dnl_de k
      let C11 := Anl + spdiag fun k => dAde k * flatten Ez k
      let C12 := spdiag fun k => (starRingEnd ℂ) (dAde k) * flatten Ez k
      .ok (solver_direct env (stackConj C11 C12)ᵀ (stackVec (flatten b_aj)))

/-- `adjoint_kerr_Ez(simulation, b_aj)`, `adjoint.py:64-92`: the first half of the solution.  The warning of lines 87-88 is only printed. -/
noncomputable def adjoint_kerr_Ez (env : Env) (s : Sim Nx Ny) (b_aj : Grid Nx Ny ℂ) : Except PyErr (Grid Nx Ny ℂ) :=
  (adjoint_kerr_vec env s b_aj).map fun z => unflatten fun k => z (Fin.castAdd _ k)

end Angler
