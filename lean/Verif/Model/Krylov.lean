import Verif.Model.NonlinearSolvers

/-! # `newton_krylov_solve` (`angler/nonlinear_solvers.py:156-189`)

The function itself; the branch `solver_nl='krylov'` of `solve_fields_nl` (`simulation.py:202-206`), which stores one-dimensional arrays in `fields_nl`, is in `Model/KrylovBranch`. -/

namespace Angler

open Matrix

variable {Nx Ny : ℕ}

/-- `scipy.optimize.newton_krylov(F, x0)`, an external root finder: from the function and the starting vector it produces the points at which it evaluates the function, in order, and the root it
returns; `none`: it raises `NoConvergence`. -/
abbrev RootFinder := (n : ℕ) → (Vec n ℂ → Vec n ℂ) → Vec n ℂ → List (Vec n ℂ) × Option (Vec n ℂ)

/-- What can go wrong: an exception of the modelled code or `scipy.optimize.NoConvergence`. -/
inductive KrylovErr
  | py (e : PyErr)
  | noConvergence
  deriving DecidableEq, Repr

/-- The returned tuple `(E_nl, E_nl, E_nl, conv_array)`, `nonlinear_solvers.py:189`.  The start was reshaped to `(-1,)` (line 176) and the root finder keeps the shape of its start, so the three arrays
are one-dimensional, unlike those of the other solvers. -/
structure KrylovResult (Nx Ny : ℕ) where
  Fx : Vec (Nx * Ny) ℂ
  Fy : Vec (Nx * Ny) ℂ
  Fz : Vec (Nx * Ny) ℂ
  conv : List PyFloat

/-- The starting field, `nonlinear_solvers.py:167-174`: always the `'Ez'` entry is looked up, whatever the polarisation. -/
noncomputable def krylovStart (env : Env) (s : Sim Nx Ny) (Estart : Option (Grid Nx Ny ℂ)) : Except PyErr (Grid Nx Ny ℂ) × Sim Nx Ny :=
  match Estart with
  | some e => (.ok e, s)
  | none =>
    match s.fields .Ez with
    | some f => (.ok f, s)
    | none =>
      let r := s.solve_fields env
      (r.1.map fun t => t.2.2, r.2)

/-- `newton_krylov_solve(simulation, Estart, conv_threshold, max_num_iter)`, `nonlinear_solvers.py:156-189`.  The local function `_f` (lines 178-182) returns the residual and leaves the simulation in
the state `compute_nl` of its argument; its value does not depend on the nonlinear state, so the model hands the root finder a function of the vector alone and applies `compute_nl` to the points it
reports.  `_f` is first evaluated for printing (line 184), where Hz raises `ValueError` (line 145). -/
noncomputable def newton_krylov_solve (rf : RootFinder) (env : Env) (s : Sim Nx Ny) (Estart : Option (Grid Nx Ny ℂ)) (_thr : ℝ) (max_num_iter : ℕ) :
    Except KrylovErr (KrylovResult Nx Ny) × Sim Nx Ny :=
  match krylovStart env s Estart with
  | (.error e, s1) => (.error (.py e), s1)
  | (.ok E0, s1) =>
    match s1.pol with
    | .Hz => (.error (.py .valueError), s1)
    | .Ez =>
      let s2 := (nl_eq_and_jac s1 E0).2
      let r := rf (Nx * Ny) (fun x => (nl_eq_and_jac s2 (unflatten x)).1.1) (flatten E0)
      let s3 := r.1.foldl (fun s x => (nl_eq_and_jac s (unflatten x)).2) s2
      match r.2 with
      | none => (.error .noConvergence, s3)
      | some E_nl => (.ok ⟨E_nl, E_nl, E_nl, List.replicate max_num_iter (.fin 0)⟩, s3)

end Angler
