import Verif.Model.Gradients

/-! # `angler/optimization.py`: evaluating the objective and its gradient

Most methods take a `simulation` argument that may or may not be the very object `self.simulation`.  The model passes `other : Option (Sim Nx Ny)`:
`none` means the argument *is* `self.simulation`, `some s` means it is a different object with state `s`.  Both are returned. -/

namespace Angler

open Matrix

namespace Opt
variable {Nx Ny : ℕ}

/-- The simulation an `other` argument refers to. -/
def target (o : Opt Nx Ny) (other : Option (Sim Nx Ny)) : Sim Nx Ny := other.getD o.simulation

/-- Writing back the state of the argument object. -/
def putTarget (o : Opt Nx Ny) (other : Option (Sim Nx Ny)) (s : Sim Nx Ny) : Opt Nx Ny × Option (Sim Nx Ny) :=
  match other with
  | none => ({ o with simulation := s }, none)
  | some _ => (o, some s)

/-- The loop of `optimization.py:59-67`: picks the stored fields in order; a missing one raises `ValueError`. -/
def collect (s : Sim Nx Ny) : List ObjArg → Except PyErr (List (Grid Nx Ny ℂ))
  | [] => .ok []
  | a :: l =>
    match (if a.nl then s.fields_nl a.component else s.fields a.component) with
    | none => .error .valueError
    | some f => (collect s l).map fun fs => f :: fs

/-- The two solves of `optimization.py:55-57`. -/
noncomputable def solveAll (env : Env) (linear : Bool) (s : Sim Nx Ny) : Except PyErr Unit × Sim Nx Ny :=
  match s.solve_fields env with
  | (.error e, s1) => (.error e, s1)
  | (.ok _, s1) =>
    if linear then (.ok (), s1)
    else
      match solve_fields_nl env s1 with
      | (.error e, s2) => (.error e, s2)
      | (.ok _, s2) => (.ok (), s2)

/-- `_solve_objfn_arg_fields(simulation)`, `optimization.py:46-74`.  `not self.field_arg_list` is true for an empty list. -/
noncomputable def solveArgFields (env : Env) (o : Opt Nx Ny) (other : Option (Sim Nx Ny)) :
    Except PyErr Unit × Opt Nx Ny × Option (Sim Nx Ny) :=
  if o.fields_current = false ∨ (o.field_arg_list.getD []).isEmpty then
    match solveAll env o.objective.isLinear (o.target other) with
    | (.error e, s1) => (.error e, o.putTarget other s1)
    | (.ok _, s1) =>
      let r := o.putTarget other s1
      match collect s1 o.objective.arg_list with
      | .error e => (.error e, r)
      | .ok fs => (.ok (), { r.1 with field_arg_list := some fs, fields_current := true }, r.2)
  else (.ok (), o, other)

/-- `compute_J(simulation)`, `optimization.py:77-84`. -/
noncomputable def compute_J (env : Env) (o : Opt Nx Ny) (other : Option (Sim Nx Ny) := none) :
    Except PyErr ℝ × Opt Nx Ny × Option (Sim Nx Ny) :=
  match solveArgFields env o other with
  | (.error e, r) => (.error e, r)
  | (.ok _, r) => (o.objective.J.call (r.1.field_arg_list.getD []), r)

/-- The accumulation loop of `compute_dJ`, `optimization.py:93-100`.  The gradient functions act on `optimization.simulation`, the field `Fz` is taken from
the argument simulation.  A missing field (`None`) makes the array arithmetic of the gradient function raise `TypeError`. -/
noncomputable def dJLoop (env : Env) {k : ℕ} :
    List (GradFn × Fin k × ObjArg) → ((d : Fin k) → Except PyErr (Grid Nx Ny ℂ)) → Opt Nx Ny → Option (Sim Nx Ny) → Grid Nx Ny ℝ →
    Except PyErr (Grid Nx Ny ℝ) × Opt Nx Ny × Option (Sim Nx Ny)
  | [], _, o, other, acc => (.ok acc, o, other)
  | (g, d, a) :: l, dJ, o, other, acc =>
    let s := o.target other
    match (if a.nl then s.fields_nl s.pol.comp else s.fields s.pol.comp) with
    | none => (.error .typeError, o, other)
    | some Fz =>
      match dJ d with
      | .error e => (.error e, o, other)
      | .ok p =>
        match gradFn env o g p Fz with
        | (.error e, s1) => (.error e, { o with simulation := s1 }, other)
        | (.ok gr, s1) => dJLoop env l dJ { o with simulation := s1 } other fun i j => acc i j + gr i j

/-- `compute_dJ(simulation, design_region)`, `optimization.py:86-102` (its `design_region` argument is not used).
For an objective without arguments the code returns the integer 0; the model returns the zero array. -/
noncomputable def compute_dJ (env : Env) (o : Opt Nx Ny) (other : Option (Sim Nx Ny) := none) :
    Except PyErr (Grid Nx Ny ℝ) × Opt Nx Ny × Option (Sim Nx Ny) :=
  match solveArgFields env o other with
  | (.error e, r) => (.error e, r)
  | (.ok _, (o1, other1)) =>
    let args := o1.field_arg_list.getD []
    dJLoop env (o.objective.grad_fn_list.zip (o.objective.dJ_list.zip o.objective.arg_list)) (fun d => o.objective.J.callGrad d args)
      o1 other1 fun _ _ => 0

end Opt

end Angler
