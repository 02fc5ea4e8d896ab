import Verif.Model.Simulation

/-! # `angler/objective.py` -/

namespace Angler

/-- A user-written objective function `J` together with what `autograd.grad(J, k)` returns for it (`objective.py:66-76`).
`arity` is `len(signature(J).parameters)`; `partials k x` is the array `grad(J, k)(*x)`. -/
structure ObjFn (Nx Ny : ℕ) where
  arity : ℕ
  eval : (Fin arity → Grid Nx Ny ℂ) → ℝ
  partials : Fin arity → (Fin arity → Grid Nx Ny ℂ) → Grid Nx Ny ℂ

/-- `J(*args)`: Python raises `TypeError` when the number of arguments is wrong. -/
def ObjFn.call {Nx Ny : ℕ} (J : ObjFn Nx Ny) (args : List (Grid Nx Ny ℂ)) : Except PyErr ℝ :=
  if h : args.length = J.arity then .ok (J.eval fun k => args.get (k.cast h.symm)) else .error .typeError

/-- `grad(J, k)(*args)`. -/
def ObjFn.callGrad {Nx Ny : ℕ} (J : ObjFn Nx Ny) (k : Fin J.arity) (args : List (Grid Nx Ny ℂ)) : Except PyErr (Grid Nx Ny ℂ) :=
  if h : args.length = J.arity then .ok (J.partials k fun m => args.get (m.cast h.symm)) else .error .typeError

/-- The twelve gradient functions that `GRADIENT_MAP` refers to (`objective.py:7-26`), by name. -/
inductive GradFn
  | linear_Ez | kerr_Ez | linear_Hx | kerr_Hx | linear_Hy | kerr_Hy
  | linear_Hz | kerr_Hz | linear_Ex | kerr_Ex | linear_Ey | kerr_Ey
  deriving DecidableEq, Repr

/-- `GRADIENT_MAP[component]['nl' if nl else 'lin']`, `objective.py:7-26`. -/
def gradientMap : Comp → Bool → GradFn
  | .Ez, false => .linear_Ez
  | .Ez, true => .kerr_Ez
  | .Hx, false => .linear_Hx
  | .Hx, true => .kerr_Hx
  | .Hy, false => .linear_Hy
  | .Hy, true => .kerr_Hy
  | .Hz, false => .linear_Hz
  | .Hz, true => .kerr_Hz
  | .Ex, false => .linear_Ex
  | .Ex, true => .kerr_Ex
  | .Ey, false => .linear_Ey
  | .Ey, true => .kerr_Ey

/-- An `obj_arg` (`objective.py:86-114`): component, linearity and the selected gradient function.  The name is dropped. -/
structure ObjArg where
  component : Comp
  nl : Bool
  gradient : GradFn
  deriving DecidableEq

/-- The strings naming field components (`objective.py:98`). -/
def compOfString : String → Option Comp
  | "Ex" => some .Ex
  | "Ey" => some .Ey
  | "Ez" => some .Ez
  | "Hx" => some .Hx
  | "Hy" => some .Hy
  | "Hz" => some .Hz
  | _ => none

/-- `obj_arg.__init__(name, component, nl)`, `objective.py:92-114` (the branch for a missing gradient function, line 113, is unreachable:
every entry of `GRADIENT_MAP` is a function). -/
def ObjArg.init (component : String) (nl : Bool) : Except PyErr ObjArg :=
  match compOfString component with
  | none => .error .valueError
  | some c => .ok ⟨c, nl, gradientMap c nl⟩

/-- An `Objective` (`objective.py:28-83`). `dJ_list` is represented by the argument indices passed to `grad` (line 75). -/
structure Objective (Nx Ny : ℕ) where
  J : ObjFn Nx Ny
  arg_list : List ObjArg
  dJ_list : List (Fin J.arity)
  grad_fn_list : List GradFn

/-- The `J` setter, `objective.py:59-83`: recomputes `dJ_list` and `grad_fn_list`. -/
def Objective.mk' {Nx Ny : ℕ} (J : ObjFn Nx Ny) (arg_list : List ObjArg) : Objective Nx Ny :=
  ⟨J, arg_list, List.finRange J.arity, arg_list.map ObjArg.gradient⟩

/-- `Objective.__init__(J, arg_list)`, `objective.py:33-45` (`arg_list` already wrapped in a list). -/
def Objective.init {Nx Ny : ℕ} (J : ObjFn Nx Ny) (arg_list : List ObjArg) : Except PyErr (Objective Nx Ny) :=
  if arg_list.length ≠ J.arity then .error .valueError else .ok (Objective.mk' J arg_list)

/-- `is_linear()`, `objective.py:47-52`: the loop returns `False` at the first nonlinear argument. -/
def Objective.isLinear {Nx Ny : ℕ} (o : Objective Nx Ny) : Bool := go o.arg_list
where
  /-- the `for` loop -/
  go : List ObjArg → Bool
    | [] => true
    | a :: l => if a.nl then false else go l

end Angler
