import Verif.Model.Structures

/-! # How Python binds the arguments of a call

The rules of the Python language reference (section "Calls") for functions without `*args`, `**kwargs`, positional-only or keyword-only parameters, as are all functions and methods whose signatures are
listed here; `self` is left out of methods.  Calls are taken as written in `data/`, `tests/` and `Notebooks/`. -/

namespace Angler

/-- A parameter: its name and whether it has a default. -/
structure Param where
  name : String
  hasDefault : Bool
  deriving DecidableEq, Repr

namespace Call
variable {α : Type}

/-- "If there are N positional arguments, they are placed in the first N slots"; more arguments than slots: `TypeError`. -/
def fillPos : List Param → List α → Except PyErr (List (Param × Option α))
  | ps, [] => .ok (ps.map fun p => (p, none))
  | [], _ :: _ => .error .typeError
  | p :: ps, a :: as => (fillPos ps as).map fun l => (p, some a) :: l

/-- "For each keyword argument, the identifier is used to determine the corresponding slot.  If the slot is already filled, a TypeError exception is raised"; so it is if there is no such slot. -/
def fillKw (n : String) (a : α) : List (Param × Option α) → Except PyErr (List (Param × Option α))
  | [] => .error .typeError
  | (p, x) :: l =>
    if p.name = n then
      match x with
      | none => .ok ((p, some a) :: l)
      | some _ => .error .typeError
    else (fillKw n a l).map fun l => (p, x) :: l

/-- The keyword arguments, one after the other. -/
def fillKws : List (String × α) → List (Param × Option α) → Except PyErr (List (Param × Option α))
  | [], l => .ok l
  | (n, a) :: kw, l => (fillKw n a l).bind (fillKws kw)

/-- "The slots that are still unfilled are filled with the corresponding default value" (here `none`); "if there are any unfilled slots for which no default value is specified, a TypeError exception is
raised". -/
def finish : List (Param × Option α) → Except PyErr (List (Option α))
  | [] => .ok []
  | (p, x) :: l => if x.isNone ∧ p.hasDefault = false then .error .typeError else (finish l).map fun r => x :: r

/-- The call `f(*pos, **kw)` of a function with the parameters `sig`: what its parameters are bound to (`none`: the default). -/
def bind (sig : List Param) (pos : List α) (kw : List (String × α)) : Except PyErr (List (Option α)) :=
  (fillPos sig pos).bind fun l => (fillKws kw l).bind finish

end Call

/-- A parameter without default. -/
def Param.req (n : String) : Param := ⟨n, false⟩

/-- A parameter with default. -/
def Param.opt (n : String) : Param := ⟨n, true⟩

/-- `Optimization.__init__`, `optimization.py:16-18`. -/
def sigOptimization : List Param :=
  [.req "objective", .req "simulation", .req "design_region", .opt "eps_m", .opt "R", .opt "eta", .opt "beta", .opt "field_start", .opt "nl_solver", .opt "max_ind_shift"]

/-- `three_port`, `structures.py:43`. -/
def sigThreePort : List Param :=
  [.req "L", .req "H", .req "w", .req "d", .req "l", .req "spc", .req "dl", .req "NPML", .req "eps_start", .opt "eps_background"]

/-- `eps2rho`, `filter.py:114`. -/
def sigEps2rho : List Param := [.req "eps", .req "eps_m"]

/-- The call of the `Optimization` constructor in every optimisation notebook (`2_port.ipynb`, `3_port.ipynb`, `T_port.ipynb`, `Splitter.ipynb`, `Splitter_4.ipynb`, both accelerator notebooks):
`Optimization(objective=objective, simulation=simulation, design_region=design_region, eps_m=eps_m, R=R, beta=beta, eta=eta)`. -/
def callNotebook {α : Type} (objective simulation design_region eps_m R beta eta : α) : Except PyErr (List (Option α)) :=
  Call.bind sigOptimization [] [("objective", objective), ("simulation", simulation), ("design_region", design_region), ("eps_m", eps_m), ("R", R), ("beta", beta), ("eta", eta)]

/-- The call in `data/gif_generator_Tport.py:111` and `data/gif_generator_splitter.py:101`:
`Optimization(J=J, simulation=simulation, design_region=design_region, eps_m=eps_m, R=R, beta=beta, eta=eta)`. -/
def callGif {α : Type} (J simulation design_region eps_m R beta eta : α) : Except PyErr (List (Option α)) :=
  Call.bind sigOptimization [] [("J", J), ("simulation", simulation), ("design_region", design_region), ("eps_m", eps_m), ("R", R), ("beta", beta), ("eta", eta)]

/-- The call in `tests/test_gradient.py:74` and `tests/test_utils.py:97`:
`Optimization(J=J, simulation=self.simulation, design_region=self.design_region, eps_m=eps_m)`. -/
def callTest {α : Type} (J simulation design_region eps_m : α) : Except PyErr (List (Option α)) :=
  Call.bind sigOptimization [] [("J", J), ("simulation", simulation), ("design_region", design_region), ("eps_m", eps_m)]

/-- The call `three_port(D.L, D.H, D.w, D.l, D.spc, D.dl, D.NPML, D.eps_m)` of `plot_three_port`, `data/plot_generator.py:326`. -/
def callPlotThree {α : Type} (L H w l spc dl NPML eps_m : α) : Except PyErr (List (Option α)) := Call.bind sigThreePort [L, H, w, l, spc, dl, NPML, eps_m] []

/-- The call `three_port(L, H, w, d, l, spc, dl, NPML, eps_m)` of `3_port.ipynb`, `Splitter.ipynb` and `data/gif_generator_splitter.py:38`. -/
def callThree {α : Type} (L H w d l spc dl NPML eps_m : α) : Except PyErr (List (Option α)) := Call.bind sigThreePort [L, H, w, d, l, spc, dl, NPML, eps_m] []

/-- A value given to a structure function: a number or the pair `NPML`. -/
inductive Val
  | num (x : ℝ)
  | pair (p : ℤ × ℤ)

/-- The body of `three_port` on bound arguments, `structures.py:43-78`; numbers and the pair in each other's place: `TypeError` (`NPML[0]` of a number, arithmetic on a list). -/
noncomputable def runThreePort : List (Option Val) → Except PyErr Structure
  | [some (.num L), some (.num H), some (.num w), some (.num d), some (.num l), some (.num spc), some (.num dl), some (.pair NPML), some (.num eps_start), none] =>
    three_port L H w d l spc dl NPML eps_start
  | [some (.num L), some (.num H), some (.num w), some (.num d), some (.num l), some (.num spc), some (.num dl), some (.pair NPML), some (.num eps_start), some (.num eps_background)] =>
    three_port L H w d l spc dl NPML eps_start eps_background
  | _ => .error .typeError

/-- `three_port(L, H, w, d, dl, l, spc, NPML, eps_start=eps_m)`, `tests/test_gradient.py:40`. -/
noncomputable def callGradientTest (L H w d l spc dl : ℝ) (NPML : ℤ × ℤ) (eps_m : ℝ) : Except PyErr Structure :=
  (Call.bind sigThreePort [.num L, .num H, .num w, .num d, .num dl, .num l, .num spc, .pair NPML] [("eps_start", .num eps_m)]).bind runThreePort

/-- `three_port(L, H, w, d, l, spc, dl, NPML, eps_start=eps_m)`, `tests/test_utils.py:42`. -/
noncomputable def callUtilsTest (L H w d l spc dl : ℝ) (NPML : ℤ × ℤ) (eps_m : ℝ) : Except PyErr Structure :=
  (Call.bind sigThreePort [.num L, .num H, .num w, .num d, .num l, .num spc, .num dl, .pair NPML] [("eps_start", .num eps_m)]).bind runThreePort

/-- The call `eps2rho(eps)` of `Optimization.run`, `optimization.py:197`. -/
def callEps2rho {α : Type} (eps : α) : Except PyErr (List (Option α)) := Call.bind sigEps2rho [eps] []

end Angler
