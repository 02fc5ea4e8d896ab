import Verif.Model.Heap
import Verif.Model.OptRun

/-! # Programs that use several simulations and arrays

The statements of a user's program that concern permittivity arrays and simulation objects, with numpy's references (`Model/Heap.lean`).  Names of objects and arrays are numbers; all permittivity arrays are complex. -/

namespace Angler

variable {Nx Ny : ℕ}

/-- Statements of a program. -/
inductive Stmt (Nx Ny : ℕ)
  /-- `a = np.array(...)`: a new array. -/
  | array (a : Grid Nx Ny ℂ)
  /-- `arr[...] = a`: writing into an existing array. -/
  | write (id : ℕ) (a : Grid Nx Ny ℂ)
  /-- `k = Simulation(omega, arr, dl, NPML, pol, L0)`, `simulation.py:17-55`: the array is stored by reference (lines 48, 100). -/
  | new (k id : ℕ) (omega dl : ℝ) (NPML : Sim.NPMLArg) (pol : String) (L0 : ℝ)
  /-- `k.eps_r = arr`, `simulation.py:91-111`. -/
  | assign (k id : ℕ)
  /-- `k.init_design_region(design, eps_m, style)`, `simulation.py:306-341`. -/
  | initDesign (k : ℕ) (design : Grid Nx Ny ℝ) (eps_m : ℝ) (style : Style) (draw : Grid Nx Ny ℝ)
  /-- `k.src = src`. -/
  | setSrc (k : ℕ) (src : Grid Nx Ny ℂ)
  /-- `k.add_nl(chi, nl_region, nl_type, eps_scale, eps_max)`, `simulation.py:82-85`. -/
  | addNl (k : ℕ) (chi : ℝ) (nl_region : Grid Nx Ny ℝ) (nl_type : String) (eps_scale : Bool) (eps_max : Option EpsMax)
  /-- `k.solve_fields()`, `simulation.py:113-177`. -/
  | solve (k : ℕ)
  /-- `k.solve_fields_nl()`, `simulation.py:179-236`. -/
  | solveNl (k : ℕ)
  /-- `l = copy.deepcopy(k)` (`optimization.py:131, 488, 545`, `mode.py:36`): a new object with a new array. -/
  | deepcopy (k l : ℕ)
  /-- `k.rho = rho; k.eps_r = rho2eps(rho, ...)` (`optimization.py:389-392, 430-434`): the permittivity is a new array. -/
  | putRho (k : ℕ) (rho : Grid Nx Ny ℝ) (eps_m : ℝ) (W : Mat (Nx * Ny) ℝ) (eta beta : ℝ)

namespace World

/-- A method that changes object `k` and neither writes arrays nor stores another one. -/
def call (w : World Nx Ny) (k : ℕ) (f : Sim Nx Ny → Sim Nx Ny) : World Nx Ny := { w with obj := Function.update w.obj k (f (w.view k)) }

/-- One statement.  A constructor call that raises binds nothing. -/
noncomputable def exec (env : Env) (w : World Nx Ny) : Stmt Nx Ny → World Nx Ny
  | .array a => w.alloc a
  | .write id a => w.write id a
  | .new k id omega dl NPML pol L0 =>
    match Sim.init omega (w.arr id) dl NPML pol L0 with
    | .error _ => w
    | .ok s => { w with obj := Function.update w.obj k s, ref := Function.update w.ref k id }
  | .assign k id => w.assign k id
  | .initDesign k design eps_m style draw => w.initDesign k design eps_m style draw
  | .setSrc k src => w.call k fun s => { s with src := src }
  | .addNl k chi region ty sc mx => w.call k fun s => (s.add_nl chi region ty sc mx).2
  | .solve k => w.call k fun s => (s.solve_fields env).2
  | .solveNl k => w.call k fun s => (solve_fields_nl env s).2
  | .deepcopy k l =>
    let w1 := w.alloc (w.arr (w.ref k))
    { w1 with obj := Function.update w1.obj l (w1.obj k), ref := Function.update w1.ref l w.next }
  | .putRho k rho eps_m W eta beta =>
    let w1 := w.call k fun s => { s with rho := some (some rho) }
    (w1.alloc fun i j => ((rho2eps rho eps_m W eta beta i j : ℝ) : ℂ)).assign k w.next

/-- A program: statements in order. -/
noncomputable def run (env : Env) (w : World Nx Ny) (p : List (Stmt Nx Ny)) : World Nx Ny := p.foldl (exec env) w

end World

end Angler
