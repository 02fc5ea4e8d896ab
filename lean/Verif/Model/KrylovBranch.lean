import Verif.Model.Krylov
import Verif.Model.Flux

/-! # The branch `solver_nl='krylov'` of `solve_fields_nl` (`angler/simulation.py:202-206, 221-236`)

`newton_krylov_solve` returns one-dimensional arrays, and `solve_fields_nl` stores them in the dictionary `fields_nl`, where the other solvers store arrays of the shape of the grid.  Here the dictionary
holds arrays of either shape. -/

namespace Angler

variable {Nx Ny : ℕ}

/-- A stored array: of the shape of the grid, or one-dimensional. -/
inductive NlArray (Nx Ny : ℕ)
  | grid (g : Grid Nx Ny ℂ)
  | flat (v : Vec (Nx * Ny) ℂ)

/-- A `Simulation` whose dictionary `fields_nl` may hold arrays of either shape: `nl` is that dictionary, in place of `sim.fields_nl`. -/
structure KSim (Nx Ny : ℕ) where
  sim : Sim Nx Ny
  nl : Comp → Option (NlArray Nx Ny)

namespace KSim

/-- The assignments to `fields_nl`, `simulation.py:221-231`. -/
def store (pol : Pol) (f : Comp → Option (NlArray Nx Ny)) (Fx Fy Fz : NlArray Nx Ny) : Comp → Option (NlArray Nx Ny) := fun c =>
  match pol, c with
  | .Ez, .Hx => some Fx
  | .Ez, .Hy => some Fy
  | .Ez, .Ez => some Fz
  | .Hz, .Ex => some Fx
  | .Hz, .Ey => some Fy
  | .Hz, .Hz => some Fz
  | _, c => f c

/-- `solve_fields_nl(Estart, 'krylov', conv_threshold, max_num_iter)`, `simulation.py:202-206` and `221-236`. -/
noncomputable def solve_krylov (rf : RootFinder) (env : Env) (k : KSim Nx Ny) (Estart : Option (Grid Nx Ny ℂ)) (thr : ℝ) (max_num_iter : ℕ) : Except KrylovErr (KrylovResult Nx Ny) × KSim Nx Ny :=
  match newton_krylov_solve rf env k.sim Estart thr max_num_iter with
  | (.error e, s) => (.error e, { k with sim := s })
  | (.ok r, s) => (.ok r, ⟨s, store s.pol k.nl (.flat r.Fx) (.flat r.Fy) (.flat r.Fz)⟩)

/-- `solve_fields_nl` with any other solver, `simulation.py:179-236` (`Model/NonlinearSolvers`). -/
noncomputable def solve_nl (env : Env) (k : KSim Nx Ny) (Estart : Option (Grid Nx Ny ℂ)) (solver : NlSolver) (thr : ℝ) (max_num_iter : ℕ) : Except PyErr (NlResult Nx Ny) × KSim Nx Ny :=
  match solve_fields_nl env k.sim Estart solver thr max_num_iter with
  | (.error e, s) => (.error e, { k with sim := s })
  | (.ok r, s) => (.ok r, ⟨s, store s.pol k.nl (.grid r.Fx) (.grid r.Fy) (.grid r.Fz)⟩)

/-- `self.fields_nl[c][a:b, c:d]` (`simulation.py:274-306`): `None` has no subscript (`TypeError`), a one-dimensional array has only one (`IndexError`). -/
def subscript (k : KSim Nx Ny) (c : Comp) : Except PyErr (Grid Nx Ny ℂ) :=
  match k.nl c with
  | none => .error .typeError
  | some (.flat _) => .error .indexError
  | some (.grid g) => .ok g

/-- The transverse component `flux_probe` reads for a line normal to the axis, `simulation.py:278-283` and `300-305`. -/
def lineComp : Pol → Axis → Comp
  | .Ez, .x => .Hy
  | .Ez, .y => .Hx
  | .Hz, .x => .Ey
  | .Hz, .y => .Ex

/-- `flux_probe(direction_normal, center, width, nl)`, `simulation.py:249-304` (`Model/Flux` for the arithmetic). -/
noncomputable def flux_probe (k : KSim Nx Ny) (dir : String) (center : ℤ × ℤ) (width : ℝ) (nl : Bool) : Except PyErr ℝ :=
  match nl with
  | false => k.sim.flux_probe dir center width false
  | true => do
    let p ← Sim.probeInds dir center width
    let Fz ← k.subscript k.sim.pol.comp
    let Ft ← k.subscript (lineComp k.sim.pol p.1)
    { k.sim with fields_nl := fun c => if c = k.sim.pol.comp then some Fz else if c = lineComp k.sim.pol p.1 then some Ft else none }.flux_probe dir center width true

end KSim

end Angler
