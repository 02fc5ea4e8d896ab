import Verif.Model.Mode
import Mathlib.Analysis.SpecialFunctions.Log.Base
import Mathlib.Analysis.SpecialFunctions.Pow.Real

/-! # `Optimization.scan_power`, `optimization.py:521-577`

The scan works on deep copies of `self.simulation`; what it returns is a function of the simulation, of its list `modes` and of the probes, and nothing else is changed. -/

namespace Angler

variable {Nx Ny : ℕ}

/-- `np.logspace(np.log10(a), np.log10(b), N)[k]`, `optimization.py:532`. -/
noncomputable def logspace (a b : ℝ) (N k : ℕ) : ℝ := (10 : ℝ) ^ Opt.linspace (Real.logb 10 a) (Real.logb 10 b) N k

/-- A probe: any Python callable applied to the solved copy; it may raise, and it may change the copy it is given. -/
abbrev Probe (Nx Ny : ℕ) := Sim Nx Ny → Except PyErr ℝ × Sim Nx Ny

/-- The probe of the documentation, `lambda simulation: simulation.flux_probe(dir, center, width)` (`optimization.py:524`), with the `nl` argument of `flux_probe` left open. -/
noncomputable def fluxProbe (dir : String) (center : ℤ × ℤ) (width : ℝ) (nl : Bool := false) : Probe Nx Ny := fun s => (s.flux_probe dir center width nl, s)

open Classical in
/-- The nonlinear solve of one pass, `optimization.py:553-570`. -/
noncomputable def scanSolve (env : Env) (solver : NlSolver) (s : Sim Nx Ny) : Except PyErr (NlResult Nx Ny) × Sim Nx Ny :=
  match solver with
  | .hybrid =>
    match solve_fields_nl env s none .born 1e-10 100 with
    | (.error e, s1) => (.error e, s1)
    | (.ok r, s1) => if ((r.conv.getLast?).getD (.fin 0)).Gt 1e-10 then solve_fields_nl env s1 none .newton 1e-10 100 else (.ok r, s1)
  | _ => solve_fields_nl env s none solver 1e-10 100

/-- The loop over the probes, `optimization.py:573-575`: the new entry of each list of transmissions. -/
noncomputable def runProbes (W_in : ℝ) : List (Probe Nx Ny) → Sim Nx Ny → Except PyErr (List PyFloat)
  | [], _ => .ok []
  | p :: ps, s =>
    match p s with
    | (.error e, _) => .error e
    | (.ok W_out, s1) => do
      let rest ← runProbes W_in ps s1
      return PyFloat.div W_out W_in :: rest

/-- One pass of the loop, `optimization.py:543-575`, on a copy `s` of the simulation: the input power and one transmission per probe.  `W_in` is always set after `setup_src`. -/
noncomputable def scanPowerPass (env : Env) (eg : Eigs) (modes : List Mode) (probes : List (Probe Nx Ny)) (solver : NlSolver) (s : Sim Nx Ny) (amp : ℝ) : Except PyErr (ℝ × List PyFloat) :=
  match modes with
  | [] => .error .indexError
  | md :: _ =>
    match Mode.setup_src env eg { md with scale := amp } (s, none) with
    | (.error e, _) => .error e
    | (.ok _, (_, none)) => .error .attributeError
    | (.ok _, (s1, some W_in)) =>
      match scanSolve env solver s1 with
      | (.error e, _) => .error e
      | (.ok _, s2) => do
        let row ← runProbes W_in probes s2
        return (W_in, row)

/-- The loop over the amplitudes, `optimization.py:540-575`. -/
noncomputable def scanPowerLoop (env : Env) (eg : Eigs) (modes : List Mode) (probes : List (Probe Nx Ny)) (solver : NlSolver) (s : Sim Nx Ny) :
    List ℝ → List ℝ × List (List PyFloat) → Except PyErr (List ℝ × List (List PyFloat))
  | [], acc => .ok acc
  | amp :: amps, (powers, transmissions) => do
    let (W_in, row) ← scanPowerPass env eg modes probes solver s amp
    scanPowerLoop env eg modes probes solver s amps (powers ++ [W_in], List.zipWith (fun t x => t ++ [x]) transmissions row)

open Classical in
/-- `scan_power(probes, Ns, s_min, s_max, solver)`, `optimization.py:521-577`.  A bound `≤ 0` has the logarithm `-inf` or `nan`, which numpy carries on with: not followed. -/
noncomputable def scan_power (env : Env) (eg : Eigs) (s : Sim Nx Ny) (modes : List Mode) (probes : Option (List (Probe Nx Ny))) (Ns : ℕ := 50) (s_min : ℝ := 1e-2) (s_max : ℝ := 1e2)
    (solver : NlSolver := .newton) : Except PyErr (List ℝ × List (List PyFloat)) :=
  match probes with
  | none => .error .valueError
  | some ps =>
    if 0 < s_min ∧ 0 < s_max then
      scanPowerLoop env eg modes ps solver s ((List.range Ns).map (logspace s_min s_max Ns)) ([], ps.map fun _ => [])
    else .error .nonFinite

end Angler
