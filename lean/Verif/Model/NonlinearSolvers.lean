import Verif.Model.Simulation

/-! # `angler/nonlinear_solvers.py` and `Simulation.solve_fields_nl` -/

namespace Angler

open Matrix

variable {Nx Ny : ℕ}

/-- `la.norm` of a two-dimensional array: the Frobenius norm (`nonlinear_solvers.py:46,99`). -/
noncomputable def laNorm (g : Grid Nx Ny ℂ) : ℝ := Real.sqrt (∑ i, ∑ j, ‖g i j‖ ^ 2)

/-- `la.norm(Fz - Fprev)/la.norm(Fz)` (`nonlinear_solvers.py:46,99`); numpy gives `inf`/`nan` for a zero field. -/
noncomputable def convergence (F Fprev : Grid Nx Ny ℂ) : PyFloat :=
  PyFloat.div (laNorm fun i j => F i j - Fprev i j) (laNorm F)

/-- A returned tuple `(Fx, Fy, Fz, conv_array)`; `conv_array` has shape `(max_num_iter, 1)`. -/
structure NlResult (Nx Ny : ℕ) where
  Fx : Grid Nx Ny ℂ
  Fy : Grid Nx Ny ℂ
  Fz : Grid Nx Ny ℂ
  conv : List PyFloat

/-- The starting field, `nonlinear_solvers.py:24-33` (and `72-78`): given, stored, or freshly solved. -/
noncomputable def startField (env : Env) (s : Sim Nx Ny) (Estart : Option (Grid Nx Ny ℂ)) :
    Except PyErr (Grid Nx Ny ℂ) × Sim Nx Ny :=
  match Estart with
  | some e => (.ok e, s)
  | none =>
    match s.fields s.pol.comp with
    | some f => (.ok f, s)
    | none =>
      let r := s.solve_fields env
      (r.1.map fun t => t.2.2, r.2)

/-- The `for istep in range(max_num_iter)` loop of `born_solve`, `nonlinear_solvers.py:36-51`: `fuel` remaining passes, `istep` the loop index,
`Fz` the current field, `conv` the convergence array.  Returns `none` for the locals `(Fx,Fy,Fz,convergence)` when no pass was made. -/
noncomputable def bornLoop (env : Env) (thr : ℝ) : (fuel istep : ℕ) → (s : Sim Nx Ny) → (Fz : Grid Nx Ny ℂ) → (conv : List PyFloat) →
    (last : Option (Grid Nx Ny ℂ × Grid Nx Ny ℂ × Grid Nx Ny ℂ × PyFloat)) →
    Except PyErr (Option (Grid Nx Ny ℂ × Grid Nx Ny ℂ × Grid Nx Ny ℂ × PyFloat) × List PyFloat) × Sim Nx Ny
  | 0, _, s, _, conv, last => (.ok (last, conv), s)
  | fuel + 1, istep, s, Fz, conv, _ =>
    let Fprev := Fz
    let s1 := s.compute_nl Fprev
    match s1.solve_fields env true with
    | (.error e, s2) => (.error e, s2)
    | (.ok (Fx, Fy, Fz'), s2) =>
      let c := convergence Fz' Fprev
      let conv' := conv.set istep c
      open Classical in
      if c.Lt thr then (.ok (some (Fx, Fy, Fz', c), conv'), s2)
      else bornLoop env thr fuel (istep + 1) s2 Fz' conv' (some (Fx, Fy, Fz', c))

/-- `born_solve(simulation, Estart, conv_threshold, max_num_iter)`, `nonlinear_solvers.py:15-56`.  With `max_num_iter = 0` the name `convergence`
(line 53) is unbound. -/
noncomputable def born_solve (env : Env) (s : Sim Nx Ny) (Estart : Option (Grid Nx Ny ℂ)) (thr : ℝ) (max_num_iter : ℕ) :
    Except PyErr (NlResult Nx Ny) × Sim Nx Ny :=
  match startField env s Estart with
  | (.error e, s1) => (.error e, s1)
  | (.ok Fz, s1) =>
    match bornLoop env thr max_num_iter 0 s1 Fz (List.replicate max_num_iter (.fin 0)) none with
    | (.error e, s2) => (.error e, s2)
    | (.ok (none, _), s2) => (.error .unboundLocalError, s2)
    | (.ok (some (Fx, Fy, Fz', _), conv), s2) => (.ok ⟨Fx, Fy, Fz', conv⟩, s2)

/-- `nl_eq_and_jac(simulation, Ez=Ez)`, `nonlinear_solvers.py:118-153`, Ez polarisation, `compute_jac=True`; the simulation it leaves behind is
`s.compute_nl Ez` (lines 131, 139). -/
noncomputable def nl_eq_and_jac (s : Sim Nx Ny) (Ez : Grid Nx Ny ℂ) :
    (Vec (Nx * Ny) ℂ × Mat (Nx * Ny) ℂ × Mat (Nx * Ny) ℂ) × Sim Nx Ny :=
  let s1 := s.compute_nl Ez
  let Anl := s1.A + s1.Anl.getD 0
  let fE := fun k => (Anl *ᵥ flatten Ez) k - s1.rhs k
  let dAde : Vec (Nx * Ny) ℂ := fun k => flatten s1.dnl_de k * (s.omega : ℂ) ^ 2 * ((EPSILON_0 * s.L0 : ℝ) : ℂ)
  let Jac11 := Anl + spdiag fun k => dAde k * flatten Ez k
  let Jac12 := spdiag fun k => (starRingEnd ℂ) (dAde k) * flatten Ez k
  ((fE, Jac11, Jac12), s1)

/-- The loop of `newton_solve`, `nonlinear_solvers.py:81-104`. -/
noncomputable def newtonLoop (env : Env) (thr : ℝ) : (fuel istep : ℕ) → (s : Sim Nx Ny) → (Ez : Grid Nx Ny ℂ) → (conv : List PyFloat) →
    (last : Option PyFloat) → Except PyErr (Grid Nx Ny ℂ × Option PyFloat × List PyFloat) × Sim Nx Ny
  | 0, _, s, Ez, conv, last => (.ok (Ez, last, conv), s)
  | fuel + 1, istep, s, Ez, conv, _ =>
    let Eprev := Ez
    let r := nl_eq_and_jac s Eprev
    let s1 := r.2
    match solver_complex2real env r.1.2.1 r.1.2.2 r.1.1 with
    | .error e => (.error e, s1)
    | .ok Ediff =>
      let Ez' : Grid Nx Ny ℂ := fun i j => Eprev i j - unflatten Ediff i j
      let c := convergence Ez' Eprev
      let conv' := conv.set istep c
      open Classical in
      if c.Lt thr then (.ok (Ez', some c, conv'), s1)
      else newtonLoop env thr fuel (istep + 1) s1 Ez' conv' (some c)

/-- `newton_solve(simulation, Estart, conv_threshold, max_num_iter)`, `nonlinear_solvers.py:58-116`.  For Hz the error message refers to the
undefined name `self` (line 116): `NameError`. -/
noncomputable def newton_solve (env : Env) (s : Sim Nx Ny) (Estart : Option (Grid Nx Ny ℂ)) (thr : ℝ) (max_num_iter : ℕ) :
    Except PyErr (NlResult Nx Ny) × Sim Nx Ny :=
  match s.pol with
  | .Hz => (.error .nameError, s)
  | .Ez =>
    match startField env s Estart with
    | (.error e, s1) => (.error e, s1)
    | (.ok E0, s1) =>
      match newtonLoop env thr max_num_iter 0 s1 E0 (List.replicate max_num_iter (.fin 0)) none with
      | (.error e, s2) => (.error e, s2)
      | (.ok (Ez, last, conv), s2) =>
        match (s2.compute_nl Ez).solve_fields env true with
        | (.error e, s3) => (.error e, s3)
        | (.ok (Hx, Hy, Ez'), s3) =>
          match last with
          | none => (.error .unboundLocalError, s3)
          | some _ => (.ok ⟨Hx, Hy, Ez', conv⟩, s3)

/-- The `solver_nl` strings of `solve_fields_nl` (`simulation.py:187-217`); `krylov` ("THIS DOESNT WORK YET") is left out here, its
function is in `Model/Krylov.lean`. -/
inductive NlSolver | born | newton | LM | hybrid | other
  deriving DecidableEq, Repr

/-- `solve_fields_nl(Estart, solver_nl, conv_threshold, max_num_iter)`, `simulation.py:179-236`.  `LM_solve` (line 198) is not defined anywhere.
The `averaging` argument is accepted but ignored by both solvers. -/
noncomputable def solve_fields_nl (env : Env) (s : Sim Nx Ny) (Estart : Option (Grid Nx Ny ℂ) := none) (solver : NlSolver := .hybrid)
    (thr : ℝ := 1e-10) (max_num_iter : ℕ := 50) : Except PyErr (NlResult Nx Ny) × Sim Nx Ny :=
  let res : Except PyErr (NlResult Nx Ny) × Sim Nx Ny :=
    match solver with
    | .born => born_solve env s Estart thr max_num_iter
    | .newton => newton_solve env s Estart thr max_num_iter
    | .LM => (.error .nameError, s)
    | .hybrid =>
      match born_solve env s Estart thr 20 with
      | (.error e, s1) => (.error e, s1)
      | (.ok r, s1) =>
        open Classical in
        if ((r.conv.getLast?).getD (.fin 0)).Gt 1e-10 then newton_solve env s1 (some r.Fz) thr 20 else (.ok r, s1)
    | .other => (.error .assertionError, s)
  match res with
  | (.error e, s1) => (.error e, s1)
  | (.ok r, s1) => (.ok r, { s1 with fields_nl := Sim.store s1.pol s1.fields_nl (r.Fx, r.Fy, r.Fz) })

end Angler
