import Verif.Model.Linalg
import Verif.Model.Nonlinearity

/-! # `angler/simulation.py`: state, constructor, `eps_r` setter, `compute_nl`, `add_nl`, `solve_fields` -/

namespace Angler

open Matrix

/-- The keys of the field dictionaries (`simulation.py:110-111`). -/
inductive Comp | Ex | Ey | Ez | Hx | Hy | Hz
  deriving DecidableEq, Repr

/-- A dictionary `{'Ex': ..., ..., 'Hz': ...}` whose values are arrays or `None`. -/
abbrev Fields (Nx Ny : ℕ) := Comp → Option (Grid Nx Ny ℂ)

/-- The key of the out-of-plane component, `self.fields[self.pol]`. -/
def Pol.comp : Pol → Comp
  | .Ez => .Ez
  | .Hz => .Hz

/-- The attributes of a `Simulation` object (`simulation.py:17-55, 69-80, 91-111, 341`).  `mu_r` and `modes` are left out (never read by the solver).
`Anl = none`: the attribute is absent until `compute_nl`.  `rho = none`: attribute absent; `some none`: it is `None`.
`NPML` holds the values after `int(n)` (line 44). -/
structure Sim (Nx Ny : ℕ) where
  L0 : ℝ
  omega : ℝ
  dl : ℝ
  NPML : ℕ × ℕ
  pol : Pol
  xrange : ℝ × ℝ
  yrange : ℝ × ℝ
  src : Grid Nx Ny ℂ
  eps_r : Grid Nx Ny ℂ
  A : Mat (Nx * Ny) ℂ
  derivs : Derivs Nx Ny
  fields : Fields Nx Ny
  fields_nl : Fields Nx Ny
  nonlinearity : List (Nonlinearity Nx Ny)
  eps_nl : Grid Nx Ny ℂ
  dnl_de : Grid Nx Ny ℂ
  dnl_deps : Grid Nx Ny ℂ
  Anl : Option (Mat (Nx * Ny) ℂ)
  rho : Option (Option (Grid Nx Ny ℝ))

namespace Sim
variable {Nx Ny : ℕ}

/-- The `eps_r` setter, `simulation.py:91-111`, for a new array of the same two-dimensional shape. -/
noncomputable def set_eps_r (s : Sim Nx Ny) (new_eps : Grid Nx Ny ℂ) : Sim Nx Ny :=
  let r := construct_A s.omega s.xrange s.yrange new_eps s.NPML s.pol s.L0
  { s with eps_r := new_eps, A := r.1, derivs := r.2, fields := fun _ => none, fields_nl := fun _ => none }

/-- The argument `NPML` as Python sees it before validation (`simulation.py:243-245`). -/
inductive NPMLArg
  | notList
  | list (l : List ℝ)

/-- `_check_inputs`, `simulation.py:238-246`: the assertions in order; returns the validated pair and polarisation. -/
noncomputable def check_inputs (omega L0 : ℝ) (NPML : NPMLArg) (pol : String) : Except PyErr ((ℝ × ℝ) × Pol) :=
  open Classical in
  if ¬ (0 < L0) then .error .assertionError
  else if ¬ (0 < omega) then .error .assertionError
  else match NPML with
    | .notList => .error .assertionError
    | .list [a, b] =>
      if ¬ (0 ≤ a ∧ 0 ≤ b) then .error .assertionError
      else if pol = "Ez" then .ok ((a, b), .Ez)
      else if pol = "Hz" then .ok ((a, b), .Hz)
      else .error .assertionError
    | .list _ => .error .assertionError

/-- `Simulation.__init__`, `simulation.py:17-55`, for a two-dimensional `eps_r`.  `int(n)` of a non-negative number is its floor. -/
noncomputable def init (omega : ℝ) (eps_r : Grid Nx Ny ℂ) (dl : ℝ) (NPML : NPMLArg) (pol : String) (L0 : ℝ) :
    Except PyErr (Sim Nx Ny) := do
  let (np, p) ← check_inputs omega L0 NPML pol
  let base : Sim Nx Ny :=
    { L0 := L0, omega := omega, dl := dl, NPML := (⌊np.1⌋₊, ⌊np.2⌋₊), pol := p,
      xrange := (0, Nx * dl), yrange := (0, Ny * dl), src := fun _ _ => 0,
      eps_r := eps_r, A := 0, derivs := ⟨0, 0, 0, 0⟩, fields := fun _ => none, fields_nl := fun _ => none,
      nonlinearity := [], eps_nl := fun _ _ => 0, dnl_de := fun _ _ => 0, dnl_deps := fun _ _ => 0, Anl := none, rho := none }
  return base.set_eps_r eps_r

/-- `compute_nl(e)`, `simulation.py:69-80`: the three sums are accumulated in a loop from zero arrays. -/
noncomputable def compute_nl (s : Sim Nx Ny) (e : Grid Nx Ny ℂ) : Sim Nx Ny :=
  let acc := fun (f : Nonlinearity Nx Ny → Grid Nx Ny ℂ) =>
    s.nonlinearity.foldl (fun (g : Grid Nx Ny ℂ) n => fun i j => g i j + f n i j) (fun _ _ => 0)
  let enl := acc fun n => n.eps_nl e s.eps_r
  { s with
    eps_nl := enl
    dnl_de := acc fun n => n.dnl_de e s.eps_r
    dnl_deps := acc fun n => n.dnl_deps e s.eps_r
    Anl := some (spdiag fun k => ((s.omega ^ 2 * EPSILON_0 * s.L0 : ℝ) : ℂ) * flatten enl k) }

/-- `add_nl(chi, nl_region, nl_type, eps_scale, eps_max)`, `simulation.py:82-85`. -/
noncomputable def add_nl (s : Sim Nx Ny) (chi : ℝ) (nl_region : Grid Nx Ny ℝ) (nl_type : String) (eps_scale : Bool) (eps_max : Option EpsMax) :
    Except PyErr Unit × Sim Nx Ny :=
  match Nonlinearity.init (chi / s.L0 ^ 2) nl_region nl_type eps_scale eps_max with
  | .ok n => (.ok (), { s with nonlinearity := s.nonlinearity ++ [n] })
  | .error e => (.error e, s)

/-- `self.src*1j*self.omega` flattened, the right-hand side of `simulation.py:122,125`. -/
noncomputable def rhs (s : Sim Nx Ny) : Vec (Nx * Ny) ℂ := fun k => flatten s.src k * Complex.I * (s.omega : ℂ)

/-- The permittivity vectors `(vector_eps_x, vector_eps_y)` used for the in-plane field, `simulation.py:133-140`. -/
noncomputable def eps_xy (L0 : ℝ) (averaging : Bool) (eps_tot : Grid Nx Ny ℂ) : Vec (Nx * Ny) ℂ × Vec (Nx * Ny) ℂ :=
  let E0 : ℂ := ((EPSILON_0 * L0 : ℝ) : ℂ)
  if averaging then
    (flatten (grid_average (fun i j => E0 * eps_tot i j) .x), flatten (grid_average (fun i j => E0 * eps_tot i j) .y))
  else (fun k => E0 * flatten eps_tot k, fun k => E0 * flatten eps_tot k)

/-- The in-plane components and the reshaped out-of-plane one, `simulation.py:132-174`: `(Ex,Ey,Hz)` or `(Hx,Hy,Ez)`. -/
noncomputable def in_plane (s : Sim Nx Ny) (averaging : Bool) (eps_tot : Grid Nx Ny ℂ) (X : Vec (Nx * Ny) ℂ) :
    Grid Nx Ny ℂ × Grid Nx Ny ℂ × Grid Nx Ny ℂ :=
  match s.pol with
  | .Hz =>
    let e := eps_xy s.L0 averaging eps_tot
    let ex := (1 / Complex.I / (s.omega : ℂ)) • ((spdiag (fun k => 1 / e.2 k) * s.derivs.Dyb) *ᵥ X)
    let ey := (-1 / Complex.I / (s.omega : ℂ)) • ((spdiag (fun k => 1 / e.1 k) * s.derivs.Dxb) *ᵥ X)
    (unflatten ex, unflatten ey, unflatten X)
  | .Ez =>
    let M0 : ℂ := ((MU_0 * s.L0 : ℝ) : ℂ)
    let hx := (-1 / Complex.I / (s.omega : ℂ) / M0) • (s.derivs.Dyb *ᵥ X)
    let hy := (1 / Complex.I / (s.omega : ℂ) / M0) • (s.derivs.Dxb *ᵥ X)
    (unflatten hx, unflatten hy, unflatten X)

/-- Writing a returned triple into a field dictionary: keys `Ex,Ey,Hz` or `Hx,Hy,Ez` (`simulation.py:154-157,169-172,221-231`). -/
def store (pol : Pol) (f : Fields Nx Ny) (t : Grid Nx Ny ℂ × Grid Nx Ny ℂ × Grid Nx Ny ℂ) : Fields Nx Ny := fun c =>
  match pol, c with
  | .Hz, .Ex => some t.1
  | .Hz, .Ey => some t.2.1
  | .Hz, .Hz => some t.2.2
  | .Ez, .Hx => some t.1
  | .Ez, .Hy => some t.2.1
  | .Ez, .Ez => some t.2.2
  | _, c => f c

/-- `solve_fields(include_nl, averaging)`, `simulation.py:113-177` (the default of `averaging` is `False`, line 113).
With `include_nl` before any `compute_nl`, reading `self.Anl` raises `AttributeError`. -/
noncomputable def solve_fields (env : Env) (s : Sim Nx Ny) (include_nl : Bool := false) (averaging : Bool := false) :
    Except PyErr (Grid Nx Ny ℂ × Grid Nx Ny ℂ × Grid Nx Ny ℂ) × Sim Nx Ny :=
  if include_nl = false then
    let X := solver_direct env s.A s.rhs
    let t := s.in_plane averaging s.eps_r X
    (.ok t, { s with fields := store s.pol s.fields t })
  else
    match s.Anl with
    | none => (.error .attributeError, s)
    | some Anl =>
      let X := solver_direct env (s.A + Anl) s.rhs
      (.ok (s.in_plane averaging (fun i j => s.eps_r i j + s.eps_nl i j) X), s)

end Sim

end Angler
