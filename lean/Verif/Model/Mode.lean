import Verif.Model.Flux
import Verif.Model.OptRun

/-! # `angler/source/mode.py` and `Simulation.setup_modes`

The eigen-solver is external: `Eigs.eigs A k guess` stands for the matrix of eigenvectors (one column per eigenvalue) returned by `solver_eigs(A, k, guess)` (`linalg.py:111-120`), or the
exception it raises.  ARPACK starts from a random vector, so two calls need not return the same phases; statements about that quantify over two different `Eigs`. -/

namespace Angler

open Matrix

/-- The external eigen-solver. -/
structure Eigs where
  eigs : {n : ℕ} → Mat n ℂ → (k : ℕ) → ℂ → Except PyErr (Fin n → Fin k → ℂ)

/-- A `mode` object, `mode.py:11-17`; integer centre, real scale. -/
structure Mode where
  neff : ℝ
  direction_normal : String
  center : ℤ × ℤ
  width : ℝ
  scale : ℝ
  order : ℕ

/-- `np.abs(src)*np.sign(np.real(src))`, `mode.py:103,106`. -/
noncomputable def signedAbs (z : ℂ) : ℂ := ((‖z‖ * SignType.sign z.re : ℝ) : ℂ)

/-- The operator whose eigenvectors are the mode profiles, `mode.py:77-89`.  (`vector_eps_x**(-1)` is only used for `Hz`; for `eps = 0` numpy gives `inf`, the model 0 — the value only reaches
the external eigen-solver.) -/
noncomputable def modeOperator {m n : ℕ} (pol : Pol) (omega L0 dl : ℝ) (eps : Grid m n ℂ) : Mat (m * n) ℂ :=
  let E0 : ℂ := ((EPSILON_0 * L0 : ℝ) : ℂ)
  let M0 : ℂ := ((MU_0 * L0 : ℝ) : ℂ)
  let c : Fin (m * n) → Fin (m * n * 1) := Fin.cast (Nat.mul_one _).symm
  let Dxb : Mat (m * n) ℂ := fun i j => createDws .x .b dl 1 (m * n) 1 (c i) (c j)
  let Dxf : Mat (m * n) ℂ := fun i j => createDws .x .f dl 1 (m * n) 1 (c i) (c j)
  let T_eps : Mat (m * n) ℂ := spdiag fun k => E0 * flatten eps k
  let T_epsxinv : Mat (m * n) ℂ := spdiag fun k => (E0 * flatten (grid_average eps .x) k)⁻¹
  match pol with
  | .Ez => ((omega : ℂ) ^ 2 * M0) • T_eps + Dxf * Dxb
  | .Hz => ((omega : ℂ) ^ 2 * M0) • T_eps + T_eps * Dxf * T_epsxinv * Dxb

open Classical in
/-- Assignment `destination[a:b, c:d] = v` for a right-hand side given on the positions of the slice. -/
noncomputable def assign2 {Nx Ny : ℕ} (g : Grid Nx Ny ℂ) (a b c d : ℤ) (v : Grid (sliceLen Nx a b) (sliceLen Ny c d) ℂ) : Grid Nx Ny ℂ := fun i j =>
  if h : (sliceIdx Nx a ≤ i.val ∧ i.val < sliceIdx Nx b) ∧ (sliceIdx Ny c ≤ j.val ∧ j.val < sliceIdx Ny d) then
    v ⟨i.val - sliceIdx Nx a, by unfold sliceLen; omega⟩ ⟨j.val - sliceIdx Ny c, by unfold sliceLen; omega⟩
  else g i j

/-- The final assignment of `insert_mode`, `mode.py:101-106`.  The `(1,N)` (resp. `(N,1)`) array is assigned to a slice of shape `(m,n)` with `N = m*n`: numpy broadcasts it exactly when
`N = n` (resp. `N = m`), otherwise `ValueError`. -/
noncomputable def placeMode {Nx Ny : ℕ} (ax : Axis) (destination : Grid Nx Ny ℂ) (ix iy : ℤ × ℤ) (src : Fin (sliceLen Nx ix.1 ix.2 * sliceLen Ny iy.1 iy.2) → ℂ) : Except PyErr (Grid Nx Ny ℂ) :=
  match ax with
  | .x =>
    if h : sliceLen Nx ix.1 ix.2 * sliceLen Ny iy.1 iy.2 = sliceLen Ny iy.1 iy.2 then .ok (assign2 destination ix.1 ix.2 iy.1 iy.2 fun _ j => signedAbs (src (Fin.cast h.symm j)))
    else .error .valueError
  | .y =>
    if h : sliceLen Nx ix.1 ix.2 * sliceLen Ny iy.1 iy.2 = sliceLen Nx ix.1 ix.2 then .ok (assign2 destination ix.1 ix.2 iy.1 iy.2 fun i _ => signedAbs (src (Fin.cast h.symm i)))
    else .error .valueError

namespace Mode
variable {Nx Ny : ℕ}

/-- `insert_mode(simulation, destination)`, `mode.py:60-106`: returns the new contents of `destination`.  `k = order ≤ 0` makes `eigs` raise `ValueError`. -/
noncomputable def insert_mode (eg : Eigs) (md : Mode) (s : Sim Nx Ny) (destination : Grid Nx Ny ℂ) : Except PyErr (Grid Nx Ny ℂ) := do
  let (ax, ix, iy) ← Sim.probeInds md.direction_normal md.center md.width
  let eps := slice2 s.eps_r ix.1 ix.2 iy.1 iy.2
  let A := modeOperator s.pol s.omega s.L0 s.dl eps
  let est_beta := s.omega * Real.sqrt (MU_0 * s.L0 * (EPSILON_0 * s.L0)) * md.neff
  if ho : md.order = 0 then .error .valueError
  else
    let vecs ← eg.eigs A md.order ((est_beta ^ 2 : ℝ) : ℂ)
    let src := fun k => vecs k ⟨md.order - 1, by omega⟩ * (md.scale : ℂ)
    placeMode ax destination ix iy src

/-- Position of an integer index, `IndexError` when out of range. -/
def pyIndex (n : ℕ) (k : ℤ) : Except PyErr (Fin n) :=
  if h : 0 ≤ k ∧ k < n then .ok ⟨k.toNat, by omega⟩
  else if h : k < 0 ∧ -(n : ℤ) ≤ k then .ok ⟨(k + n).toNat, by omega⟩
  else .error .indexError

/-- numpy `z > 1` on complex numbers: lexicographic. -/
def gtOne (z : ℂ) : Prop := 1 < z.re ∨ (z.re = 1 ∧ 0 < z.im)

open Classical in
/-- The straight waveguide `norm_eps` and the probe position `new_center`, `mode.py:30-49`. -/
noncomputable def straight (md : Mode) (eps_r : Grid Nx Ny ℂ) : Except PyErr (Grid Nx Ny ℂ × (ℤ × ℤ)) := do
  if Nx * Ny = 0 then .error .valueError
  else
    let eps_max := gridMax fun i j => ‖eps_r i j‖
    if md.direction_normal = "x" then
      let c ← pyIndex Nx md.center.1
      return (fun _ j => if gtOne (eps_r c j) then ((eps_max : ℝ) : ℂ) else 1, ((Nx : ℤ) - md.center.1, md.center.2))
    else if md.direction_normal = "y" then
      let c ← pyIndex Ny md.center.2
      return (fun i _ => if gtOne (eps_r i c) then ((eps_max : ℝ) : ℂ) else 1, (md.center.1, (Ny : ℤ) - md.center.2))
    else .error .valueError

/-- `compute_normalization(simulation)`, `mode.py:26-58`: the value stored in `simulation.W_in` (the work is done on a deep copy). -/
noncomputable def compute_normalization (env : Env) (eg : Eigs) (md : Mode) (s : Sim Nx Ny) : Except PyErr ℝ := do
  let (norm_eps, new_center) ← md.straight s.eps_r
  let s1 := s.set_eps_r norm_eps
  let src ← md.insert_mode eg s1 s1.src
  let s2 := { s1 with src := src }
  let s3 := (s2.solve_fields env).2
  s3.flux_probe md.direction_normal new_center md.width

/-- `setup_src(simulation)`, `mode.py:19-24`; the attribute `W_in` of the simulation (`none` before the first normalisation) is carried beside it. -/
noncomputable def setup_src (env : Env) (eg : Eigs) (md : Mode) (s : Sim Nx Ny × Option ℝ) : Except PyErr Unit × (Sim Nx Ny × Option ℝ) :=
  match md.compute_normalization env eg s.1 with
  | .error e => (.error e, s)
  | .ok W =>
    match md.insert_mode eg s.1 s.1.src with
    | .error e => (.error e, (s.1, some W))
    | .ok src => (.ok (), ({ s.1 with src := src }, some W))

end Mode

/-- `setup_modes()`, `simulation.py:57-60`: the loop over `self.modes`; an exception leaves the modes handled so far in place. -/
noncomputable def setup_modes {Nx Ny : ℕ} (env : Env) (eg : Eigs) : List Mode → Sim Nx Ny × Option ℝ → Except PyErr Unit × (Sim Nx Ny × Option ℝ)
  | [], s => (.ok (), s)
  | md :: rest, s =>
    match md.setup_src env eg s with
    | (.error e, s') => (.error e, s')
    | (.ok _, s') => setup_modes env eg rest s'

end Angler
