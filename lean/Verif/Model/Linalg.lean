import Verif.Model.Py
import Verif.Model.Derivatives
import Verif.Model.Pml
import Mathlib.Data.Matrix.Block
import Mathlib.LinearAlgebra.Matrix.NonsingularInverse

/-! # `angler/linalg.py` -/

namespace Angler

open Matrix

/-- `np.roll(a, 1, axis=0)[i, j] = a[i-1 mod Nx, j]`, and along axis 1 for `y` (`linalg.py:22-23`). -/
def rollBack {n : ℕ} (i : Fin n) : Fin n := ⟨(i + (n - 1)) % n, Nat.mod_lt _ (Nat.lt_of_le_of_lt (Nat.zero_le _) i.2)⟩

/-- `grid_average(center_array, w)`, `linalg.py:19-25`. -/
noncomputable def grid_average {Nx Ny : ℕ} (a : Grid Nx Ny ℂ) (w : Axis) : Grid Nx Ny ℂ :=
  match w with
  | .x => fun i j => (a (rollBack i) j + a i j) / 2
  | .y => fun i j => (a i (rollBack j) + a i j) / 2

/-- `dL(N, xrange, yrange)`, `linalg.py:28-36`, for a two-dimensional grid. -/
noncomputable def dL (Nx Ny : ℕ) (xrange yrange : ℝ × ℝ) : ℝ × ℝ :=
  ((xrange.2 - xrange.1) / Nx, (yrange.2 - yrange.1) / Ny)

/-- The dictionary `derivs` of `linalg.py:101-106`. -/
structure Derivs (Nx Ny : ℕ) where
  Dyb : Mat (Nx * Ny) ℂ
  Dxb : Mat (Nx * Ny) ℂ
  Dxf : Mat (Nx * Ny) ℂ
  Dyf : Mat (Nx * Ny) ℂ

/-- The derivative matrices built in `linalg.py:60-66` (identically in `86-92`). -/
noncomputable def mkDerivs (omega : ℝ) (xrange yrange : ℝ × ℝ) (Nx Ny : ℕ) (NPML : ℕ × ℕ) (L0 : ℝ) : Derivs Nx Ny :=
  let S := S_create omega L0 Nx Ny NPML xrange yrange
  let d := dL Nx Ny xrange yrange
  { Dyb := S.yb * createDws .y .b d.1 d.2 Nx Ny
    Dxb := S.xb * createDws .x .b d.1 d.2 Nx Ny
    Dxf := S.xf * createDws .x .f d.1 d.2 Nx Ny
    Dyf := S.yf * createDws .y .f d.1 d.2 Nx Ny }

/-- `construct_A(omega, xrange, yrange, eps_r, NPML, pol, L0, averaging)`, `linalg.py:45-108`.
`(Dxf*1/MU_0_).dot(Dxb)` is `(1/MU_0_) Dxf Dxb`.  The Hz branch divides by the permittivity entrywise (`1/vector_eps_x`); a zero
permittivity (numpy `inf`) is excluded by hypothesis wherever that matters. -/
noncomputable def construct_A {Nx Ny : ℕ} (omega : ℝ) (xrange yrange : ℝ × ℝ) (eps_r : Grid Nx Ny ℂ) (NPML : ℕ × ℕ)
    (pol : Pol) (L0 : ℝ) (averaging : Bool := true) : Mat (Nx * Ny) ℂ × Derivs Nx Ny :=
  let E0 : ℂ := ((EPSILON_0 * L0 : ℝ) : ℂ)
  let M0 : ℂ := ((MU_0 * L0 : ℝ) : ℂ)
  let D := mkDerivs omega xrange yrange Nx Ny NPML L0
  match pol with
  | .Ez =>
    let vector_eps_z := fun k => E0 * flatten eps_r k
    ((1 / M0) • (D.Dxf * D.Dxb) + (1 / M0) • (D.Dyf * D.Dyb) + ((omega : ℂ) ^ 2) • spdiag vector_eps_z, D)
  | .Hz =>
    let eps_x : Vec (Nx * Ny) ℂ :=
      if averaging then flatten (grid_average (fun i j => E0 * eps_r i j) .x) else fun k => E0 * flatten eps_r k
    let eps_y : Vec (Nx * Ny) ℂ :=
      if averaging then flatten (grid_average (fun i j => E0 * eps_r i j) .y) else fun k => E0 * flatten eps_r k
    (D.Dxf * spdiag (fun k => 1 / eps_x k) * D.Dxb + D.Dyf * spdiag (fun k => 1 / eps_y k) * D.Dyb
      + ((omega : ℂ) ^ 2 * M0) • (1 : Mat (Nx * Ny) ℂ), D)

/-- Which direct solver is installed: `SOLVER` / `DEFAULT_SOLVER` (`linalg.py:5-9`, `constants.py:10-14`). -/
inductive Backend | pardiso | scipy
  deriving DecidableEq, Repr

/-- The external linear solvers.  `solveC` stands for both `pardisoSolver(A, mtype=13)` and `spl.spsolve(A, b)`;
`solveR` for `pardisoSolver(Areal, mtype=11)` on a matrix of size `N + N`. -/
structure Env where
  backend : Backend
  solveC : {n : ℕ} → Mat n ℂ → Vec n ℂ → Vec n ℂ
  solveR : {n : ℕ} → Matrix (Fin n ⊕ Fin n) (Fin n ⊕ Fin n) ℝ → (Fin n ⊕ Fin n → ℝ) → (Fin n ⊕ Fin n → ℝ)

/-- What is assumed of the external solvers: on a nonsingular matrix they return the solution (exact arithmetic). -/
structure Env.Exact (env : Env) : Prop where
  solveC_spec : ∀ {n : ℕ} (A : Mat n ℂ) (b : Vec n ℂ), A.det ≠ 0 → A *ᵥ env.solveC A b = b
  solveR_spec : ∀ {n : ℕ} (A : Matrix (Fin n ⊕ Fin n) (Fin n ⊕ Fin n) ℝ) (b : Fin n ⊕ Fin n → ℝ),
    A.det ≠ 0 → A *ᵥ env.solveR A b = b

/-- `solver_direct(A, b)`, `linalg.py:123-150` (timing output dropped): zero right-hand side short-circuits to zeros. -/
noncomputable def solver_direct (env : Env) {n : ℕ} (A : Mat n ℂ) (b : Vec n ℂ) : Vec n ℂ :=
  open Classical in
  if b = 0 then 0 else env.solveC A b

/-- The real block matrix `Areal` of `linalg.py:166-167`; the two halves of the stacked vector are indexed by `Fin n ⊕ Fin n`. -/
def Areal {n : ℕ} (A11 A12 : Mat n ℂ) : Matrix (Fin n ⊕ Fin n) (Fin n ⊕ Fin n) ℝ :=
  Matrix.fromBlocks
    (fun i j => (A11 i j).re + (A12 i j).re) (fun i j => -(A11 i j).im + (A12 i j).im)
    (fun i j => (A11 i j).im + (A12 i j).im) (fun i j => (A11 i j).re - (A12 i j).re)

/-- `solver_complex2real(A11, A12, b, solver=...)`, `linalg.py:153-187`.  In the `'scipy'` branch (line 179) the code calls `spsolve`,
a name that `linalg.py` never imports: `NameError`. -/
noncomputable def solver_complex2real (env : Env) {n : ℕ} (A11 A12 : Mat n ℂ) (b : Vec n ℂ) : Except PyErr (Vec n ℂ) :=
  open Classical in
  if b = 0 then .ok 0
  else
    match env.backend with
    | .pardiso =>
      let x := env.solveR (Areal A11 A12) (Sum.elim (fun k => (b k).re) (fun k => (b k).im))
      .ok fun k => (x (Sum.inl k) : ℂ) + Complex.I * (x (Sum.inr k) : ℂ)
    | .scipy => .error .nameError

end Angler
