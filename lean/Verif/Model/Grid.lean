import Mathlib.LinearAlgebra.Matrix.Notation
import Mathlib.Data.Complex.Basic
import Mathlib.Logic.Equiv.Fin.Basic

/-!
# numpy arrays of fixed shape and scipy sparse constructors

`(Nx,Ny)` arrays, their C-order flattening `reshape((-1,))`, and the entrywise meaning of
`sp.diags`, `sp.kron`, `sp.spdiags`, `sp.eye`.
-/

namespace Angler

open Matrix

/-- A numpy array of shape `(Nx, Ny)`. -/
abbrev Grid (Nx Ny : ℕ) (α : Type*) := Fin Nx → Fin Ny → α

/-- A numpy vector of length `n`. -/
abbrev Vec (n : ℕ) (α : Type*) := Fin n → α

/-- A square (sparse) matrix of size `n`. -/
abbrev Mat (n : ℕ) (α : Type*) := Matrix (Fin n) (Fin n) α

section flatten
variable {Nx Ny : ℕ} {α β : Type*}

/-- `a.reshape((-1,))` (C order): element `k` is `a[k // Ny, k % Ny]`
(used throughout, e.g. `linalg.py:57`, `simulation.py:79`). -/
def flatten (g : Grid Nx Ny α) : Vec (Nx * Ny) α := fun k => g k.divNat k.modNat

/-- `v.reshape((Nx, Ny))` (C order): element `(i,j)` is `v[i*Ny + j]`
(e.g. `simulation.py:165-167`). -/
def unflatten (v : Vec (Nx * Ny) α) : Grid Nx Ny α := fun i j => v (finProdFinEquiv (i, j))

end flatten

/-- `sp.diags(ds, offs, shape=(n,n))` with scalar diagonals: entry `(r,c)` is `d` when `c - r` is its offset
(offsets are distinct at every call site in `derivatives.py:23,26,33,36`; scipy rejects duplicates). -/
def diags {R : Type*} [AddCommMonoid R] (n : ℕ) (ds : List R) (offs : List ℤ) : Mat n R :=
  fun r c => ((ds.zip offs).map fun p => if ((c : ℕ) : ℤ) - ((r : ℕ) : ℤ) = p.2 then p.1 else 0).sum

/-- `sp.kron(A, B)`: entry `(r,c)` is `A[r//p, c//q] * B[r%p, c%q]` for `B` of shape `(p,q)`
(`derivatives.py:24,27,34,37`). -/
def kron {R : Type*} [Mul R] {m n p q : ℕ} (A : Matrix (Fin m) (Fin n) R) (B : Matrix (Fin p) (Fin q) R) :
    Matrix (Fin (m * p)) (Fin (n * q)) R :=
  fun r c => A r.divNat c.divNat * B r.modNat c.modNat

/-- `sp.spdiags(v, 0, M, M)`: the diagonal matrix of `v` (`linalg.py:58`, `pml.py:84-87`, `simulation.py:79`). -/
def spdiag {R : Type*} [Zero R] {n : ℕ} (v : Vec n R) : Mat n R := Matrix.diagonal v

/-- Axis selector: the strings `'x'` / `'y'`. -/
inductive Axis | x | y
  deriving DecidableEq, Repr

/-- Difference direction: the strings `'f'` / `'b'`. -/
inductive Dir | f | b
  deriving DecidableEq, Repr

/-- Polarisation: the strings `'Ez'` / `'Hz'` (validated in `simulation.py:246`). -/
inductive Pol | Ez | Hz
  deriving DecidableEq, Repr

end Angler
