import Verif.Model.Rounded
import Verif.Model.Linalg

/-! # Floating-point assembly of the system matrix (`angler/linalg.py`, `pml.py`, `derivatives.py`)

The Ez branch of `construct_A` as numpy and scipy evaluate it, every operation rounded.  Complex numbers are pairs; sums are componentwise, products by the schoolbook formula.
Overflow and underflow are left out, as in `Model/Rounded.lean`.  Integers (numbers of cells, indices) are small enough to be exact. -/

namespace Angler

variable {Nx Ny : ℕ}

/-- An arithmetic with numpy's reciprocal of complex numbers and fourth power. -/
structure FlLib extends Fl where
  cinv : ℂ → ℂ
  pow4 : ℝ → ℝ

namespace Fl

/-- Both components rounded. -/
def rndC (F : Fl) (z : ℂ) : ℂ := ⟨F.rnd z.re, F.rnd z.im⟩

def addC (F : Fl) (a b : ℂ) : ℂ := F.rndC (a + b)

/-- Products of complex numbers: `(a.re*b.re - a.im*b.im, a.re*b.im + a.im*b.re)`. -/
def mulC (F : Fl) (a b : ℂ) : ℂ := ⟨F.sub (F.mul a.re b.re) (F.mul a.im b.im), F.add (F.mul a.re b.im) (F.mul a.im b.re)⟩

/-- The product of two CSR matrices, `A.dot(B)`: entry `(i, j)` is accumulated over the stored entries of row `i` of `A`.  The entries that are not stored are zero and adding their products
changes nothing (`fold_two` in `Lemmas/RoundMatrix.lean`: for rows of at most two entries, as here, the order does not matter either). -/
def matMul (F : Fl) {n : ℕ} (A B : Mat n ℂ) : Mat n ℂ := Matrix.of fun i j => (List.finRange n).foldl (fun sum k => F.addC sum (F.mulC (A i k) (B k j))) 0

/-- `A.dot(v)` for a CSR matrix. -/
def mulVec (F : Fl) {n : ℕ} (A : Mat n ℂ) (v : Vec n ℂ) (i : Fin n) : ℂ := (List.finRange n).foldl (fun sum k => F.addC sum (F.mulC (A i k) (v k))) 0

/-- `constants.py:3`: the literal, rounded. -/
noncomputable def eps0 (F : Fl) : ℝ := F.rnd EPSILON_0

/-- `constants.py:4`. -/
noncomputable def mu0 (F : Fl) : ℝ := F.rnd MU_0

/-- `constants.py:6`: `sqrt(MU_0/EPSILON_0)`, the square root correctly rounded. -/
noncomputable def eta0 (F : Fl) : ℝ := F.rnd (Real.sqrt (F.div F.mu0 F.eps0))

/-- `np.diff(wrange)[0]/Nw` (`pml.py:26`; the same numbers as `dL`, `linalg.py:28-36`), for the range `[0, float(Nw*dl)]` of the constructor (`simulation.py:41-42`). -/
noncomputable def spacing (F : Fl) (dl : ℝ) (Nw : ℕ) : ℝ := F.div (F.sub (F.mul Nw dl) 0) Nw

/-- `createDws(w, s, dL, N)`, `derivatives.py:7-40`: `1/dx` times a matrix of zeros and `±1`. -/
noncomputable def createDws (F : Fl) (w : Axis) (s : Dir) (dx dy : ℝ) (Nx Ny : ℕ) : Mat (Nx * Ny) ℝ :=
  match w with
  | .x =>
    if 1 < Nx then
      match s with
      | .f => (kron (diags Nx [-1, 1, 1] [0, 1, -(Nx : ℤ) + 1]) (1 : Mat Ny ℝ)).map (F.mul (F.div 1 dx))
      | .b => (kron (diags Nx [1, -1, -1] [0, -1, (Nx : ℤ) - 1]) (1 : Mat Ny ℝ)).map (F.mul (F.div 1 dx))
    else 1
  | .y =>
    if 1 < Ny then
      match s with
      | .f => (kron (1 : Mat Nx ℝ) (diags Ny [-1, 1, 1] [0, 1, -(Ny : ℤ) + 1])).map (F.mul (F.div 1 dy))
      | .b => (kron (1 : Mat Nx ℝ) (diags Ny [1, -1, -1] [0, -1, (Ny : ℤ) - 1])).map (F.mul (F.div 1 dy))
    else 1

end Fl

namespace FlLib

/-- `sig_w(l, dw)`, `pml.py:7-11`: `-(m+1)*lnR` is the integer 60. -/
noncomputable def sig_w (F : FlLib) (l dw : ℝ) : ℝ := F.mul (F.div 60 (F.mul (F.mul 2 F.eta0) dw)) (F.pow4 (F.div l dw))

/-- `S(l, dw, omega, L0)`, `pml.py:14-17`: `1j*sig` and its quotient by a real number have real part 0, so the result is `(1, -sig/(omega*EPSILON_0*L0))`. -/
noncomputable def Sfac (F : FlLib) (l dw omega L0 : ℝ) : ℂ := ⟨1, -F.div (F.sig_w l dw) (F.mul (F.mul omega F.eps0) L0)⟩

/-- `create_sfactor(wrange, L0, s, omega, Nw, Nw_pml)[i]`, `pml.py:20-39`; the multiples of one half are exact. -/
noncomputable def create_sfactor (F : FlLib) (dl L0 : ℝ) (s : Dir) (omega : ℝ) (Nw Nw_pml : ℕ) (i : Fin Nw) : ℂ :=
  if Nw_pml < 1 then 1
  else
    let hw : ℝ := F.spacing dl Nw
    let dw : ℝ := F.mul Nw_pml hw
    let iz : ℤ := (i : ℕ)
    match s with
    | .f =>
      if iz ≤ Nw_pml then F.Sfac (F.mul hw ((Nw_pml : ℝ) - (i : ℕ) + 0.5)) dw omega L0
      else if iz > (Nw : ℤ) - Nw_pml then F.Sfac (F.mul hw (((i : ℕ) : ℝ) - ((Nw : ℝ) - Nw_pml) - 0.5)) dw omega L0
      else 1
    | .b =>
      if iz ≤ Nw_pml then F.Sfac (F.mul hw ((Nw_pml : ℝ) - (i : ℕ) + 1)) dw omega L0
      else if iz > (Nw : ℤ) - Nw_pml then F.Sfac (F.mul hw (((i : ℕ) : ℝ) - ((Nw : ℝ) - Nw_pml) - 1)) dw omega L0
      else 1

/-- `Sxf.dot(createDws('x', 'f', ...))` and the other three, `pml.py:65-87`, `linalg.py:60-66`: the stretched difference along `w`. -/
noncomputable def deriv (F : FlLib) (w : Axis) (s : Dir) (dl L0 omega : ℝ) (Nx Ny : ℕ) (NPML : ℕ × ℕ) : Mat (Nx * Ny) ℂ :=
  let S : Mat (Nx * Ny) ℂ := match w with
    | .x => spdiag (flatten fun i _ => F.cinv (F.create_sfactor dl L0 s omega Nx NPML.1 i))
    | .y => spdiag (flatten fun _ j => F.cinv (F.create_sfactor dl L0 s omega Ny NPML.2 j))
  F.matMul S ((F.createDws w s (F.spacing dl Nx) (F.spacing dl Ny) Nx Ny).map Complex.ofReal)

/-- `A` of the Ez branch of `construct_A`, `linalg.py:52-69`.  scipy divides a sparse matrix by a number by multiplying with the (rounded) reciprocal; Python's `omega**2` is taken as the rounded square. -/
noncomputable def construct_A (F : FlLib) (omega dl : ℝ) (eps_r : Grid Nx Ny ℂ) (NPML : ℕ × ℕ) (L0 : ℝ) : Mat (Nx * Ny) ℂ :=
  let E0 := F.mul F.eps0 L0
  let M0 := F.mul F.mu0 L0
  let D (w : Axis) (s : Dir) := F.deriv w s dl L0 omega Nx Ny NPML
  let scaled (B : Mat (Nx * Ny) ℂ) : Mat (Nx * Ny) ℂ := B.map fun z => F.mulC z (F.div 1 M0 : ℝ)
  let T := spdiag fun k => F.mulC (E0 : ℝ) (flatten eps_r k)
  Matrix.of fun i j => F.addC (F.addC (F.matMul (scaled (D .x .f)) (D .x .b) i j) (F.matMul (scaled (D .y .f)) (D .y .b) i j)) (F.mulC (F.mul omega omega : ℝ) (T i j))

end FlLib

end Angler
