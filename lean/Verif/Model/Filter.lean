import Verif.Model.Py
import Verif.Model.Grid
import Mathlib.Analysis.SpecialFunctions.Trigonometric.DerivHyp
import Mathlib.Analysis.SpecialFunctions.Sqrt

/-! # `angler/filter.py`

Array functions that act elementwise are given as scalar functions; `rho2eps` etc. apply them pixel by pixel.
-/

namespace Angler

open Matrix

/-- `rhot2rhob(rhot, eta, beta)` at one pixel, `filter.py:102-106`. -/
noncomputable def rhot2rhob (rhot eta beta : ℝ) : ℝ :=
  let num := Real.tanh (beta * eta) + Real.tanh (beta * (rhot - eta))
  let den := Real.tanh (beta * eta) + Real.tanh (beta * (1 - eta))
  num / den

/-- `rhob2eps(rhob, eps_m)` at one pixel, `filter.py:109-111`. -/
def rhob2eps (rhob eps_m : ℝ) : ℝ := 1 + rhob * (eps_m - 1)

/-- `eps2rho(eps, eps_m)` at one pixel, `filter.py:114-116`. -/
noncomputable def eps2rho (eps eps_m : ℝ) : ℝ := (eps - 1) / (eps_m - 1)

/-- `drhob_drhot(rho_t, eta, beta)` at one pixel, `filter.py:134-139`. -/
noncomputable def drhob_drhot (rhot eta beta : ℝ) : ℝ :=
  let num := beta - beta * (Real.tanh (beta * (rhot - eta))) ^ 2
  let den := Real.tanh (beta * eta) + Real.tanh (beta * (1 - eta))
  num / den

/-- `deps_drhob(rhob, eps_m)`, `filter.py:141-142`. -/
def deps_drhob (_rhob eps_m : ℝ) : ℝ := eps_m - 1

/-- `drhot_drho(W)`, `filter.py:129-131`. -/
def drhot_drho {n : ℕ} (W : Mat n ℝ) : Mat n ℝ := W

/-- `rho2rhot(rho, W)`, `filter.py:93-99`. -/
def rho2rhot {Nx Ny : ℕ} (rho : Grid Nx Ny ℝ) (W : Mat (Nx * Ny) ℝ) : Grid Nx Ny ℝ :=
  unflatten (W *ᵥ flatten rho)

/-- `rho2eps(rho, eps_m, W, eta, beta)`, `filter.py:119-123`. -/
noncomputable def rho2eps {Nx Ny : ℕ} (rho : Grid Nx Ny ℝ) (eps_m : ℝ) (W : Mat (Nx * Ny) ℝ) (eta beta : ℝ) :
    Grid Nx Ny ℝ :=
  let rhot := rho2rhot rho W
  let rhob := fun i j => rhot2rhob (rhot i j) eta beta
  fun i j => rhob2eps (rhob i j) eps_m

/-- `wrap(i, N)`, `filter.py:10-11`; Python booleans multiply as 0/1. -/
def wrap (i N : ℤ) : ℤ :=
  i + (if N ≤ i then 1 else 0) * (i - N) + (if i < 0 then 1 else 0) * (i + N)

/-- `dist(r1, r2)`, `filter.py:13-14`, for integer points. -/
noncomputable def fdist (i1 j1 i2 j2 : ℤ) : ℝ :=
  Real.sqrt (((i1 - i2 : ℤ) : ℝ) ^ 2 + ((j1 - j2 : ℤ) : ℝ) ^ 2)

/-- Python `range(a, b)`. -/
def pyRange (a b : ℤ) : List ℤ := (List.range (b - a).toNat).map fun (k : ℕ) => a + (k : ℤ)

/-- The innermost loop `for j_diff in diffs` of `get_W`, `filter.py:54-69`, started with the current value of `i2`.
`i2` is *re-wrapped in every iteration* (line 59) and `r2` (line 56) uses its value from before that; the model keeps this. -/
noncomputable def getW_inner (Nx Ny R i1 j1 : ℤ) : ℤ → List ℤ → List (ℤ × ℤ × ℝ)
  | _, [] => []
  | i2, j_diff :: rest =>
    let j2 := j1 + j_diff
    let val : ℝ := (R : ℝ) - fdist i1 j1 i2 j2
    let i2' := wrap i2 Nx
    let j2' := wrap j2 Ny
    let col_index := i2' * Ny + j2'
    (open Classical in if 0 < val then [(i1 * Ny + j1, col_index, val)] else [])
      ++ getW_inner Nx Ny R i1 j1 i2' rest

/-- The range of pixel indices visited along one axis, `filter.py:32-40`. -/
def getW_range (N NPML R : ℤ) : List ℤ :=
  if NPML = 0 then pyRange 0 N else pyRange (R + NPML + 1) (N - R - 1 - NPML)

/-- The COO triples `(row_indeces, col_indeces, vals)` accumulated by the four nested loops, `filter.py:44-69`. -/
noncomputable def getW_triples (Nx Ny : ℕ) (NPML : ℕ × ℕ) (R : ℕ) : List (ℤ × ℤ × ℝ) :=
  let diffs := pyRange (-(R : ℤ)) (R + 1)
  (getW_range Nx NPML.1 R).flatMap fun i1 =>
    (getW_range Ny NPML.2 R).flatMap fun j1 =>
      diffs.flatMap fun i_diff => getW_inner Nx Ny R i1 j1 (i1 + i_diff) diffs

/-- `sp.csr_matrix((vals, (rows, cols)), shape=(n, n))`, `filter.py:71`: duplicates are summed; an index outside `[0,n)` raises `ValueError`. -/
noncomputable def csr_matrix (n : ℕ) (t : List (ℤ × ℤ × ℝ)) : Except PyErr (Mat n ℝ) :=
  if ∀ p ∈ t, (0 ≤ p.1 ∧ p.1 < n) ∧ (0 ≤ p.2.1 ∧ p.2.1 < n) then
    .ok fun r c => (t.map fun p => if p.1 = ((r : ℕ) : ℤ) ∧ p.2.1 = ((c : ℕ) : ℤ) then p.2.2 else 0).sum
  else .error .valueError

/-- `get_W(Nx, Ny, design_region, NPML, R)`, `filter.py:19-86` (progress bar dropped; `W_des`, line 78, is computed by the code but never used). -/
noncomputable def get_W (Nx Ny : ℕ) (design_region : Grid Nx Ny ℝ) (NPML : ℕ × ℕ) (R : ℕ) : Except PyErr (Mat (Nx * Ny) ℝ) := do
  let W ← csr_matrix (Nx * Ny) (getW_triples Nx Ny NPML R)
  let des_vec := flatten design_region
  let no_des_vec := fun k => 1 - des_vec k
  let norm_vec := fun k => open Classical in if (W *ᵥ fun _ => 1) k = 0 then 1 else (W *ᵥ fun _ => 1) k
  let W' := W * spdiag fun k => 1 / norm_vec k
  return spdiag des_vec * W' + spdiag no_des_vec

end Angler
