import Verif.Model.Objective
import Mathlib.Analysis.SpecialFunctions.Exp

/-! # `angler/utils.py`: `Binarizer`

Arrays are real (the permittivity of a design).  numpy goes on with `inf`/`nan` when `eps_m = 1` or when the design region sums to 0; the model returns `nonFinite`. -/

namespace Angler

variable {Nx Ny : ℕ}

/-- A `Binarizer`, `utils.py:55-59`. -/
structure Binarizer (Nx Ny : ℕ) where
  design_region : Grid Nx Ny ℝ
  eps_m : ℝ
  exp_const : ℝ

namespace Binarizer

/-- `rho`, `utils.py:70` (also `102`, `135`). -/
noncomputable def rho (b : Binarizer Nx Ny) (eps : Grid Nx Ny ℝ) : Grid Nx Ny ℝ := fun i j => (eps i j - 1) / (b.eps_m - 1) * b.design_region i j

/-- `N`, `utils.py:73` (also `105`, `138`). -/
noncomputable def N (b : Binarizer Nx Ny) : ℝ := ∑ i, ∑ j, b.design_region i j

/-- `M_nd`, `utils.py:76` (also `108`, `141`). -/
noncomputable def M_nd (b : Binarizer Nx Ny) (eps : Grid Nx Ny ℝ) : Grid Nx Ny ℝ := fun i j => 4 * b.rho eps i j * (1 - b.rho eps i j)

open Classical in
/-- `J_bin` of `density`, `utils.py:64-82`. -/
noncomputable def density_bin (b : Binarizer Nx Ny) (eps : Grid Nx Ny ℝ) : Except PyErr ℝ :=
  if b.eps_m - 1 = 0 ∨ b.N = 0 then .error .nonFinite
  else
    let M_nd_scalar := (∑ i, ∑ j, b.M_nd eps i j) / b.N
    .ok (1 - M_nd_scalar)

open Classical in
/-- `J_bin` of `density_exp`, `utils.py:96-117`. -/
noncomputable def density_exp_bin (b : Binarizer Nx Ny) (eps : Grid Nx Ny ℝ) : Except PyErr ℝ :=
  if b.eps_m - 1 = 0 ∨ b.N = 0 then .error .nonFinite
  else
    let M_nd_scalar := (∑ i, ∑ j, b.M_nd eps i j) / b.N
    .ok (Real.exp (-b.exp_const * |M_nd_scalar|))

/-- `convolve(k, s)` of `autograd.scipy.signal` with its default `mode='full'` for non-empty vectors: entry `n` is `Σ k[m] s[n-m]`. -/
def convolve (k s : List ℝ) : List ℝ :=
  (List.range (k.length + s.length - 1)).map fun n => ∑ m ∈ Finset.range (n + 1), k.getD m 0 * s.getD (n - m) 0

/-- The kernel in use, `utils.py:150-152` (the one of lines 146-148 is overwritten). -/
def kernel : List ℝ := [0, 1]

/-- `npa.sum(npa.abs(convolve(k, strip)))`, `utils.py:157-159, 163-165`. -/
def stripPenalty (strip : List ℝ) : ℝ := ((convolve kernel strip).map fun x => |x|).sum

open Classical in
/-- `J_bin` of `smoothness`, `utils.py:130-169`. -/
noncomputable def smoothness_bin (b : Binarizer Nx Ny) (eps : Grid Nx Ny ℝ) : Except PyErr ℝ :=
  if b.eps_m - 1 = 0 ∨ b.N = 0 then .error .nonFinite
  else
    let M := b.M_nd eps
    let p1 := (List.finRange Nx).foldl (fun p i => p + stripPenalty ((List.finRange Ny).map fun j => M i j)) 0
    let p2 := (List.finRange Ny).foldl (fun p j => p + stripPenalty ((List.finRange Nx).map fun i => M i j)) p1
    .ok (1 - p2 / b.N / 2)

end Binarizer

/-- A Python function of arrays: the number of entries of `signature(f).parameters`, and what a call with positional arguments returns or raises. -/
structure PyFn (Nx Ny : ℕ) where
  params : ℕ
  call : List (Grid Nx Ny ℝ) → Except PyErr ℝ

/-- A `def J(a, b, …)` of `n` parameters: called with another number of arguments it raises `TypeError`. -/
def PyFn.ofFun (n : ℕ) (f : (Fin n → Grid Nx Ny ℝ) → ℝ) : PyFn Nx Ny :=
  ⟨n, fun args => if h : args.length = n then .ok (f fun k => args.get (k.cast h.symm)) else .error .typeError⟩

/-- `J_new(*args, **kwargs)`, `utils.py:86-89` (also `120-123`, `173-178`): `signature` sees the two parameters `args` and `kwargs`; `args[2]` raises `IndexError` on shorter
argument lists. -/
def Binarizer.J_new (J : PyFn Nx Ny) (J_bin : Grid Nx Ny ℝ → Except PyErr ℝ) : PyFn Nx Ny :=
  ⟨2, fun args =>
    match args[2]? with
    | none => .error .indexError
    | some eps =>
      match J.call args with
      | .error e => .error e
      | .ok v => (J_bin eps).map fun f => v * f⟩

/-- `binarizer.density(J)`, `utils.py:61-91`. -/
noncomputable def Binarizer.density (b : Binarizer Nx Ny) (J : PyFn Nx Ny) : PyFn Nx Ny := J_new J b.density_bin

/-- `binarizer.density_exp(J)`, `utils.py:93-125`. -/
noncomputable def Binarizer.density_exp (b : Binarizer Nx Ny) (J : PyFn Nx Ny) : PyFn Nx Ny := J_new J b.density_exp_bin

/-- `binarizer.smoothness(J)`, `utils.py:127-180`. -/
noncomputable def Binarizer.smoothness (b : Binarizer Nx Ny) (J : PyFn Nx Ny) : PyFn Nx Ny := J_new J b.smoothness_bin

/-- The argument count check of `Objective.__init__`, `objective.py:41-45`, for a function given as `PyFn` (compare `Objective.init`, the same check). -/
def PyFn.objectiveCheck (J : PyFn Nx Ny) (arg_list : List ObjArg) : Except PyErr Unit :=
  if arg_list.length ≠ J.params then .error .valueError else .ok ()

end Angler
