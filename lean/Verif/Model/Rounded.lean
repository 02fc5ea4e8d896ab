import Verif.Model.Filter

/-! # Floating-point evaluation of the density maps of `angler/filter.py`

numpy evaluates `rhot2rhob` and `rhob2eps` in double precision, entry by entry, each operation being the exact operation followed by a rounding.  `Fl` is such an arithmetic: the rounding and the library's
`tanh`.  Overflow and underflow (exponents outside the range of a double) are left out. -/

namespace Angler

/-- A floating-point arithmetic: rounding of exact results, and the `tanh` of the library. -/
structure Fl where
  rnd : ℝ → ℝ
  tanh : ℝ → ℝ

namespace Fl

def add (F : Fl) (a b : ℝ) : ℝ := F.rnd (a + b)
def sub (F : Fl) (a b : ℝ) : ℝ := F.rnd (a - b)
def mul (F : Fl) (a b : ℝ) : ℝ := F.rnd (a * b)
noncomputable def div (F : Fl) (a b : ℝ) : ℝ := F.rnd (a / b)

end Fl

/-- `rhot2rhob(rhot, eta, beta)`, `filter.py:102-106`, in floating point: `np.tanh(beta*eta) + np.tanh(beta*(rhot - eta))` over `np.tanh(beta*eta) + np.tanh(beta*(1 - eta))`. -/
noncomputable def rhot2rhobFl (F : Fl) (rhot eta beta : ℝ) : ℝ :=
  let num := F.add (F.tanh (F.mul beta eta)) (F.tanh (F.mul beta (F.sub rhot eta)))
  let den := F.add (F.tanh (F.mul beta eta)) (F.tanh (F.mul beta (F.sub 1 eta)))
  F.div num den

/-- `rhob2eps(rhob, eps_m)`, `filter.py:109-111`, in floating point: `1 + rhob * (eps_m - 1)`. -/
def rhob2epsFl (F : Fl) (rhob eps_m : ℝ) : ℝ := F.add 1 (F.mul rhob (F.sub eps_m 1))

/-- `eps2rho(eps, eps_m)`, `filter.py:114-116`, in floating point: `(eps - 1) / (eps_m - 1)`. -/
noncomputable def eps2rhoFl (F : Fl) (eps eps_m : ℝ) : ℝ := F.div (F.sub eps 1) (F.sub eps_m 1)

/-- One row of `W.dot(rho_vec)`, `filter.py:93-99` (`rho2rhot`), in floating point: scipy's CSR product adds `data[jj] * x[col[jj]]` to the running sum, in the order of the stored entries. -/
def rowDotFl (F : Fl) (row : List (ℝ × ℝ)) : ℝ := row.foldl (fun sum wx => F.add sum (F.mul wx.1 wx.2)) 0

end Angler
