import Mathlib.Data.Real.Basic
import Mathlib.Algebra.Order.Floor.Ring
import Mathlib.Data.Real.Archimedean

/-!
# Python run-time notions used by the model

Exceptions as values, IEEE-style special values that steer control flow, and `int()`.
-/

namespace Angler

/-- Python exceptions raised by the modelled code (class only, messages dropped).
`nonFinite` is not an exception: it marks the points where numpy would go on computing with `inf` or `nan` arrays, which the model (exact numbers) does not follow. -/
inductive PyErr
  | assertionError
  | valueError
  | nameError
  | attributeError
  | typeError
  | indexError
  | keyError
  | unboundLocalError
  | notImplementedError
  | zeroDivisionError
  | nonFinite
  deriving DecidableEq, Repr

/-- Result of a numpy float division when the code goes on to *compare* it
(`nonlinear_solvers.py:46,99`, `optimization.py:386`, `optimization.py:422`).
Finite values are exact reals (rounding is not modelled); a zero denominator gives `inf`, `-inf` or `nan`
as in IEEE-754, never `0`. -/
inductive PyFloat
  | fin (r : ℝ)
  | inf
  | ninf
  | nan

/-- Python `int(x)` of a finite float: truncation towards zero. -/
noncomputable def pyInt (x : ℝ) : ℤ := open Classical in if 0 ≤ x then ⌊x⌋ else ⌈x⌉

namespace PyFloat

/-- numpy division `a / b` of finite floats. -/
noncomputable def div (a b : ℝ) : PyFloat :=
  open Classical in
  if b ≠ 0 then fin (a / b)
  else if 0 < a then inf else if a < 0 then ninf else nan

/-- Python `x < t` for a finite `t`; false on `nan`. -/
def Lt : PyFloat → ℝ → Prop
  | fin r, t => r < t
  | inf, _ => False
  | ninf, _ => True
  | nan, _ => False

/-- Python `x > t` for a finite `t`; false on `nan`. -/
def Gt : PyFloat → ℝ → Prop
  | fin r, t => t < r
  | inf, _ => True
  | ninf, _ => False
  | nan, _ => False

end PyFloat

end Angler
