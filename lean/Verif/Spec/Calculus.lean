import Verif.Model.Grid
import Mathlib.Data.Real.Basic

/-! # Specification: periodic difference quotients on a grid

Independent of matrices: plain formulas for fields `f : Fin Nx → Fin Ny → ℂ`.
-/

namespace Angler.Spec

/-- The next index on a ring of `n` cells. -/
def next {n : ℕ} (i : Fin n) : Fin n := ⟨(i + 1) % n, Nat.mod_lt _ (Nat.lt_of_le_of_lt (Nat.zero_le _) i.2)⟩

/-- The previous index on a ring of `n` cells. -/
def prev {n : ℕ} (i : Fin n) : Fin n := ⟨(i + (n - 1)) % n, Nat.mod_lt _ (Nat.lt_of_le_of_lt (Nat.zero_le _) i.2)⟩

variable {Nx Ny : ℕ}

/-- Forward difference quotient along `x`. -/
noncomputable def fwdX (h : ℝ) (f : Grid Nx Ny ℂ) : Grid Nx Ny ℂ := fun i j => (f (next i) j - f i j) / h
/-- Backward difference quotient along `x`. -/
noncomputable def bwdX (h : ℝ) (f : Grid Nx Ny ℂ) : Grid Nx Ny ℂ := fun i j => (f i j - f (prev i) j) / h
/-- Forward difference quotient along `y`. -/
noncomputable def fwdY (h : ℝ) (f : Grid Nx Ny ℂ) : Grid Nx Ny ℂ := fun i j => (f i (next j) - f i j) / h
/-- Backward difference quotient along `y`. -/
noncomputable def bwdY (h : ℝ) (f : Grid Nx Ny ℂ) : Grid Nx Ny ℂ := fun i j => (f i j - f i (prev j)) / h

end Angler.Spec
