import Verif.Spec.Calculus

/-! # Specification: Maxwell's equations on a periodic staggered grid with coordinate stretching

Written with plain difference quotients.  `h` is the grid spacing, `sx, sy` the complex stretch factors of the PML
(one set for forward, one for backward differences), `mu` / `eps` the (scaled) material constants.
-/

namespace Angler.Spec

variable {Nx Ny : ℕ}

/-- Ez polarisation: Faraday's law for `Hx`, `Hy` and Ampère's law with current source `src`. -/
def MaxwellEz (omega mu h : ℝ) (sxf sxb : Fin Nx → ℂ) (syf syb : Fin Ny → ℂ) (eps src Hx Hy Ez : Grid Nx Ny ℂ) : Prop :=
  ∀ i j,
    Complex.I * omega * mu * Hx i j = -(bwdY h Ez i j / syb j) ∧
    Complex.I * omega * mu * Hy i j = bwdX h Ez i j / sxb i ∧
    fwdX h Hy i j / sxf i - fwdY h Hx i j / syf j - Complex.I * omega * eps i j * Ez i j = src i j

/-- Hz polarisation: Ampère's law for `Ex`, `Ey` (with the permittivities `epsx`, `epsy` seen by `Ey` and `Ex`) and Faraday's law with magnetic source. -/
def MaxwellHz (omega mu h : ℝ) (sxf sxb : Fin Nx → ℂ) (syf syb : Fin Ny → ℂ) (epsx epsy src Ex Ey Hz : Grid Nx Ny ℂ) : Prop :=
  ∀ i j,
    Complex.I * omega * epsy i j * Ex i j = bwdY h Hz i j / syb j ∧
    Complex.I * omega * epsx i j * Ey i j = -(bwdX h Hz i j / sxb i) ∧
    fwdY h Ex i j / syf j - fwdX h Ey i j / sxf i - Complex.I * omega * mu * Hz i j = src i j

/-- A cell index is outside the absorbing layer of an axis with `N` cells and layer size `P`. -/
def OutsideAxis (N P i : ℕ) : Prop := P = 0 ∨ (P < i ∧ P < N - 1 - i)

end Angler.Spec
