import Verif.Model.Simulation

/-! # Assigning permittivities of a different shape, `simulation.py:91-111`

`Sim Nx Ny` fixes the shape.  Here the part of a simulation that the `eps_r` setter reads and writes is kept with a run-time shape: the setter updates `Nx`, `Ny`, the permittivity, the
system matrix and the derivative operators; `xrange` and `yrange` keep the values given by the constructor. -/

namespace Angler

/-- A two-dimensional array with its shape. -/
structure AnyGrid where
  Nx : ℕ
  Ny : ℕ
  val : Grid Nx Ny ℂ

/-- The attributes concerned (`simulation.py:20-44`, `99-109`). -/
structure DynSim where
  omega : ℝ
  L0 : ℝ
  dl : ℝ
  NPML : ℕ × ℕ
  pol : Pol
  xrange : ℝ × ℝ
  yrange : ℝ × ℝ
  eps_r : AnyGrid
  A : Mat (eps_r.Nx * eps_r.Ny) ℂ
  derivs : Derivs eps_r.Nx eps_r.Ny

namespace DynSim

/-- The `eps_r` setter, `simulation.py:91-111`, for a two-dimensional array of any shape. -/
noncomputable def assign (s : DynSim) (new_eps : AnyGrid) : DynSim :=
  let r := construct_A s.omega s.xrange s.yrange new_eps.val s.NPML s.pol s.L0
  { s with eps_r := new_eps, A := r.1, derivs := r.2 }

/-- `Simulation.__init__`, `simulation.py:17-55`, after the input checks. -/
noncomputable def create (omega : ℝ) (eps_r : AnyGrid) (dl : ℝ) (NPML : ℕ × ℕ) (pol : Pol) (L0 : ℝ) : DynSim :=
  let r := construct_A omega (0, eps_r.Nx * dl) (0, eps_r.Ny * dl) eps_r.val NPML pol L0
  ⟨omega, L0, dl, NPML, pol, (0, eps_r.Nx * dl), (0, eps_r.Ny * dl), eps_r, r.1, r.2⟩

end DynSim

end Angler
