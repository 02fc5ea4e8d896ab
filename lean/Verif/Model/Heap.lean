import Verif.Model.DesignRegion

/-! # Arrays by reference

numpy arrays are shared by reference: the `eps_r` setter stores the array object it is given (`simulation.py:100`), the constructor passes the caller's array on
(`simulation.py:48`), and `init_design_region(style='halfway')` writes into the stored array in place (`simulation.py:317-319`).
The other modules work with values; this one adds the heap of permittivity arrays. -/

namespace Angler

variable {Nx Ny : ℕ}

/-- A heap of permittivity arrays (`arr id`, ids `≥ next` unused), and simulation objects, each with the id of the array its `__eps_r` refers to.
The field `eps_r` inside the stored `Sim` is not used: see `World.view`. -/
structure World (Nx Ny : ℕ) where
  arr : ℕ → Grid Nx Ny ℂ
  next : ℕ
  obj : ℕ → Sim Nx Ny
  ref : ℕ → ℕ

namespace World

/-- The simulation object `k` as an observer sees it: its `eps_r` is the present content of the array it refers to. -/
def view (w : World Nx Ny) (k : ℕ) : Sim Nx Ny := { w.obj k with eps_r := w.arr (w.ref k) }

/-- `sim.eps_r = a` for an array that already exists (`simulation.py:91-111`): the reference is stored, matrix and fields are rebuilt. -/
noncomputable def assign (w : World Nx Ny) (k id : ℕ) : World Nx Ny :=
  { w with obj := Function.update w.obj k ((w.view k).set_eps_r (w.arr id)), ref := Function.update w.ref k id }

/-- A new array with the given contents (`.copy()`, or the result of an arithmetic expression). -/
def alloc (w : World Nx Ny) (a : Grid Nx Ny ℂ) : World Nx Ny := { w with arr := Function.update w.arr w.next a, next := w.next + 1 }

/-- Writing into an existing array. -/
def write (w : World Nx Ny) (id : ℕ) (a : Grid Nx Ny ℂ) : World Nx Ny := { w with arr := Function.update w.arr id a }

/-- `self.rho = eps2rho(self.eps_r, eps_m)`, `simulation.py:341`. -/
noncomputable def setRho (w : World Nx Ny) (k : ℕ) (eps_m : ℝ) : World Nx Ny :=
  { w with obj := Function.update w.obj k { w.obj k with rho := some (some fun i j => eps2rho ((w.view k).eps_r i j).re eps_m) } }

/-- `init_design_region` with references, `simulation.py:306-341`: `halfway` writes in place, the other styles assign a new array. -/
noncomputable def initDesign (w : World Nx Ny) (k : ℕ) (design : Grid Nx Ny ℝ) (eps_m : ℝ) (style : Style) (draw : Grid Nx Ny ℝ) : World Nx Ny :=
  let w1 := match designEps (w.view k).eps_r design eps_m style draw with
    | none => w
    | some a =>
      match style with
      | .halfway => (w.write (w.ref k) a).assign k (w.ref k)
      | _ => (w.alloc a).assign k w.next
  w1.setRho k eps_m

end World

end Angler
