import Verif.Model.Objective
import Mathlib.Algebra.BigOperators.Fin

/-! # The objective functions of the port and splitter notebooks (`Notebooks/2_port.ipynb`, `3_port.ipynb`, `T_port.ipynb`, `Splitter.ipynb`, `Splitter_4.ipynb`)

`partials` is what autograd returns: `grad` of `square(abs(e))` is `2*abs(e)*conj(e)/abs(e)`, read as 0 where `e` is 0. -/

namespace Angler

variable {Nx Ny : ℕ}

/-- `J_out = np.abs(out.src)` (cell 5 of `2_port.ipynb`): the profile of a port. -/
noncomputable def portProfile (src : Grid Nx Ny ℂ) : Grid Nx Ny ℝ := fun i j => ‖src i j‖

/-- `np.sum(np.square(np.abs(e))*w)`; with `e = Ez_wg` and `w = J_out` this is `SCALE` in cell 7 of `2_port.ipynb`, `3_port.ipynb`, `T_port.ipynb`. -/
noncomputable def overlap (w : Grid Nx Ny ℝ) (e : Grid Nx Ny ℂ) : ℝ := ∑ i, ∑ j, ‖e i j‖ ^ 2 * w i j

/-- `np.sum(np.square(np.abs(e*w)))`; with `e = Ez_wg` and `w = J_out` this is `SCALE` in cell 13 of `Splitter.ipynb` and `Splitter_4.ipynb`. -/
noncomputable def overlapSq (w : Grid Nx Ny ℝ) (e : Grid Nx Ny ℂ) : ℝ := ∑ i, ∑ j, ‖e i j * (w i j : ℂ)‖ ^ 2

open Classical in
/-- `J_out = J_out/SCALE` (cell 7 of `2_port.ipynb`); a division of an array by zero gives `inf` and `nan`. -/
noncomputable def divPort (w : Grid Nx Ny ℝ) (SCALE : ℝ) : Except PyErr (Grid Nx Ny ℝ) := if SCALE = 0 then .error .nonFinite else .ok fun i j => w i j / SCALE

/-- `J_top = J_top / np.sqrt(SCALE)` (cell 13 of `Splitter.ipynb`). -/
noncomputable def divPortSqrt (w : Grid Nx Ny ℝ) (SCALE : ℝ) : Except PyErr (Grid Nx Ny ℝ) := divPort w (Real.sqrt SCALE)

/-- `for i in range(N): J_list[i] /= np.sqrt(SCALE)` (cell 13 of `Splitter_4.ipynb`). -/
noncomputable def divPorts (J_list : List (Grid Nx Ny ℝ)) (SCALE : ℝ) : Except PyErr (List (Grid Nx Ny ℝ)) := J_list.mapM fun w => divPortSqrt w SCALE

/-- The gradient of `overlap w` with respect to `e`. -/
noncomputable def overlapGrad (w : Grid Nx Ny ℝ) (e : Grid Nx Ny ℂ) : Grid Nx Ny ℂ := fun i j => 2 * (starRingEnd ℂ) (e i j) * w i j

/-- The gradient of `overlapSq w` with respect to `e`. -/
noncomputable def overlapSqGrad (w : Grid Nx Ny ℝ) (e : Grid Nx Ny ℂ) : Grid Nx Ny ℂ := fun i j => 2 * (starRingEnd ℂ) (e i j * w i j) * w i j

/-- `J(e, e_nl)` of `2_port.ipynb` (cell 10). -/
noncomputable def twoPortJ (J_out : Grid Nx Ny ℝ) : ObjFn Nx Ny where
  arity := 2
  eval := fun x => 1 * overlap J_out (x 0) + -1 * overlap J_out (x 1)
  partials := fun k x i j => if k = 0 then overlapGrad J_out (x 0) i j else -overlapGrad J_out (x 1) i j

/-- `J(e, e_nl)` of `3_port.ipynb` (cell 10). -/
noncomputable def threePortJ (J_top J_bot : Grid Nx Ny ℝ) : ObjFn Nx Ny where
  arity := 2
  eval := fun x => ((1 * overlap J_top (x 0) - 1 * overlap J_top (x 1)) + (1 * overlap J_bot (x 1) - 1 * overlap J_bot (x 0))) / 2
  partials := fun k x i j => if k = 0 then (overlapGrad J_top (x 0) i j - overlapGrad J_bot (x 0) i j) / 2 else (overlapGrad J_bot (x 1) i j - overlapGrad J_top (x 1) i j) / 2

/-- `J(e, e_nl)` of `T_port.ipynb` (cell 11). -/
noncomputable def tPortJ (J_right J_top : Grid Nx Ny ℝ) : ObjFn Nx Ny where
  arity := 2
  eval := fun x => (1 * overlap J_right (x 0) + -1 * overlap J_top (x 0) + -1 * overlap J_right (x 1) + 1 * overlap J_top (x 1)) / 2
  partials := fun k x i j => if k = 0 then (overlapGrad J_right (x 0) i j - overlapGrad J_top (x 0) i j) / 2 else (overlapGrad J_top (x 1) i j - overlapGrad J_right (x 1) i j) / 2

/-- `J(ez)` of `Splitter.ipynb` (cell 17). -/
noncomputable def splitterJ (J_top J_bot : Grid Nx Ny ℝ) : ObjFn Nx Ny where
  arity := 1
  eval := fun x => 1 * overlapSq J_top (x 0) * (1 * overlapSq J_bot (x 0)) * 4
  partials := fun _ x i j => 4 * ((overlapSq J_bot (x 0) : ℂ) * overlapSqGrad J_top (x 0) i j + (overlapSq J_top (x 0) : ℂ) * overlapSqGrad J_bot (x 0) i j)

/-- `J(ez)` of `Splitter_4.ipynb` (cell 17): the loop `objfn *= N * transmit_i` over the list of ports. -/
noncomputable def splitterNJ (J_list : List (Grid Nx Ny ℝ)) : ObjFn Nx Ny where
  arity := 1
  eval := fun x => J_list.foldl (fun objfn w => objfn * (J_list.length * overlapSq w (x 0))) 1
  partials := fun _ x i j => ∑ k : Fin J_list.length, ((∏ l ∈ Finset.univ.erase k, (J_list.length * overlapSq (J_list.get l) (x 0)) : ℝ) : ℂ) * (J_list.length * overlapSqGrad (J_list.get k) (x 0) i j)

end Angler
