import Verif.Lemmas.Sim
import Verif.Model.NonlinearSolvers
import Mathlib.Analysis.Complex.Norm
import Mathlib.Tactic.LinearCombination

/-! # The Kerr term in closed form -/

namespace Angler

open Matrix

variable {Nx Ny : ℕ}

/-- The coefficient of `|E|²` contributed by one Kerr nonlinearity: `3 χ region`, times the density `(ε-1)/(ε_max-1)` if scaled. -/
noncomputable def Spec.kerrCoef (n : Nonlinearity Nx Ny) (eps : Grid Nx Ny ℂ) (i : Fin Nx) (j : Fin Ny) : ℂ :=
  3 * (n.chi : ℂ) * (n.nl_region i j : ℂ) * (match n.scale with | some m => (eps i j - 1) / (((m : ℝ) : ℂ) - 1) | none => 1)

/-- The sum of the coefficients over a list of nonlinearities. -/
noncomputable def Spec.kerrSum (l : List (Nonlinearity Nx Ny)) (eps : Grid Nx Ny ℂ) (i : Fin Nx) (j : Fin Ny) : ℂ :=
  (l.map fun n => Spec.kerrCoef n eps i j).sum

theorem foldl_grid {α : Type*} (f : α → Grid Nx Ny ℂ) (l : List α) (g : Grid Nx Ny ℂ) (i : Fin Nx) (j : Fin Ny) :
    l.foldl (fun (g : Grid Nx Ny ℂ) n => fun i j => g i j + f n i j) g i j = g i j + (l.map fun n => f n i j).sum := by
  induction l generalizing g with
  | nil => simp
  | cons a l ih => rw [List.foldl_cons, ih, List.map_cons, List.sum_cons]; ring

theorem Nonlinearity.eps_nl_eq (n : Nonlinearity Nx Ny) (e eps : Grid Nx Ny ℂ) (i : Fin Nx) (j : Fin Ny) :
    n.eps_nl e eps i j = Spec.kerrCoef n eps i j * ((‖e i j‖ ^ 2 : ℝ) : ℂ) := by
  unfold Nonlinearity.eps_nl Spec.kerrCoef
  cases n.scale <;> simp only <;> ring

theorem Nonlinearity.dnl_de_eq (n : Nonlinearity Nx Ny) (e eps : Grid Nx Ny ℂ) (i : Fin Nx) (j : Fin Ny) :
    n.dnl_de e eps i j = Spec.kerrCoef n eps i j * (starRingEnd ℂ) (e i j) := by
  unfold Nonlinearity.dnl_de Spec.kerrCoef
  cases n.scale <;> simp only <;> ring

theorem compute_nl_eps_nl (s : Sim Nx Ny) (e : Grid Nx Ny ℂ) (i : Fin Nx) (j : Fin Ny) :
    (s.compute_nl e).eps_nl i j = Spec.kerrSum s.nonlinearity s.eps_r i j * ((‖e i j‖ ^ 2 : ℝ) : ℂ) := by
  simp only [Sim.compute_nl]
  rw [foldl_grid (fun (n : Nonlinearity Nx Ny) => n.eps_nl e s.eps_r), zero_add]
  unfold Spec.kerrSum
  rw [← List.sum_map_mul_right]
  simp only [Nonlinearity.eps_nl_eq]

theorem compute_nl_dnl_de (s : Sim Nx Ny) (e : Grid Nx Ny ℂ) (i : Fin Nx) (j : Fin Ny) :
    (s.compute_nl e).dnl_de i j = Spec.kerrSum s.nonlinearity s.eps_r i j * (starRingEnd ℂ) (e i j) := by
  simp only [Sim.compute_nl]
  rw [foldl_grid (fun (n : Nonlinearity Nx Ny) => n.dnl_de e s.eps_r), zero_add]
  unfold Spec.kerrSum
  rw [← List.sum_map_mul_right]
  simp only [Nonlinearity.dnl_de_eq]

theorem compute_nl_dnl_deps (s : Sim Nx Ny) (e : Grid Nx Ny ℂ) (i : Fin Nx) (j : Fin Ny) :
    (s.compute_nl e).dnl_deps i j = (s.nonlinearity.map fun n => n.dnl_deps e s.eps_r i j).sum := by
  simp only [Sim.compute_nl]
  rw [foldl_grid (fun (n : Nonlinearity Nx Ny) => n.dnl_deps e s.eps_r), zero_add]

/-- The matrix left in `simulation.Anl`. -/
noncomputable def kerrMat (s : Sim Nx Ny) (e : Grid Nx Ny ℂ) : Mat (Nx * Ny) ℂ :=
  spdiag (flatten fun i j => ((s.omega ^ 2 * EPSILON_0 * s.L0 : ℝ) : ℂ) * (Spec.kerrSum s.nonlinearity s.eps_r i j * ((‖e i j‖ ^ 2 : ℝ) : ℂ)))

theorem compute_nl_Anl (s : Sim Nx Ny) (e : Grid Nx Ny ℂ) : (s.compute_nl e).Anl = some (kerrMat s e) := by
  have h : (s.compute_nl e).Anl = some (spdiag fun k => ((s.omega ^ 2 * EPSILON_0 * s.L0 : ℝ) : ℂ) * flatten (s.compute_nl e).eps_nl k) := rfl
  rw [h]
  unfold kerrMat
  congr 2
  refine flat_ext fun i j => ?_
  simp only [flatten_pair, compute_nl_eps_nl]

theorem kerrMat_mulVec (s : Sim Nx Ny) (e f : Grid Nx Ny ℂ) :
    kerrMat s e *ᵥ flatten f = flatten fun i j =>
      ((s.omega ^ 2 * EPSILON_0 * s.L0 : ℝ) : ℂ) * (Spec.kerrSum s.nonlinearity s.eps_r i j * ((‖e i j‖ ^ 2 : ℝ) : ℂ)) * f i j := by
  unfold kerrMat
  rw [spdiag_mulVec]
  exact flat_ext fun i j => by simp only [flatten_pair]

/-- For Ez, adding `Anl` to `A` is building the matrix for the total permittivity `ε + ε_nl(E)`. -/
theorem A_add_kerrMat (s : Sim Nx Ny) (hv : s.Valid) (hp : s.pol = .Ez) (e : Grid Nx Ny ℂ) :
    s.A + kerrMat s e = (construct_A s.omega s.xrange s.yrange
      (fun i j => s.eps_r i j + Spec.kerrSum s.nonlinearity s.eps_r i j * ((‖e i j‖ ^ 2 : ℝ) : ℂ)) s.NPML .Ez s.L0).1 := by
  rw [hv.A_eq, hp]
  simp only [construct_A, kerrMat, spdiag, add_assoc]
  congr 2
  rw [← Matrix.diagonal_smul, Matrix.diagonal_add, ← Matrix.diagonal_smul]
  congr 1
  refine flat_ext fun i j => ?_
  simp only [Pi.smul_apply, flatten_pair, smul_eq_mul]
  push_cast
  ring

end Angler
