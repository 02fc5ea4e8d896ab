import Verif.Props.Mode
import Verif.Props.Workflow
import Mathlib.Tactic.FieldSimp

/-! # The mode operator as a difference equation on a ring -/

namespace Angler

open Matrix

variable {Nx Ny : ℕ}

/-- Dropping the trivial second axis of a `createDws` matrix. -/
noncomputable def ringMat {N : ℕ} (M : Mat (N * 1) ℂ) : Mat N ℂ := fun a b => M (Fin.cast (Nat.mul_one _).symm a) (Fin.cast (Nat.mul_one _).symm b)

theorem ring_mulVec {N : ℕ} (M : Mat (N * 1) ℂ) (v : Fin N → ℂ) (i : Fin N) :
    (ringMat M *ᵥ v) i = (M *ᵥ flatten (fun a (_ : Fin 1) => v a)) (finProdFinEquiv (i, 0)) := by
  have hc : ∀ a : Fin N, (Fin.cast (Nat.mul_one N).symm a : Fin (N * 1)) = finProdFinEquiv (a, (0 : Fin 1)) := by
    intro a
    apply Fin.ext
    simp [finProdFinEquiv]
  rw [mulVec_eq_sum', mulVec_eq_sum', sum_flat]
  refine Finset.sum_congr rfl fun a _ => ?_
  rw [Fin.sum_univ_one, flatten_pair, ← hc i, ← hc a]
  rfl

theorem ring_bwd {N : ℕ} (h : 1 < N) (dl dy : ℝ) (v : Fin N → ℂ) : ringMat (createDws .x .b dl dy N 1) *ᵥ v = fun i => (v i - v (Spec.prev i)) / (dl : ℂ) := by
  funext i
  rw [ring_mulVec, createDws_xb dl dy h, flatten_pair]
  rfl

theorem ring_fwd {N : ℕ} (h : 1 < N) (dl dy : ℝ) (v : Fin N → ℂ) : ringMat (createDws .x .f dl dy N 1) *ᵥ v = fun i => (v (Spec.next i) - v i) / (dl : ℂ) := by
  funext i
  rw [ring_mulVec, createDws_xf dl dy h, flatten_pair]
  rfl

/-- The mode operator for `Ez`: the second difference around the ring of cells of the slice, plus `omega^2 mu eps`. -/
theorem modeOperator_Ez {m n : ℕ} (h : 1 < m * n) (omega L0 dl : ℝ) (hd : dl ≠ 0) (eps : Grid m n ℂ) (v : Fin (m * n) → ℂ) (k : Fin (m * n)) :
    (modeOperator .Ez omega L0 dl eps *ᵥ v) k = (v (Spec.next k) - 2 * v k + v (Spec.prev k)) / (dl : ℂ) ^ 2 +
      (omega : ℂ) ^ 2 * ((MU_0 * L0 : ℝ) : ℂ) * (((EPSILON_0 * L0 : ℝ) : ℂ) * flatten eps k) * v k := by
  have hd' : (dl : ℂ) ≠ 0 := by exact_mod_cast hd
  have e : modeOperator .Ez omega L0 dl eps = ((omega : ℂ) ^ 2 * ((MU_0 * L0 : ℝ) : ℂ)) • (spdiag fun k => ((EPSILON_0 * L0 : ℝ) : ℂ) * flatten eps k : Mat (m * n) ℂ) +
    ringMat (createDws .x .f dl 1 (m * n) 1) *
    ringMat (createDws .x .b dl 1 (m * n) 1) := rfl
  rw [e, Matrix.add_mulVec, Matrix.smul_mulVec, ← Matrix.mulVec_mulVec, ring_bwd h, ring_fwd h, spdiag_mulVec]
  simp only [Pi.add_apply, Pi.smul_apply, smul_eq_mul, prev_next]
  field_simp
  ring

/-- The mode operator for `Hz`. -/
theorem modeOperator_Hz {m n : ℕ} (h : 1 < m * n) (omega L0 dl : ℝ) (hd : dl ≠ 0) (eps : Grid m n ℂ) (v : Fin (m * n) → ℂ) (k : Fin (m * n)) :
    (modeOperator .Hz omega L0 dl eps *ᵥ v) k = ((EPSILON_0 * L0 : ℝ) : ℂ) * flatten eps k *
      (((((EPSILON_0 * L0 : ℝ) : ℂ) * flatten (grid_average eps .x) (Spec.next k))⁻¹ * (v (Spec.next k) - v k) -
        (((EPSILON_0 * L0 : ℝ) : ℂ) * flatten (grid_average eps .x) k)⁻¹ * (v k - v (Spec.prev k))) / (dl : ℂ) ^ 2 +
      (omega : ℂ) ^ 2 * ((MU_0 * L0 : ℝ) : ℂ) * v k) := by
  have hd' : (dl : ℂ) ≠ 0 := by exact_mod_cast hd
  have e : modeOperator .Hz omega L0 dl eps = ((omega : ℂ) ^ 2 * ((MU_0 * L0 : ℝ) : ℂ)) • (spdiag fun k => ((EPSILON_0 * L0 : ℝ) : ℂ) * flatten eps k : Mat (m * n) ℂ) +
    (spdiag fun k => ((EPSILON_0 * L0 : ℝ) : ℂ) * flatten eps k : Mat (m * n) ℂ) *
    ringMat (createDws .x .f dl 1 (m * n) 1) *
    (spdiag fun k => (((EPSILON_0 * L0 : ℝ) : ℂ) * flatten (grid_average eps .x) k)⁻¹ : Mat (m * n) ℂ) *
    ringMat (createDws .x .b dl 1 (m * n) 1) := rfl
  rw [e, Matrix.add_mulVec, Matrix.smul_mulVec, ← Matrix.mulVec_mulVec, ← Matrix.mulVec_mulVec, ← Matrix.mulVec_mulVec, ring_bwd h, spdiag_mulVec, spdiag_mulVec, ring_fwd h, spdiag_mulVec]
  simp only [Pi.add_apply, Pi.smul_apply, smul_eq_mul, prev_next]
  generalize (((EPSILON_0 * L0 : ℝ) : ℂ) * flatten (grid_average eps .x) (Spec.next k))⁻¹ = p
  generalize (((EPSILON_0 * L0 : ℝ) : ℂ) * flatten (grid_average eps .x) k)⁻¹ = q
  field_simp
  ring

end Angler
