import Verif.Lemmas.Pml
import Verif.Lemmas.Grid
import Mathlib.Analysis.Complex.Basic
import Mathlib.Order.Interval.Finset.Fin

/-! # C10, C11: PML stretch factors -/

namespace Angler

open Matrix

/-- C10: the stretch factors are `1 - i·t` with `t ≥ 0`, hence non-zero with inverse of modulus ≤ 1; no layer means all ones; and
all cells at (0-based) distance more than `Nw_pml` from both ends are unstretched. -/
theorem C10_pml_factors (wrange : ℝ × ℝ) (hw : wrange.1 < wrange.2) (L0 omega : ℝ) (hL : 0 < L0) (ho : 0 < omega) (s : Dir)
    (Nw Nw_pml : ℕ) (i : Fin Nw) :
    (create_sfactor wrange L0 s omega Nw Nw_pml i).re = 1 ∧ (create_sfactor wrange L0 s omega Nw Nw_pml i).im ≤ 0 ∧
    create_sfactor wrange L0 s omega Nw Nw_pml i ≠ 0 ∧ ‖1 / create_sfactor wrange L0 s omega Nw Nw_pml i‖ ≤ 1 ∧
    (Nw_pml < 1 → create_sfactor wrange L0 s omega Nw Nw_pml i = 1) ∧
    (Nw_pml < (i : ℕ) → Nw_pml < Nw - 1 - (i : ℕ) → create_sfactor wrange L0 s omega Nw Nw_pml i = 1) := by
  have key : (create_sfactor wrange L0 s omega Nw Nw_pml i).re = 1 ∧ (create_sfactor wrange L0 s omega Nw Nw_pml i).im ≤ 0 := by
    rcases create_sfactor_cases hw L0 s omega Nw Nw_pml i with h | ⟨l, dw, hdw, h⟩
    · rw [h]; simp
    · rw [h, Sfac_eq]
      refine ⟨rfl, ?_⟩
      have h0 : 0 < omega * EPSILON_0 * L0 := mul_pos (mul_pos ho EPSILON_0_pos) hL
      have := div_nonneg (sig_w_nonneg (l := l) hdw) h0.le
      simpa using this
  refine ⟨key.1, key.2, ?_, ?_, ?_, ?_⟩
  · intro h; have := key.1; rw [h] at this; simp at this
  · rw [norm_div, norm_one]
    have h1 : 1 ≤ ‖create_sfactor wrange L0 s omega Nw Nw_pml i‖ := by
      calc (1 : ℝ) = |(create_sfactor wrange L0 s omega Nw Nw_pml i).re| := by rw [key.1]; simp
        _ ≤ _ := Complex.abs_re_le_norm _
    rw [div_le_one (by linarith)]
    exact h1
  · intro h; simp [create_sfactor, h]
  · intro h1 h2
    have := i.2
    unfold create_sfactor
    split_ifs
    · rfl
    · cases s <;> simp only <;> rw [if_neg (by omega), if_neg (by omega)]

/-- C10 for the matrices: every diagonal entry of the four `S` matrices is a non-zero number of modulus at most 1. -/
theorem C10_S_matrices (omega L0 : ℝ) (hL : 0 < L0) (ho : 0 < omega) (Nx Ny : ℕ) (NPML : ℕ × ℕ) (xr yr : ℝ × ℝ)
    (hx : xr.1 < xr.2) (hy : yr.1 < yr.2) (k : Fin (Nx * Ny)) :
    let S := S_create omega L0 Nx Ny NPML xr yr
    (S.xf k k ≠ 0 ∧ ‖S.xf k k‖ ≤ 1) ∧ (S.xb k k ≠ 0 ∧ ‖S.xb k k‖ ≤ 1) ∧
    (S.yf k k ≠ 0 ∧ ‖S.yf k k‖ ≤ 1) ∧ (S.yb k k ≠ 0 ∧ ‖S.yb k k‖ ≤ 1) := by
  intro S
  have cx := fun s => C10_pml_factors xr hx L0 omega hL ho s Nx NPML.1 k.divNat
  have cy := fun s => C10_pml_factors yr hy L0 omega hL ho s Ny NPML.2 k.modNat
  simp only [S, S_create, spdiag, Matrix.diagonal_apply_eq, flatten]
  exact ⟨⟨one_div_ne_zero (cx .f).2.2.1, (cx .f).2.2.2.1⟩, ⟨one_div_ne_zero (cx .b).2.2.1, (cx .b).2.2.2.1⟩,
    ⟨one_div_ne_zero (cy .f).2.2.1, (cy .f).2.2.2.1⟩, ⟨one_div_ne_zero (cy .b).2.2.1, (cy .b).2.2.2.1⟩⟩

/-- Non-vacuity: on 10 cells with a layer of 2, cell 5 is unstretched and cell 0 is stretched. -/
example : create_sfactor (0, 1) 1 .f 1 10 2 5 = 1 ∧ create_sfactor (0, 1) 1 .f 1 10 2 0 ≠ 1 := by
  refine ⟨(C10_pml_factors (0, 1) (by norm_num) 1 1 one_pos one_pos .f 10 2 5).2.2.2.2.2 (by norm_num) (by norm_num), ?_⟩
  simp only [create_sfactor]
  norm_num
  rw [Sfac_eq_one_iff (by norm_num) one_pos one_pos]
  norm_num

/-! ## C11 -/

/-- Which cells absorb, exactly (0-based index `i`): for `'f'`, the first `Nw_pml + 1` and the last `Nw_pml - 1` cells;
for `'b'`, the first `Nw_pml + 1` and the last `Nw_pml - 2` cells. -/
theorem C11_absorbing_cells_partial (wrange : ℝ × ℝ) (hw : wrange.1 < wrange.2) (L0 omega : ℝ) (hL : 0 < L0) (ho : 0 < omega)
    (N P : ℕ) (hP : 1 ≤ P) (_h2 : 2 * P < N) (i : Fin N) :
    (create_sfactor wrange L0 .f omega N P i ≠ 1 ↔ (i : ℕ) ≤ P ∨ N - P + 1 ≤ (i : ℕ)) ∧
    (create_sfactor wrange L0 .b omega N P i ≠ 1 ↔ (i : ℕ) ≤ P ∨ N - P + 2 ≤ (i : ℕ)) := by
  have hN : (0 : ℝ) < N := by exact_mod_cast (Nat.lt_of_le_of_lt (Nat.zero_le _) i.2)
  have hp : (0 : ℝ) < P := by exact_mod_cast hP
  have hh : (0 : ℝ) < (wrange.2 - wrange.1) / N := div_pos (by linarith) hN
  have hdw : (0 : ℝ) < P * ((wrange.2 - wrange.1) / N) := mul_pos hp hh
  have hNP : ((N : ℝ) - P) = ((N - P : ℕ) : ℝ) := by rw [Nat.cast_sub (by omega)]
  have hP1 : ¬ P < 1 := by omega
  constructor
  · simp only [create_sfactor, if_neg hP1]
    by_cases h1 : (((i : ℕ) : ℤ) ≤ (P : ℤ))
    · have h1' : (i : ℕ) ≤ P := by omega
      have h1r : ((i : ℕ) : ℝ) ≤ P := by exact_mod_cast h1'
      rw [if_pos h1]
      rw [ne_eq, Sfac_eq_one_iff hdw ho hL, mul_eq_zero, or_iff_right hh.ne']
      constructor
      · intro _; exact Or.inl h1'
      · intro _ hc; norm_num at hc; linarith
    · by_cases h3 : (((i : ℕ) : ℤ) > (N : ℤ) - (P : ℤ))
      · have h3' : N - P + 1 ≤ (i : ℕ) := by omega
        have h3r : (((N - P : ℕ) : ℝ) + 1) ≤ (i : ℕ) := by exact_mod_cast h3'
        rw [if_neg h1, if_pos h3, ne_eq, Sfac_eq_one_iff hdw ho hL, mul_eq_zero, or_iff_right hh.ne', hNP]
        constructor
        · intro _; exact Or.inr h3'
        · intro _ hc; norm_num at hc; linarith
      · rw [if_neg h1, if_neg h3]
        constructor
        · intro h; exact absurd rfl h
        · intro h; omega
  · simp only [create_sfactor, if_neg hP1]
    by_cases h1 : (((i : ℕ) : ℤ) ≤ (P : ℤ))
    · have h1' : (i : ℕ) ≤ P := by omega
      have h1r : ((i : ℕ) : ℝ) ≤ P := by exact_mod_cast h1'
      rw [if_pos h1]
      rw [ne_eq, Sfac_eq_one_iff hdw ho hL, mul_eq_zero, or_iff_right hh.ne']
      constructor
      · intro _; exact Or.inl h1'
      · intro _ hc; linarith
    · by_cases h3 : (((i : ℕ) : ℤ) > (N : ℤ) - (P : ℤ))
      · have h3' : N - P + 1 ≤ (i : ℕ) := by omega
        rw [if_neg h1, if_pos h3, ne_eq, Sfac_eq_one_iff hdw ho hL, mul_eq_zero, or_iff_right hh.ne', hNP]
        have e : ((i : ℕ) : ℝ) - ((N - P : ℕ) : ℝ) - 1 = 0 ↔ (i : ℕ) = N - P + 1 := by
          rw [← @Nat.cast_inj ℝ]; push_cast; constructor <;> intro h <;> linarith
        rw [e]
        omega
      · rw [if_neg h1, if_neg h3]
        constructor
        · intro h; exact absurd rfl h
        · intro h; omega

/-- C11 is false: for every grid and layer the profile is not the mirror image of itself (cell `P-1` on the left absorbs, its mirror image
`N-P` on the right does not), the left layer of the forward grid has `P+1` cells and the right one only `P-1`. -/
theorem C11_layers_differ (wrange : ℝ × ℝ) (hw : wrange.1 < wrange.2) (L0 omega : ℝ) (hL : 0 < L0) (ho : 0 < omega)
    (N P : ℕ) (hP : 1 ≤ P) (h2 : 2 * P < N) (s : Dir) :
    (∃ i : Fin N, create_sfactor wrange L0 s omega N P i ≠ 1 ∧ create_sfactor wrange L0 s omega N P i.rev = 1) ∧
    Fintype.card {i : Fin N // create_sfactor wrange L0 .f omega N P i ≠ 1 ∧ (i : ℕ) ≤ P} = P + 1 ∧
    Fintype.card {i : Fin N // create_sfactor wrange L0 .f omega N P i ≠ 1 ∧ P < (i : ℕ)} = P - 1 := by
  have ch := C11_absorbing_cells_partial wrange hw L0 omega hL ho N P hP h2
  refine ⟨⟨⟨P - 1, by omega⟩, ?_, ?_⟩, ?_, ?_⟩
  · cases s
    · exact (ch _).1.2 (Or.inl (by simp))
    · exact (ch _).2.2 (Or.inl (by simp))
  · by_contra h
    cases s
    · have := (ch _).1.1 h
      simp only [Fin.val_rev] at this
      omega
    · have := (ch _).2.1 h
      simp only [Fin.val_rev] at this
      omega
  · have e : ∀ i : Fin N, (create_sfactor wrange L0 .f omega N P i ≠ 1 ∧ (i : ℕ) ≤ P) ↔ i ∈ Finset.Iic (⟨P, by omega⟩ : Fin N) := by
      intro i
      rw [(ch i).1, Finset.mem_Iic, Fin.le_def]
      simp only
      omega
    rw [Fintype.card_congr (Equiv.subtypeEquivRight e), Fintype.card_coe, Fin.card_Iic]
  · by_cases hP1 : P = 1
    · have e : ∀ i : Fin N, (create_sfactor wrange L0 .f omega N P i ≠ 1 ∧ P < (i : ℕ)) ↔ i ∈ (∅ : Finset (Fin N)) := by
        intro i
        have := i.2
        rw [(ch i).1]
        simp only [Finset.notMem_empty, iff_false]
        omega
      rw [Fintype.card_congr (Equiv.subtypeEquivRight e)]
      simp [hP1]
    · have e : ∀ i : Fin N, (create_sfactor wrange L0 .f omega N P i ≠ 1 ∧ P < (i : ℕ)) ↔ i ∈ Finset.Ici (⟨N - P + 1, by omega⟩ : Fin N) := by
        intro i
        rw [(ch i).1, Finset.mem_Ici, Fin.le_def]
        simp only
        omega
      rw [Fintype.card_congr (Equiv.subtypeEquivRight e), Fintype.card_coe, Fin.card_Ici]
      simp only
      omega

/-- Non-vacuity: `N = 10`, `P = 2` satisfies the hypotheses; left layer 3 cells, right layer 1 cell. -/
example : Fintype.card {i : Fin 10 // create_sfactor (0, 1) 1 .f 1 10 2 i ≠ 1 ∧ (i : ℕ) ≤ 2} = 3 ∧
    Fintype.card {i : Fin 10 // create_sfactor (0, 1) 1 .f 1 10 2 i ≠ 1 ∧ 2 < (i : ℕ)} = 1 :=
  (C11_layers_differ (0, 1) (by norm_num) 1 1 one_pos one_pos 10 2 (by norm_num) (by norm_num) .f).2

end Angler
