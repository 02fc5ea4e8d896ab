import Verif.Model.Pml
import Mathlib.Analysis.Complex.Norm
import Mathlib.Tactic.Positivity
import Mathlib.Tactic.Linarith

/-! # Facts about the PML stretch factors -/

namespace Angler

theorem sig_w_nonneg {l dw : ℝ} (h : 0 < dw) : 0 ≤ sig_w l dw := by
  have := ETA_0_pos
  unfold sig_w
  have h1 : (-(4 + 1) * (-12) : ℝ) = 60 := by norm_num
  simp only [h1]
  positivity

theorem sig_w_eq_zero_iff {l dw : ℝ} (h : 0 < dw) : sig_w l dw = 0 ↔ l = 0 := by
  have := ETA_0_pos
  unfold sig_w
  have h1 : (-(4 + 1) * (-12) : ℝ) = 60 := by norm_num
  simp only [h1]
  have h2 : (60 / (2 * ETA_0 * dw) : ℝ) ≠ 0 := by positivity
  rw [mul_eq_zero, or_iff_right h2, pow_eq_zero_iff (by norm_num), div_eq_zero_iff, or_iff_left h.ne']

theorem Sfac_eq (l dw omega L0 : ℝ) :
    Sfac l dw omega L0 = ⟨1, -(sig_w l dw / (omega * EPSILON_0 * L0))⟩ := by
  rw [Sfac, mul_div_assoc, ← Complex.ofReal_div]
  generalize sig_w l dw / (omega * EPSILON_0 * L0) = t
  apply Complex.ext <;> simp

theorem Sfac_eq_one_iff {l dw omega L0 : ℝ} (h : 0 < dw) (ho : 0 < omega) (hL : 0 < L0) : Sfac l dw omega L0 = 1 ↔ l = 0 := by
  have h0 : 0 < omega * EPSILON_0 * L0 := mul_pos (mul_pos ho EPSILON_0_pos) hL
  rw [Sfac_eq, Complex.ext_iff]
  simp only [Complex.one_re, Complex.one_im, true_and, neg_eq_zero, div_eq_zero_iff, or_iff_left h0.ne']
  exact sig_w_eq_zero_iff h

/-- Each stretch factor is 1 or of the form `Sfac l dw` with the layer width `dw > 0`. -/
theorem create_sfactor_cases {wrange : ℝ × ℝ} (hw : wrange.1 < wrange.2) (L0 : ℝ) (s : Dir) (omega : ℝ) (Nw Nw_pml : ℕ) (i : Fin Nw) :
    create_sfactor wrange L0 s omega Nw Nw_pml i = 1 ∨
    ∃ l dw, 0 < dw ∧ create_sfactor wrange L0 s omega Nw Nw_pml i = Sfac l dw omega L0 := by
  by_cases h : Nw_pml < 1
  · left; simp [create_sfactor, h]
  · have hN : (0 : ℝ) < Nw := by exact_mod_cast (Nat.lt_of_le_of_lt (Nat.zero_le _) i.2)
    have hp : (0 : ℝ) < Nw_pml := by exact_mod_cast (by omega : 0 < Nw_pml)
    have hdw : (0 : ℝ) < Nw_pml * ((wrange.2 - wrange.1) / Nw) := mul_pos hp (div_pos (by linarith) hN)
    cases s <;> simp only [create_sfactor, if_neg h] <;> split_ifs <;>
      first
        | exact Or.inl rfl
        | exact Or.inr ⟨_, _, hdw, rfl⟩

end Angler
