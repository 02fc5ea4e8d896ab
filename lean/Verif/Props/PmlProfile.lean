import Verif.Lemmas.Pml
import Mathlib.Analysis.SpecialFunctions.Integrals.Basic

/-! # C63: strength of the absorbing layer -/

namespace Angler

open intervalIntegral

/-! ## Specification -/

/-- Vacuum wavenumber per unit length, lengths being measured in units of `L0`. -/
noncomputable def Spec.wavenumber (omega L0 : ℝ) : ℝ := omega * Real.sqrt (MU_0 * EPSILON_0) * L0

/-- Amplitude left of a normally incident plane wave after crossing a layer of thickness `d` with stretch factor `s(l)` at depth `l`, being reflected at its end and crossing it again:
the wave varies as `exp(-i k ∫ s)`. -/
noncomputable def Spec.roundTrip (k d : ℝ) (s : ℝ → ℂ) : ℝ := Real.exp (2 * ∫ l in (0 : ℝ)..d, k * (s l).im)

/-! ## C63 -/

theorem Sfac_im (l dw omega L0 : ℝ) : (Sfac l dw omega L0).im = -(sig_w l dw / (omega * EPSILON_0 * L0)) := by
  rw [Sfac_eq]

theorem wave_eta (omega L0 : ℝ) (ho : 0 < omega) (hL : 0 < L0) : Spec.wavenumber omega L0 / (omega * EPSILON_0 * L0) = ETA_0 := by
  have hE := EPSILON_0_pos
  have hM := MU_0_pos
  have h1 : Real.sqrt (MU_0 * EPSILON_0) = ETA_0 * EPSILON_0 := by
    rw [show MU_0 * EPSILON_0 = (MU_0 / EPSILON_0) * (EPSILON_0 ^ 2) by field_simp, Real.sqrt_mul (div_pos hM hE).le, Real.sqrt_sq hE.le]
    rfl
  rw [Spec.wavenumber, h1]
  field_simp

/-- **C63.** For every layer thickness `dw`, frequency and length unit, the stretch profile attenuates a normally incident vacuum wave by exactly `exp(-12)` (the `lnR = -12` of the
code) over the round trip through the layer. -/
theorem C63_round_trip (dw omega L0 : ℝ) (hd : 0 < dw) (ho : 0 < omega) (hL : 0 < L0) :
    Spec.roundTrip (Spec.wavenumber omega L0) dw (fun l => Sfac l dw omega L0) = Real.exp (-12) := by
  unfold Spec.roundTrip
  congr 1
  have hE := ETA_0_pos
  have h1 : ∀ l, Spec.wavenumber omega L0 * (Sfac l dw omega L0).im = -(30 / dw ^ 5) * l ^ 4 := by
    intro l
    rw [Sfac_im, mul_neg, mul_div_assoc', mul_comm, mul_div_assoc, wave_eta omega L0 ho hL, sig_w]
    field_simp
    ring
  simp only [h1, integral_const_mul, integral_pow]
  field_simp
  ring

/-- Depth of cell `i` in an absorbing layer of `P` cells of `N`, in cells, as the code samples it: positive inside a layer, `off` is 1/2 for forward and 1 for backward differences. -/
noncomputable def Spec.sampleDepth (N P i : ℕ) (off : ℝ) : ℝ := if i ≤ P then P - i + off else i - (N - P) - off

/-- **C63, samples.** The factors in the layers are samples of the profile: cell `i ≤ P` of the left layer at depth `(P - i + ½) h` (forward) or `(P - i + 1) h` (backward), cell
`i > N - P` of the right layer at depth `(i - (N - P) - ½) h` or `(i - (N - P) - 1) h`; elsewhere the factor is 1. -/
theorem C63_samples (wrange : ℝ × ℝ) (L0 omega : ℝ) (N P : ℕ) (hP : 1 ≤ P) (i : Fin N) :
    let h := (wrange.2 - wrange.1) / N
    ((i : ℕ) ≤ P ∨ N < (i : ℕ) + P →
      create_sfactor wrange L0 .f omega N P i = Sfac (h * Spec.sampleDepth N P i (1 / 2)) (P * h) omega L0 ∧
      create_sfactor wrange L0 .b omega N P i = Sfac (h * Spec.sampleDepth N P i 1) (P * h) omega L0) ∧
    (¬((i : ℕ) ≤ P ∨ N < (i : ℕ) + P) → create_sfactor wrange L0 .f omega N P i = 1 ∧ create_sfactor wrange L0 .b omega N P i = 1) := by
  intro h
  have hP1 : ¬ P < 1 := by omega
  have hhalf : (1 / 2 : ℝ) = 0.5 := by norm_num
  constructor
  · intro hi
    by_cases h1 : (i : ℕ) ≤ P
    · simp only [create_sfactor, if_neg hP1, if_pos (show ((i : ℕ) : ℤ) ≤ P by omega), Spec.sampleDepth, if_pos h1, hhalf]
      exact ⟨rfl, rfl⟩
    · simp only [create_sfactor, if_neg hP1, if_neg (show ¬ ((i : ℕ) : ℤ) ≤ P by omega), if_pos (show ((i : ℕ) : ℤ) > (N : ℤ) - P by omega), Spec.sampleDepth, if_neg h1, hhalf]
      exact ⟨rfl, rfl⟩
  · intro hi
    rw [not_or] at hi
    simp only [create_sfactor, if_neg hP1, if_neg (show ¬ ((i : ℕ) : ℤ) ≤ P by omega), if_neg (show ¬ ((i : ℕ) : ℤ) > (N : ℤ) - P by omega)]
    exact ⟨trivial, trivial⟩

/-- A concrete value: on 10 cells with a layer of 2, cell 9 is sampled half a cell from the inner edge of the last cell. -/
example : Spec.sampleDepth 10 2 9 (1 / 2) = 1 / 2 ∧ Spec.sampleDepth 10 2 0 (1 / 2) = 5 / 2 := by
  unfold Spec.sampleDepth
  norm_num

/-- Non-vacuity of C63: a layer of ten cells. -/
example := C63_round_trip 10 1 1 (by norm_num) one_pos one_pos

end Angler
