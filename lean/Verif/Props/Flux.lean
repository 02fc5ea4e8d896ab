import Verif.Model.Flux
import Mathlib.Algebra.BigOperators.Intervals
import Mathlib.Algebra.BigOperators.Fin
import Mathlib.Analysis.Complex.Basic
import Mathlib.Tactic.Ring
import Mathlib.Tactic.NormNum

/-! # C51 (flux through a line), C52 (power is quadratic) -/

namespace Angler

open Finset

variable {Nx Ny : ℕ}

/-! ## Specification -/

/-- `x` component of the time-averaged Poynting vector `½ Re (E × H*)`. -/
noncomputable def Spec.Sx (Ey Ez Hy Hz : ℂ) : ℝ := (Ey * (starRingEnd ℂ) Hz - Ez * (starRingEnd ℂ) Hy).re / 2

/-- `y` component of the time-averaged Poynting vector `½ Re (E × H*)`. -/
noncomputable def Spec.Sy (Ex Ez Hx Hz : ℂ) : ℝ := (Ez * (starRingEnd ℂ) Hx - Ex * (starRingEnd ℂ) Hz).re / 2

/-- The integer `k` denotes position `i` of an axis of length `n` in the way Python indexing does, with `m` more positions after it. -/
def Spec.Denotes (n m : ℕ) (k : ℤ) (i : ℕ) : Prop := (k = i ∧ i + m < n) ∨ (k = (i : ℤ) - n ∧ i + m + 1 < n)

/-- The slice bounds `A`, `B` denote the positions `a ≤ j < b`, and `b` is still a position of the axis. -/
def Spec.Span (n : ℕ) (A B : ℤ) (a b : ℕ) : Prop := a ≤ b ∧ ((A = a ∧ B = b ∧ b < n) ∨ (A = (a : ℤ) - n ∧ B = (b : ℤ) - n ∧ b + 1 < n))

/-! ## Sums -/

theorem bsum_same {m n : ℕ} (f : ℂ → ℂ → ℝ) (x y : Grid m n ℂ) : bsum f x y = .ok (∑ i, ∑ j, f (x i j) (y i j)) := by
  have hd : ∀ k, bdim k k = k := fun k => by unfold bdim; split <;> rfl
  have hc : ∀ k, BCompat k k := fun k => Or.inl rfl
  have hl : ∀ {k : ℕ} (i : Fin (bdim k k)), bleft i = Fin.cast (hd k) i := by
    intro k i
    apply Fin.ext
    unfold bleft
    have h2 := (Fin.cast (hd k) i).2
    rw [Fin.val_cast] at h2
    split
    · simp only [Fin.val_cast]; omega
    · rfl
  have hr : ∀ {k : ℕ} (i : Fin (bdim k k)), bright (hc k) i = Fin.cast (hd k) i := by
    intro k i
    apply Fin.ext
    unfold bright
    have h2 := (Fin.cast (hd k) i).2
    rw [Fin.val_cast] at h2
    split
    · simp only [Fin.val_cast]; omega
    · rfl
  unfold bsum
  rw [dif_pos ⟨hc m, hc n⟩]
  congr 1
  simp only [hl, hr]
  refine Fintype.sum_equiv (finCongr (hd m)) _ _ fun i => ?_
  exact Fintype.sum_equiv (finCongr (hd n)) _ _ fun j => rfl

/-- A broadcast sum of two arrays of the same shape, written with natural-number indices. -/
theorem bsum_nat {m n p q M L : ℕ} (f : ℂ → ℂ → ℝ) (x : Grid m n ℂ) (y : Grid p q ℂ) (hm : m = M) (hn : n = L) (hp : p = M) (hq : q = L) (X Y : ℕ → ℕ → ℂ) (hx : ∀ i j, x i j = X i j)
    (hy : ∀ i j, y i j = Y i j) : bsum f x y = .ok (∑ i ∈ range M, ∑ j ∈ range L, f (X i j) (Y i j)) := by
  subst hm hn hp hq
  rw [bsum_same, sum_range]
  simp only [sum_range, hx, hy]

/-- Incompatible shapes. -/
theorem bsum_error {m n p q : ℕ} (f : ℂ → ℂ → ℝ) (x : Grid m n ℂ) (y : Grid p q ℂ) (h : ¬ (BCompat m p ∧ BCompat n q)) : bsum f x y = .error .valueError := dif_neg h

/-- One operand has no rows or no columns, and the shapes are compatible. -/
theorem bsum_empty {m n p q : ℕ} (f : ℂ → ℂ → ℝ) (x : Grid m n ℂ) (y : Grid p q ℂ) (h : BCompat m p ∧ BCompat n q) (h0 : bdim m p = 0 ∨ bdim n q = 0) : bsum f x y = .ok 0 := by
  unfold bsum
  rw [dif_pos h]
  congr 1
  rcases h0 with h0 | h0
  · have : IsEmpty (Fin (bdim m p)) := by rw [h0]; infer_instance
    exact Fintype.sum_empty _
  · have : IsEmpty (Fin (bdim n q)) := by rw [h0]; infer_instance
    exact sum_eq_zero fun i _ => Fintype.sum_empty _

/-- Values of an array with natural-number indices. -/
noncomputable def natAt (g : Grid Nx Ny ℂ) (i j : ℕ) : ℂ := if h : i < Nx ∧ j < Ny then g ⟨i, h.1⟩ ⟨j, h.2⟩ else 0

theorem natAt_fin (g : Grid Nx Ny ℂ) (i : Fin Nx) (j : Fin Ny) : natAt g i j = g i j := dif_pos ⟨i.2, j.2⟩

theorem slice2_nat (g : Grid Nx Ny ℂ) (a b c d : ℤ) (i : Fin (sliceLen Nx a b)) (j : Fin (sliceLen Ny c d)) : slice2 g a b c d i j = natAt g (sliceIdx Nx a + i) (sliceIdx Ny c + j) :=
  (natAt_fin g (sliceAt i) (sliceAt j)).symm

theorem sum_filter_nat (F : ℕ → ℝ) (G : Fin Ny → ℝ) (hFG : ∀ j : Fin Ny, F j = G j) (a b : ℕ) (hb : b ≤ Ny) :
    ∑ j ∈ range (b - a), F (a + j) = ∑ j with a ≤ (j : Fin Ny).val ∧ j.val < b, G j := by
  rw [sum_filter]
  simp only [← hFG]
  rw [← sum_range (fun j => if a ≤ j ∧ j < b then F j else 0), ← sum_filter]
  rw [← Finset.sum_Ico_eq_sum_range]
  refine sum_congr ?_ fun _ _ => rfl
  ext j
  simp only [mem_Ico, mem_filter, mem_range]
  omega

theorem sliceIdx_natCast (n i : ℕ) (h : i ≤ n) : sliceIdx n (i : ℤ) = i := by
  unfold sliceIdx
  split <;> omega

theorem sliceIdx_neg (n i : ℕ) (h : i < n) : sliceIdx n ((i : ℤ) - n) = i := by
  unfold sliceIdx
  split <;> omega

/-- Where the slices of a valid line lie. -/
theorem denotes_slice {n i : ℕ} {k : ℤ} (h : Spec.Denotes n 1 k i) : sliceIdx n k = i ∧ sliceIdx n (k + 1) = i + 1 ∧ sliceIdx n (k + 1 + 1) = i + 2 := by
  rcases h with ⟨rfl, h⟩ | ⟨rfl, h⟩
  · exact ⟨sliceIdx_natCast n i (by omega), sliceIdx_natCast n (i + 1) (by omega), sliceIdx_natCast n (i + 2) (by omega)⟩
  · refine ⟨sliceIdx_neg n i (by omega), ?_, ?_⟩ <;> unfold sliceIdx <;> split <;> omega

theorem span_slice {n a b : ℕ} {A B : ℤ} (h : Spec.Span n A B a b) : sliceIdx n A = a ∧ sliceIdx n B = b ∧ sliceIdx n (B + 1) = b + 1 := by
  obtain ⟨hab, h | h⟩ := h <;> obtain ⟨rfl, rfl, h⟩ := h
  · exact ⟨sliceIdx_natCast n a (by omega), sliceIdx_natCast n b (by omega), sliceIdx_natCast n (b + 1) (by omega)⟩
  · refine ⟨sliceIdx_neg n a (by omega), sliceIdx_neg n b (by omega), ?_⟩
    unfold sliceIdx
    split <;> omega

/-! ## The line sums -/

theorem rollBack_two {n : ℕ} (h : n = 2) (i : Fin n) (h0 : i.val = 0) : (rollBack i).val = 1 := by
  subst h
  show (i.val + (2 - 1)) % 2 = 1
  rw [h0]

/-- The averaged array along `x` on a valid line: entry `(0, j)` is the mean of columns `col` and `col+1`. -/
theorem avg_x (g : Grid Nx Ny ℂ) {c A B : ℤ} {col a b : ℕ} (hc : Spec.Denotes Nx 1 c col) (hs : Spec.Span Ny A B a b) :
    sliceLen Nx c (c + 1 + 1) - 1 = 1 ∧ sliceLen Ny A (B + 1) - 1 = b - a ∧
    ∀ i j, dropLast2 (grid_average (slice2 g c (c + 1 + 1) A (B + 1)) .x) i j = (natAt g (col + 1) (a + j) + natAt g col (a + j)) / 2 := by
  obtain ⟨h1, h2, h3⟩ := denotes_slice hc
  obtain ⟨h4, h5, h6⟩ := span_slice hs
  have hab := hs.1
  have hl1 : sliceLen Nx c (c + 1 + 1) = 2 := by unfold sliceLen; rw [h1, h3]; omega
  refine ⟨by rw [hl1], by unfold sliceLen; rw [h4, h6]; omega, fun i j => ?_⟩
  have hi : i.val = 0 := by have := i.2; omega
  show (slice2 g c (c + 1 + 1) A (B + 1) (rollBack ⟨i, _⟩) ⟨j, _⟩ + slice2 g c (c + 1 + 1) A (B + 1) ⟨i, _⟩ ⟨j, _⟩) / 2 = _
  rw [slice2_nat, slice2_nat, rollBack_two hl1 _ hi, h1, h4]
  simp only [hi, add_zero]

/-- The averaged array along `y` on a valid line. -/
theorem avg_y (g : Grid Nx Ny ℂ) {c A B : ℤ} {row a b : ℕ} (hc : Spec.Denotes Ny 1 c row) (hs : Spec.Span Nx A B a b) :
    sliceLen Nx A (B + 1) - 1 = b - a ∧ sliceLen Ny c (c + 1 + 1) - 1 = 1 ∧
    ∀ i j, dropLast2 (grid_average (slice2 g A (B + 1) c (c + 1 + 1)) .y) i j = (natAt g (a + i) (row + 1) + natAt g (a + i) row) / 2 := by
  obtain ⟨h1, h2, h3⟩ := denotes_slice hc
  obtain ⟨h4, h5, h6⟩ := span_slice hs
  have hab := hs.1
  have hl1 : sliceLen Ny c (c + 1 + 1) = 2 := by unfold sliceLen; rw [h1, h3]; omega
  refine ⟨by unfold sliceLen; rw [h4, h6]; omega, by rw [hl1], fun i j => ?_⟩
  have hj : j.val = 0 := by have := j.2; omega
  show (slice2 g A (B + 1) c (c + 1 + 1) ⟨i, _⟩ (rollBack ⟨j, _⟩) + slice2 g A (B + 1) c (c + 1 + 1) ⟨i, _⟩ ⟨j, _⟩) / 2 = _
  rw [slice2_nat, slice2_nat, rollBack_two hl1 _ hj, h1, h4]
  simp only [hj, add_zero]

theorem line_x (g : Grid Nx Ny ℂ) {c A B : ℤ} {col a b : ℕ} (hc : Spec.Denotes Nx 1 c col) (hs : Spec.Span Ny A B a b) :
    sliceLen Nx c (c + 1) = 1 ∧ sliceLen Ny A B = b - a ∧ ∀ i j, slice2 g c (c + 1) A B i j = natAt g (col + 0 * i) (a + j) := by
  obtain ⟨h1, h2, h3⟩ := denotes_slice hc
  obtain ⟨h4, h5, h6⟩ := span_slice hs
  have hl1 : sliceLen Nx c (c + 1) = 1 := by unfold sliceLen; rw [h1, h2]; omega
  refine ⟨hl1, by unfold sliceLen; rw [h4, h5], fun i j => ?_⟩
  have hi : i.val = 0 := by have := i.2; omega
  rw [slice2_nat, h1, h4, hi]

theorem line_y (g : Grid Nx Ny ℂ) {c A B : ℤ} {row a b : ℕ} (hc : Spec.Denotes Ny 1 c row) (hs : Spec.Span Nx A B a b) :
    sliceLen Nx A B = b - a ∧ sliceLen Ny c (c + 1) = 1 ∧ ∀ i j, slice2 g A B c (c + 1) i j = natAt g (a + i) (row + 0 * j) := by
  obtain ⟨h1, h2, h3⟩ := denotes_slice hc
  obtain ⟨h4, h5, h6⟩ := span_slice hs
  have hl1 : sliceLen Ny c (c + 1) = 1 := by unfold sliceLen; rw [h1, h2]; omega
  refine ⟨by unfold sliceLen; rw [h4, h5], hl1, fun i j => ?_⟩
  have hj : j.val = 0 := by have := j.2; omega
  rw [slice2_nat, h1, h4, hj]

theorem Spec.Span.le {n : ℕ} {A B : ℤ} {a b : ℕ} (h : Spec.Span n A B a b) : b ≤ n := by
  obtain ⟨_, h | h⟩ := h <;> omega

/-! ## C51 -/

/-- **C51 (partial), normal `x`.** For a line inside the grid (`col` and `col+1` are columns, the rows are `a ≤ j < b < Ny`; negative centres count from the end, at least three columns
from it) the probe returns `dl` times the sum along the line of the normal Poynting component, in-plane field from column `col`, out-of-plane field averaged over `col` and `col+1`.
Missing: the last column, centres `-1` and `-2`, and lines ending at the last row (`C51_last_column_false`, `C51_negative_false`, `C51_full_width_false`). -/
theorem C51_flux_x_partial (s : Sim Nx Ny) (nl : Bool) (c yc : ℤ) (w : ℝ) (col col1 : Fin Nx) (h1 : col1.val = col + 1) (a b : ℕ) (hc : Spec.Denotes Nx 1 c col)
    (hs : Spec.Span Ny (pyInt (yc - w / 2)) (pyInt (yc + w / 2)) a b) (f : Fields Nx Ny) (hf : f = if nl then s.fields_nl else s.fields) :
    (∀ Ez Hy, s.pol = .Ez → f .Ez = some Ez → f .Hy = some Hy → s.flux_probe "x" (c, yc) w nl =
      .ok (s.dl * ∑ j with a ≤ (j : Fin Ny).val ∧ j.val < b, Spec.Sx 0 ((Ez col j + Ez col1 j) / 2) (Hy col j) 0)) ∧
    (∀ Hz Ey, s.pol = .Hz → f .Hz = some Hz → f .Ey = some Ey → s.flux_probe "x" (c, yc) w nl =
      .ok (s.dl * ∑ j with a ≤ (j : Fin Ny).val ∧ j.val < b, Spec.Sx (Ey col j) 0 0 ((Hz col j + Hz col1 j) / 2))) := by
  have hn : ∀ (g : Grid Nx Ny ℂ) (j : Fin Ny), natAt g (col + 1) j = g col1 j := fun g j => by rw [← h1, natAt_fin]
  subst hf
  constructor
  · intro Ez Hy hp hE hH
    obtain ⟨d1, d2, d3⟩ := avg_x Ez hc hs
    obtain ⟨e1, e2, e3⟩ := line_x Hy hc hs
    have hb := bsum_nat (fun e h => -1 / 2 * (e * (starRingEnd ℂ) h).re) _ _ d1 d2 e1 e2 (fun _ j => (natAt Ez (col + 1) (a + j) + natAt Ez col (a + j)) / 2)
      (fun i j => natAt Hy (col + 0 * i) (a + j)) d3 e3
    simp only [Sim.flux_probe, Sim.probeInds, if_pos, hp, Sim.getField, hE, hH, bind, Except.bind, pure, Except.pure]
    rw [hb]
    simp only [sum_range_one, mul_zero, add_zero]
    rw [sum_filter_nat (fun j => -1 / 2 * ((natAt Ez (col + 1) j + natAt Ez col j) / 2 * (starRingEnd ℂ) (natAt Hy col j)).re) (fun j => Spec.Sx 0 ((Ez col j + Ez col1 j) / 2) (Hy col j) 0)
      (fun j => ?_) a b hs.le]
    rw [hn, natAt_fin, natAt_fin, add_comm (Ez col1 j)]
    unfold Spec.Sx
    simp only [zero_mul, zero_sub, Complex.neg_re]
    ring
  · intro Hz Ey hp hH hE
    obtain ⟨d1, d2, d3⟩ := avg_x Hz hc hs
    obtain ⟨e1, e2, e3⟩ := line_x Ey hc hs
    have hb := bsum_nat (fun e h => 1 / 2 * (e * (starRingEnd ℂ) h).re) _ _ e1 e2 d1 d2 (fun i j => natAt Ey (col + 0 * i) (a + j))
      (fun _ j => (natAt Hz (col + 1) (a + j) + natAt Hz col (a + j)) / 2) e3 d3
    simp only [Sim.flux_probe, Sim.probeInds, if_pos, hp, Sim.getField, hE, hH, bind, Except.bind, pure, Except.pure]
    rw [hb]
    simp only [sum_range_one, mul_zero, add_zero]
    rw [sum_filter_nat (fun j => 1 / 2 * (natAt Ey col j * (starRingEnd ℂ) ((natAt Hz (col + 1) j + natAt Hz col j) / 2)).re)
      (fun j => Spec.Sx (Ey col j) 0 0 ((Hz col j + Hz col1 j) / 2)) (fun j => ?_) a b hs.le]
    rw [hn, natAt_fin, natAt_fin, add_comm (Hz col1 j)]
    unfold Spec.Sx
    simp only [zero_mul, sub_zero]
    ring

/-- **C51 (partial), normal `y`.** The same for horizontal lines. -/
theorem C51_flux_y_partial (s : Sim Nx Ny) (nl : Bool) (xc c : ℤ) (w : ℝ) (row row1 : Fin Ny) (h1 : row1.val = row + 1) (a b : ℕ) (hc : Spec.Denotes Ny 1 c row)
    (hs : Spec.Span Nx (pyInt (xc - w / 2)) (pyInt (xc + w / 2)) a b) (f : Fields Nx Ny) (hf : f = if nl then s.fields_nl else s.fields) :
    (∀ Ez Hx, s.pol = .Ez → f .Ez = some Ez → f .Hx = some Hx → s.flux_probe "y" (xc, c) w nl =
      .ok (s.dl * ∑ i with a ≤ (i : Fin Nx).val ∧ i.val < b, Spec.Sy 0 ((Ez i row + Ez i row1) / 2) (Hx i row) 0)) ∧
    (∀ Hz Ex, s.pol = .Hz → f .Hz = some Hz → f .Ex = some Ex → s.flux_probe "y" (xc, c) w nl =
      .ok (s.dl * ∑ i with a ≤ (i : Fin Nx).val ∧ i.val < b, Spec.Sy (Ex i row) 0 0 ((Hz i row + Hz i row1) / 2))) := by
  have hn : ∀ (g : Grid Nx Ny ℂ) (i : Fin Nx), natAt g i (row + 1) = g i row1 := fun g i => by rw [← h1, natAt_fin]
  have hxy : ¬ ("y" = "x") := by decide
  subst hf
  constructor
  · intro Ez Hx hp hE hH
    obtain ⟨d1, d2, d3⟩ := avg_y Ez hc hs
    obtain ⟨e1, e2, e3⟩ := line_y Hx hc hs
    have hb := bsum_nat (fun e h => 1 / 2 * (e * (starRingEnd ℂ) h).re) _ _ d1 d2 e1 e2 (fun i _ => (natAt Ez (a + i) (row + 1) + natAt Ez (a + i) row) / 2)
      (fun i j => natAt Hx (a + i) (row + 0 * j)) d3 e3
    simp only [Sim.flux_probe, Sim.probeInds, if_neg hxy, if_pos, hp, Sim.getField, hE, hH, bind, Except.bind, pure, Except.pure]
    rw [hb]
    simp only [sum_range_one, mul_zero, add_zero]
    rw [sum_filter_nat (fun i => 1 / 2 * ((natAt Ez i (row + 1) + natAt Ez i row) / 2 * (starRingEnd ℂ) (natAt Hx i row)).re) (fun i => Spec.Sy 0 ((Ez i row + Ez i row1) / 2) (Hx i row) 0)
      (fun i => ?_) a b hs.le]
    rw [hn, natAt_fin, natAt_fin, add_comm (Ez i row1)]
    unfold Spec.Sy
    simp only [zero_mul, sub_zero]
    ring
  · intro Hz Ex hp hH hE
    obtain ⟨d1, d2, d3⟩ := avg_y Hz hc hs
    obtain ⟨e1, e2, e3⟩ := line_y Ex hc hs
    have hb := bsum_nat (fun e h => -1 / 2 * (e * (starRingEnd ℂ) h).re) _ _ e1 e2 d1 d2 (fun i j => natAt Ex (a + i) (row + 0 * j))
      (fun i _ => (natAt Hz (a + i) (row + 1) + natAt Hz (a + i) row) / 2) e3 d3
    simp only [Sim.flux_probe, Sim.probeInds, if_neg hxy, if_pos, hp, Sim.getField, hE, hH, bind, Except.bind, pure, Except.pure]
    rw [hb]
    simp only [sum_range_one, mul_zero, add_zero]
    rw [sum_filter_nat (fun i => -1 / 2 * (natAt Ex i row * (starRingEnd ℂ) ((natAt Hz i (row + 1) + natAt Hz i row) / 2)).re)
      (fun i => Spec.Sy (Ex i row) 0 0 ((Hz i row + Hz i row1) / 2)) (fun i => ?_) a b hs.le]
    rw [hn, natAt_fin, natAt_fin, add_comm (Hz i row1)]
    unfold Spec.Sy
    simp only [zero_mul, zero_sub, Complex.neg_re]
    ring

/-- The probe on an `Ez` simulation reduces to one broadcast sum. -/
theorem flux_x_Ez (s : Sim Nx Ny) (nl : Bool) (c yc : ℤ) (w : ℝ) (Ez Hy : Grid Nx Ny ℂ) (hp : s.pol = .Ez) (hE : (if nl then s.fields_nl else s.fields) .Ez = some Ez)
    (hH : (if nl then s.fields_nl else s.fields) .Hy = some Hy) : s.flux_probe "x" (c, yc) w nl =
      (bsum (fun e h => -1 / 2 * (e * (starRingEnd ℂ) h).re) (dropLast2 (grid_average (slice2 Ez c (c + 1 + 1) (pyInt (yc - w / 2)) (pyInt (yc + w / 2) + 1)) .x))
        (slice2 Hy c (c + 1) (pyInt (yc - w / 2)) (pyInt (yc + w / 2)))).map (s.dl * ·) := by
  simp only [Sim.flux_probe, Sim.probeInds, if_pos, hp, Sim.getField, hE, hH, bind, Except.bind, pure, Except.pure]
  generalize bsum _ _ _ = r
  cases r <;> rfl

/-- **C51, negation at the last column.** At the last column of the grid the probe returns 0 whatever the fields are. -/
theorem C51_last_column_false (s : Sim Nx Ny) (nl : Bool) (yc : ℤ) (w : ℝ) (hx : 0 < Nx) (a b : ℕ) (hs : Spec.Span Ny (pyInt (yc - w / 2)) (pyInt (yc + w / 2)) a b) (Ez Hy : Grid Nx Ny ℂ)
    (hp : s.pol = .Ez) (hE : (if nl then s.fields_nl else s.fields) .Ez = some Ez) (hH : (if nl then s.fields_nl else s.fields) .Hy = some Hy) :
    s.flux_probe "x" ((Nx : ℤ) - 1, yc) w nl = .ok 0 := by
  rw [flux_x_Ez s nl _ yc w Ez Hy hp hE hH]
  obtain ⟨h4, h5, h6⟩ := span_slice hs
  have hab := hs.1
  have i1 : sliceIdx Nx ((Nx : ℤ) - 1) = Nx - 1 := by unfold sliceIdx; split <;> omega
  have i2 : sliceIdx Nx ((Nx : ℤ) - 1 + 1) = Nx := by unfold sliceIdx; split <;> omega
  have i3 : sliceIdx Nx ((Nx : ℤ) - 1 + 1 + 1) = Nx := by unfold sliceIdx; split <;> omega
  have l1 : sliceLen Nx ((Nx : ℤ) - 1) ((Nx : ℤ) - 1 + 1 + 1) - 1 = 0 := by unfold sliceLen; omega
  have l2 : sliceLen Nx ((Nx : ℤ) - 1) ((Nx : ℤ) - 1 + 1) = 1 := by unfold sliceLen; omega
  have l3 : sliceLen Ny (pyInt (yc - w / 2)) (pyInt (yc + w / 2) + 1) - 1 = sliceLen Ny (pyInt (yc - w / 2)) (pyInt (yc + w / 2)) := by unfold sliceLen; omega
  rw [bsum_empty _ _ _ ⟨?_, ?_⟩ (Or.inl ?_)]
  · show Except.ok (s.dl * 0) = _
    rw [mul_zero]
  · rw [l1, l2]; decide
  · rw [l3]; exact Or.inl rfl
  · rw [l1, l2]; rfl

/-- **C51, negation for centres `-1` and `-2`.** On a grid with at least two columns, the probe at column `-1` or `-2` returns 0 whatever the fields are. -/
theorem C51_negative_zero (s : Sim Nx Ny) (nl : Bool) (c yc : ℤ) (w : ℝ) (hx : 2 ≤ Nx) (hc : c = -1 ∨ c = -2) (a b : ℕ) (hs : Spec.Span Ny (pyInt (yc - w / 2)) (pyInt (yc + w / 2)) a b)
    (Ez Hy : Grid Nx Ny ℂ) (hp : s.pol = .Ez) (hE : (if nl then s.fields_nl else s.fields) .Ez = some Ez) (hH : (if nl then s.fields_nl else s.fields) .Hy = some Hy) :
    s.flux_probe "x" (c, yc) w nl = .ok 0 := by
  rw [flux_x_Ez s nl _ yc w Ez Hy hp hE hH]
  obtain ⟨h4, h5, h6⟩ := span_slice hs
  have hab := hs.1
  have l1 : sliceLen Nx c (c + 1 + 1) - 1 = 0 := by rcases hc with rfl | rfl <;> (unfold sliceLen sliceIdx; simp; try omega)
  have l2 : sliceLen Nx c (c + 1) = 0 ∨ sliceLen Nx c (c + 1) = 1 := by rcases hc with rfl | rfl <;> (unfold sliceLen sliceIdx; simp; try omega)
  have l3 : sliceLen Ny (pyInt (yc - w / 2)) (pyInt (yc + w / 2) + 1) - 1 = sliceLen Ny (pyInt (yc - w / 2)) (pyInt (yc + w / 2)) := by unfold sliceLen; omega
  rw [bsum_empty _ _ _ ⟨?_, ?_⟩ (Or.inl ?_)]
  · show Except.ok (s.dl * 0) = _
    rw [mul_zero]
  · rw [l1]; rcases l2 with h | h <;> rw [h] <;> decide
  · rw [l3]; exact Or.inl rfl
  · rw [l1]; rfl

/-- **C51, negation for lines ending at the last row.** If the rows are `a ≤ j < Ny` with at least three of them (for instance the full width of the grid), the probe raises. -/
theorem C51_full_width_false (s : Sim Nx Ny) (nl : Bool) (c yc : ℤ) (w : ℝ) (col a : ℕ) (hc : Spec.Denotes Nx 1 c col) (hA : pyInt (yc - w / 2) = a) (hB : pyInt (yc + w / 2) = Ny)
    (ha : a + 3 ≤ Ny) (Ez Hy : Grid Nx Ny ℂ) (hp : s.pol = .Ez) (hE : (if nl then s.fields_nl else s.fields) .Ez = some Ez)
    (hH : (if nl then s.fields_nl else s.fields) .Hy = some Hy) : s.flux_probe "x" (c, yc) w nl = .error .valueError := by
  rw [flux_x_Ez s nl _ yc w Ez Hy hp hE hH, hA, hB]
  have l1 : sliceLen Ny (a : ℤ) ((Ny : ℤ) + 1) - 1 = Ny - a - 1 := by unfold sliceLen; rw [sliceIdx_natCast Ny a (by omega)]; unfold sliceIdx; split <;> omega
  have l2 : sliceLen Ny (a : ℤ) (Ny : ℤ) = Ny - a := by unfold sliceLen; rw [sliceIdx_natCast Ny a (by omega), sliceIdx_natCast Ny Ny le_rfl]
  rw [bsum_error _ _ _ (fun h => ?_)]
  · rfl
  · have := h.2
    rw [l1, l2] at this
    unfold BCompat at this
    omega

/-- **C51, negation for lines that start below row 0.** If the first row `int(yc - w/2)` is negative, it is counted from the end of the grid: the slice is empty and the probe returns 0,
although rows `0 ≤ j < b` of the requested line are in the grid. -/
theorem C51_below_false (s : Sim Nx Ny) (nl : Bool) (c yc : ℤ) (w : ℝ) (col b : ℕ) (hc : Spec.Denotes Nx 1 c col) (hA : pyInt (yc - w / 2) < 0) (hB : pyInt (yc + w / 2) = b)
    (hb : (b : ℤ) + 1 ≤ Ny + pyInt (yc - w / 2)) (Ez Hy : Grid Nx Ny ℂ) (hp : s.pol = .Ez) (hE : (if nl then s.fields_nl else s.fields) .Ez = some Ez)
    (hH : (if nl then s.fields_nl else s.fields) .Hy = some Hy) : s.flux_probe "x" (c, yc) w nl = .ok 0 := by
  rw [flux_x_Ez s nl _ yc w Ez Hy hp hE hH, hB]
  generalize pyInt (yc - w / 2) = A at *
  obtain ⟨h1, h2, h3⟩ := denotes_slice hc
  have l0 : sliceLen Nx c (c + 1 + 1) - 1 = 1 := by unfold sliceLen; omega
  have l0' : sliceLen Nx c (c + 1) = 1 := by unfold sliceLen; omega
  have l1 : sliceLen Ny A ((b : ℤ) + 1) - 1 = 0 := by unfold sliceLen sliceIdx; split <;> omega
  have l2 : sliceLen Ny A (b : ℤ) = 0 := by unfold sliceLen sliceIdx; split <;> omega
  rw [bsum_empty _ _ _ ⟨?_, ?_⟩ (Or.inr ?_)]
  · show Except.ok (s.dl * 0) = _
    rw [mul_zero]
  · rw [l0, l0']; exact Or.inl rfl
  · rw [l1, l2]; exact Or.inl rfl
  · rw [l1, l2]; rfl

/-- A 3 × 3 `Ez` simulation with uniform fields `Ez = 1`, `Hy = -1`. -/
noncomputable def uniformFlux : Sim 3 3 :=
  { L0 := 1, omega := 1, dl := 1, NPML := (0, 0), pol := .Ez, xrange := (0, 3), yrange := (0, 3), src := fun _ _ => 0, eps_r := fun _ _ => 1, A := 0, derivs := ⟨0, 0, 0, 0⟩
    fields := fun c => match c with
      | .Ez => some fun _ _ => 1
      | .Hx => some fun _ _ => 0
      | .Hy => some fun _ _ => -1
      | _ => none
    fields_nl := fun _ => none, nonlinearity := [], eps_nl := fun _ _ => 0, dnl_de := fun _ _ => 0, dnl_deps := fun _ _ => 0, Anl := none, rho := none }

theorem uniformFlux_span : Spec.Span 3 (pyInt (((1 : ℤ) : ℝ) - 2 / 2)) (pyInt (((1 : ℤ) : ℝ) + 2 / 2)) 0 2 := by
  have h1 : pyInt (((1 : ℤ) : ℝ) - 2 / 2) = 0 := by
    unfold pyInt
    norm_num
  have h2 : pyInt (((1 : ℤ) : ℝ) + 2 / 2) = 2 := by
    unfold pyInt
    rw [if_pos (by norm_num), Int.floor_eq_iff]
    norm_num
  exact ⟨by omega, Or.inl ⟨by rw [h1]; rfl, by rw [h2]; rfl, by omega⟩⟩

/-- **C51, negation for negative centres.** On a 3-column grid column `-2` is column 1; with uniform fields the probe gives 1 at column 1 and 0 at column `-2`. -/
theorem C51_negative_false : uniformFlux.flux_probe "x" (1, 1) 2 = .ok 1 ∧ uniformFlux.flux_probe "x" (-2, 1) 2 = .ok 0 := by
  constructor
  · have h := (C51_flux_x_partial uniformFlux false 1 1 2 1 2 rfl 0 2 (Or.inl ⟨rfl, by decide⟩) uniformFlux_span _ rfl).1 (fun _ _ => 1) (fun _ _ => -1) rfl rfl rfl
    rw [h]
    congr 1
    rw [show (Finset.univ.filter fun j : Fin 3 => 0 ≤ j.val ∧ j.val < 2) = {0, 1} by decide, Finset.sum_pair (by decide)]
    show (1 : ℝ) * _ = 1
    unfold Spec.Sx
    norm_num
  · exact C51_negative_zero uniformFlux false (-2) 1 2 (by omega) (Or.inr rfl) 0 2 uniformFlux_span _ _ rfl rfl rfl

/-- A centre counted from the end that works: on 5 columns, `-4` is column 1. -/
example : Spec.Denotes 5 1 (-4) 1 := Or.inr ⟨by norm_num, by omega⟩

/-! ## C52 -/

/-- A field dictionary with every array multiplied by `k`. -/
def Spec.scaled (k : ℂ) (f : Fields Nx Ny) : Fields Nx Ny := fun c => (f c).map fun g i j => k * g i j

theorem bsum_scaled {m n p q : ℕ} (f : ℂ → ℂ → ℝ) (k : ℂ) (r : ℝ) (hf : ∀ e h, f (k * e) (k * h) = r * f e h) (x x' : Grid m n ℂ) (y y' : Grid p q ℂ) (hx : ∀ i j, x' i j = k * x i j)
    (hy : ∀ i j, y' i j = k * y i j) : bsum f x' y' = (bsum f x y).map (r * ·) := by
  unfold bsum
  split
  · show _ = Except.ok (r * _)
    congr 1
    simp only [hx, hy, hf, mul_sum]
  · rfl

theorem avg_scaled (k : ℂ) (g : Grid Nx Ny ℂ) (a b c d : ℤ) (ax : Axis) (i j) : dropLast2 (grid_average (slice2 (fun i j => k * g i j) a b c d) ax) i j =
    k * dropLast2 (grid_average (slice2 g a b c d) ax) i j := by
  cases ax
  · show (k * _ + k * _) / 2 = k * ((_ + _) / 2)
    rw [← mul_add, mul_div_assoc]
    rfl
  · show (k * _ + k * _) / 2 = k * ((_ + _) / 2)
    rw [← mul_add, mul_div_assoc]
    rfl

theorem getField_scaled (k : ℂ) (f : Fields Nx Ny) (c1 c2 : Comp) (r : ℝ) (K : Grid Nx Ny ℂ → Grid Nx Ny ℂ → Except PyErr ℝ)
    (hK : ∀ a b, K (fun i j => k * a i j) (fun i j => k * b i j) = (K a b).map (r * ·)) :
    (do let a ← Sim.getField (Spec.scaled k f) c1; let b ← Sim.getField (Spec.scaled k f) c2; K a b) =
      (do let a ← Sim.getField f c1; let b ← Sim.getField f c2; K a b : Except PyErr ℝ).map (r * ·) := by
  unfold Sim.getField Spec.scaled
  cases f c1 with
  | none => rfl
  | some a =>
    cases f c2 with
    | none => rfl
    | some b => exact hK a b

/-- **C52.** Multiplying every stored field by a complex `k` multiplies the flux by `|k|²`, for all centres and widths (and the same inputs raise the same exceptions). -/
theorem C52_quadratic (s : Sim Nx Ny) (k : ℂ) (dir : String) (center : ℤ × ℤ) (w : ℝ) (nl : Bool) :
    Sim.flux_probe { s with fields := Spec.scaled k s.fields, fields_nl := Spec.scaled k s.fields_nl } dir center w nl = (s.flux_probe dir center w nl).map (‖k‖ ^ 2 * ·) := by
  have hre : ∀ e h : ℂ, (k * e * (starRingEnd ℂ) (k * h)).re = ‖k‖ ^ 2 * (e * (starRingEnd ℂ) h).re := by
    intro e h
    rw [map_mul, show k * e * ((starRingEnd ℂ) k * (starRingEnd ℂ) h) = (k * (starRingEnd ℂ) k) * (e * (starRingEnd ℂ) h) by ring, Complex.mul_conj, Complex.re_ofReal_mul,
      Complex.normSq_eq_norm_sq]
  have hneg : ∀ e h : ℂ, -1 / 2 * (k * e * (starRingEnd ℂ) (k * h)).re = ‖k‖ ^ 2 * (-1 / 2 * (e * (starRingEnd ℂ) h).re) := fun e h => by rw [hre]; ring
  have hpos : ∀ e h : ℂ, 1 / 2 * (k * e * (starRingEnd ℂ) (k * h)).re = ‖k‖ ^ 2 * (1 / 2 * (e * (starRingEnd ℂ) h).re) := fun e h => by rw [hre]; ring
  have hif : (if nl then Spec.scaled k s.fields_nl else Spec.scaled k s.fields) = Spec.scaled k (if nl then s.fields_nl else s.fields) := by cases nl <;> rfl
  unfold Sim.flux_probe
  simp only [hif]
  generalize (if nl then s.fields_nl else s.fields) = f
  generalize Sim.probeInds dir center w = R
  obtain e | ⟨ax, ix, iy⟩ := R
  · rfl
  · have fin : ∀ {m n p q : ℕ} (F : ℂ → ℂ → ℝ) (hF : ∀ e h, F (k * e) (k * h) = ‖k‖ ^ 2 * F e h) (x x' : Grid m n ℂ) (y y' : Grid p q ℂ) (_ : ∀ i j, x' i j = k * x i j)
        (_ : ∀ i j, y' i j = k * y i j), (do let S ← bsum F x' y'; return s.dl * S : Except PyErr ℝ) = (do let S ← bsum F x y; return s.dl * S : Except PyErr ℝ).map (‖k‖ ^ 2 * ·) := by
      intro m n p q F hF x x' y y' hx hy
      rw [bsum_scaled F k _ hF x x' y y' hx hy]
      generalize bsum F x y = r
      obtain e | r := r
      · rfl
      · show Except.ok (s.dl * (‖k‖ ^ 2 * r)) = Except.ok (‖k‖ ^ 2 * (s.dl * r))
        rw [mul_left_comm]
    show (match s.pol, ax with | .Ez, .x => _ | .Ez, .y => _ | .Hz, .x => _ | .Hz, .y => _) = Except.map _ (match s.pol, ax with | .Ez, .x => _ | .Ez, .y => _ | .Hz, .x => _ | .Hz, .y => _)
    cases s.pol <;> cases ax
    · exact getField_scaled k f .Ez .Hy _ _ fun E H => fin _ hneg _ _ _ _ (avg_scaled k E _ _ _ _ _) fun _ _ => rfl
    · exact getField_scaled k f .Ez .Hx _ _ fun E H => fin _ hpos _ _ _ _ (avg_scaled k E _ _ _ _ _) fun _ _ => rfl
    · exact getField_scaled k f .Hz .Ey _ _ fun H E => fin _ hpos _ _ _ _ (fun _ _ => rfl) (avg_scaled k H _ _ _ _ _)
    · exact getField_scaled k f .Hz .Ex _ _ fun H E => fin _ hneg _ _ _ _ (fun _ _ => rfl) (avg_scaled k H _ _ _ _ _)

/-- Doubling and rotating the fields of `uniformFlux` by `2i` gives four times the flux. -/
example : Sim.flux_probe { uniformFlux with fields := Spec.scaled (2 * Complex.I) uniformFlux.fields, fields_nl := Spec.scaled (2 * Complex.I) uniformFlux.fields_nl } "x" (1, 1) 2 =
    .ok 4 := by
  rw [C52_quadratic, C51_negative_false.1]
  show Except.ok _ = _
  congr 1
  rw [norm_mul, Complex.norm_I]
  norm_num

end Angler
