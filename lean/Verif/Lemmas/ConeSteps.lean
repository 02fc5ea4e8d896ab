import Verif.Lemmas.Filter

/-! # Sums of the cone kernel: the weight of a row, a lower bound of the total weight, and the difference of two neighbouring filtered densities (C102) -/

namespace Angler

open Matrix

variable {Nx Ny : ℕ}

theorem cone_comm (R : ℕ) (a b : ℤ) : Spec.cone R a b = Spec.cone R b a := by
  unfold Spec.cone
  rw [add_comm]

theorem cone_anti (R : ℕ) {a a' : ℤ} (b : ℤ) (h : |a| ≤ |a'|) : Spec.cone R a' b ≤ Spec.cone R a b := by
  have h1 : ((a : ℤ) : ℝ) ^ 2 ≤ (a' : ℝ) ^ 2 := by exact_mod_cast sq_le_sq.2 h
  have h2 : Real.sqrt ((a : ℝ) ^ 2 + (b : ℝ) ^ 2) ≤ Real.sqrt ((a' : ℝ) ^ 2 + (b : ℝ) ^ 2) := Real.sqrt_le_sqrt (by linarith)
  unfold Spec.cone
  by_cases h3 : Real.sqrt ((a' : ℝ) ^ 2 + (b : ℝ) ^ 2) < R
  · rw [if_pos h3, if_pos (h2.trans_lt h3)]
    linarith
  · rw [if_neg h3]
    exact cone_nonneg R a b

theorem cone_far (R : ℕ) {a b : ℤ} (h : (R : ℤ) ≤ |a|) : Spec.cone R a b = 0 := by
  unfold Spec.cone
  rw [if_neg]
  rw [not_lt]
  refine Real.le_sqrt_of_sq_le ?_
  have h1 : ((R : ℤ)) ^ 2 ≤ a ^ 2 := sq_le_sq.2 (by rwa [abs_of_nonneg (by positivity : (0 : ℤ) ≤ R)])
  have h2 : (R : ℝ) ^ 2 ≤ (a : ℝ) ^ 2 := by exact_mod_cast h1
  have := sq_nonneg (b : ℝ)
  linarith

/-- The kernel is at least the pyramid `R - |a| - |b|`. -/
theorem cone_ge (R : ℕ) (a b : ℤ) : max 0 ((R : ℝ) - |(a : ℝ)| - |(b : ℝ)|) ≤ Spec.cone R a b := by
  refine max_le (cone_nonneg R a b) ?_
  have h1 : Real.sqrt ((a : ℝ) ^ 2 + (b : ℝ) ^ 2) ≤ |(a : ℝ)| + |(b : ℝ)| := by
    refine Real.sqrt_le_iff.2 ⟨by positivity, ?_⟩
    have := mul_nonneg (abs_nonneg (a : ℝ)) (abs_nonneg (b : ℝ))
    have e1 := sq_abs (a : ℝ)
    have e2 := sq_abs (b : ℝ)
    nlinarith
  unfold Spec.cone
  split_ifs with h
  · linarith
  · linarith

theorem cone_row (R : ℕ) (b : ℤ) : Spec.cone R 0 b = max 0 ((R : ℝ) - |(b : ℝ)|) := by
  unfold Spec.cone
  have h1 : Real.sqrt (((0 : ℤ) : ℝ) ^ 2 + (b : ℝ) ^ 2) = |(b : ℝ)| := by
    rw [Int.cast_zero, zero_pow two_ne_zero, zero_add, Real.sqrt_sq_eq_abs]
  rw [h1]
  split_ifs with h
  · rw [max_eq_right (by linarith)]
  · rw [max_eq_left (by linarith)]

/-- A sum of an even function over a symmetric interval. -/
theorem sum_even (f : ℕ → ℝ) (R : ℕ) : ∑ d ∈ Finset.Ico (-(R : ℤ)) (R + 1), f d.natAbs = f 0 + 2 * ∑ k ∈ Finset.range R, f (k + 1) := by
  induction R with
  | zero =>
    have h0 : Finset.Ico (-((0 : ℕ) : ℤ)) (((0 : ℕ) : ℤ) + 1) = {0} := by
      ext d
      simp only [Finset.mem_singleton, Finset.mem_Ico]
      omega
    rw [h0]
    simp
  | succ R ih =>
    have hI : Finset.Ico (-((R + 1 : ℕ) : ℤ)) (((R + 1 : ℕ) : ℤ) + 1) = insert (-((R + 1 : ℕ) : ℤ)) (insert (((R + 1 : ℕ) : ℤ)) (Finset.Ico (-(R : ℤ)) (R + 1))) := by
      ext d
      simp only [Finset.mem_insert, Finset.mem_Ico]
      omega
    rw [hI, Finset.sum_insert, Finset.sum_insert, ih, Finset.sum_range_succ]
    · have a1 : (-((R + 1 : ℕ) : ℤ)).natAbs = R + 1 := by omega
      have a2 : (((R + 1 : ℕ) : ℤ)).natAbs = R + 1 := by omega
      rw [a1, a2]
      ring
    · simp only [Finset.mem_Ico]
      omega
    · simp only [Finset.mem_insert, Finset.mem_Ico]
      omega

theorem gauss (m : ℕ) : ∑ k ∈ Finset.range m, ((m : ℝ) - (k + 1)) = (m : ℝ) * (m - 1) / 2 := by
  have h : ∀ n : ℕ, ∑ k ∈ Finset.range n, ((m : ℝ) - (k + 1)) = (n : ℝ) * m - n * (n + 1) / 2 := by
    intro n
    induction n with
    | zero => simp
    | succ n ih => rw [Finset.sum_range_succ, ih]; push_cast; ring
  rw [h]
  ring

theorem gauss_sq (m : ℕ) : ∑ k ∈ Finset.range m, ((m : ℝ) - (k + 1)) ^ 2 = (m : ℝ) * (m - 1) * (2 * m - 1) / 6 := by
  have h : ∀ n : ℕ, ∑ k ∈ Finset.range n, ((m : ℝ) - (k + 1)) ^ 2 = (n : ℝ) * (m : ℝ) ^ 2 - m * n * (n + 1) + n * (n + 1) * (2 * n + 1) / 6 := by
    intro n
    induction n with
    | zero => simp
    | succ n ih => rw [Finset.sum_range_succ, ih]; push_cast; ring
  rw [h]
  ring

/-- The weight of a row of the pyramid. -/
theorem row_sum (m R : ℕ) (h : m ≤ R) : ∑ d ∈ Finset.Ico (-(R : ℤ)) (R + 1), max 0 ((m : ℝ) - |(d : ℝ)|) = (m : ℝ) ^ 2 := by
  have e : ∀ d : ℤ, max 0 ((m : ℝ) - |(d : ℝ)|) = (fun k : ℕ => max 0 ((m : ℝ) - k)) d.natAbs := by
    intro d
    simp only
    rw [Nat.cast_natAbs, Int.cast_abs]
  rw [Finset.sum_congr rfl fun d _ => e d, sum_even (fun k : ℕ => max 0 ((m : ℝ) - k)) R]
  have h1 : ∑ k ∈ Finset.range R, max 0 ((m : ℝ) - ((k + 1 : ℕ) : ℝ)) = (m : ℝ) * (m - 1) / 2 := by
    induction R, h using Nat.le_induction with
    | base =>
      rw [← gauss]
      refine Finset.sum_congr rfl fun k hk => ?_
      rw [Finset.mem_range] at hk
      have : ((k + 1 : ℕ) : ℝ) ≤ m := by exact_mod_cast hk
      rw [max_eq_right (by linarith)]
      push_cast
      ring
    | succ n hn ih =>
      rw [Finset.sum_range_succ, ih, max_eq_left, add_zero]
      have : (m : ℝ) ≤ ((n + 1 : ℕ) : ℝ) := by exact_mod_cast (by omega : m ≤ n + 1)
      linarith
  rw [h1]
  simp only [Nat.cast_zero, sub_zero]
  rw [max_eq_right (by positivity)]
  ring

theorem cone_row_sum (R : ℕ) : ∑ d ∈ Finset.Ico (-(R : ℤ)) (R + 1), Spec.cone R 0 d = (R : ℝ) ^ 2 := by
  rw [Finset.sum_congr rfl fun d _ => cone_row R d, row_sum R R le_rfl]

/-- A lower bound of the total weight. -/
theorem coneSum_ge (R : ℕ) : (2 * (R : ℝ) ^ 3 + R) / 3 ≤ Spec.coneSum R := by
  have h1 : ∑ di ∈ Finset.Ico (-(R : ℤ)) (R + 1), ∑ dj ∈ Finset.Ico (-(R : ℤ)) (R + 1), max 0 ((R : ℝ) - |(di : ℝ)| - |(dj : ℝ)|) = (2 * (R : ℝ) ^ 3 + R) / 3 := by
    have e : ∀ di ∈ Finset.Ico (-(R : ℤ)) (R + 1), ∑ dj ∈ Finset.Ico (-(R : ℤ)) (R + 1), max 0 ((R : ℝ) - |(di : ℝ)| - |(dj : ℝ)|) = (fun k : ℕ => ((R : ℝ) - k) ^ 2) di.natAbs := by
      intro di hdi
      rw [Finset.mem_Ico] at hdi
      have hle : di.natAbs ≤ R := by omega
      have hc : ((R - di.natAbs : ℕ) : ℝ) = (R : ℝ) - |(di : ℝ)| := by
        rw [Nat.cast_sub hle, Nat.cast_natAbs, Int.cast_abs]
      rw [← hc, row_sum _ _ (by omega), Nat.cast_sub hle]
    rw [Finset.sum_congr rfl e, sum_even (fun k : ℕ => ((R : ℝ) - k) ^ 2) R]
    have := gauss_sq R
    simp only [Nat.cast_add, Nat.cast_one, Nat.cast_zero, sub_zero]
    rw [this]
    ring
  rw [← h1]
  exact Finset.sum_le_sum fun di _ => Finset.sum_le_sum fun dj _ => cone_ge R di dj

/-- The telescoping sum on one side of a pixel. -/
theorem side_sum {N : ℕ} (R : ℕ) (i : Fin N) (h1 : R ≤ (i : ℕ)) (h2 : (i : ℕ) + R < N) (b : ℤ) :
    ∑ i' : Fin N, (if (i : ℤ) < i' then Spec.cone R ((i' : ℤ) - (i + 1)) b - Spec.cone R ((i' : ℤ) - i) b else 0) = Spec.cone R 0 b := by
  have e := sum_axis_offsets i h1 h2 (fun d => if 0 < d then Spec.cone R (d - 1) b - Spec.cone R d b else 0) (by
    intro d hd
    split_ifs with h
    · rw [cone_far R (a := d - 1) (by rw [abs_of_nonneg (by omega)]; omega), cone_far R (a := d) (by rw [abs_of_nonneg (by omega)]; omega), sub_zero]
    · rfl)
  have e' : ∑ i' : Fin N, (if (i : ℤ) < i' then Spec.cone R ((i' : ℤ) - (i + 1)) b - Spec.cone R ((i' : ℤ) - i) b else 0) =
      ∑ i' : Fin N, (fun d : ℤ => if 0 < d then Spec.cone R (d - 1) b - Spec.cone R d b else 0) ((i' : ℤ) - i) := by
    refine Finset.sum_congr rfl fun i' _ => ?_
    simp only
    by_cases h : (i : ℤ) < i'
    · rw [if_pos h, if_pos (by omega), sub_sub]
    · rw [if_neg h, if_neg (by omega)]
  rw [e', e, ← Finset.sum_filter]
  have hb : ∑ d ∈ (Finset.Ico (-(R : ℤ)) (R + 1)).filter (fun d => 0 < d), (Spec.cone R (d - 1) b - Spec.cone R d b) =
      ∑ k ∈ Finset.range R, (Spec.cone R (k : ℤ) b - Spec.cone R ((k + 1 : ℕ) : ℤ) b) := by
    refine Finset.sum_nbij' (fun d => (d - 1).toNat) (fun k => (k : ℤ) + 1) ?_ ?_ ?_ ?_ ?_
    · intro d hd
      rw [Finset.mem_filter, Finset.mem_Ico] at hd
      rw [Finset.mem_range]
      omega
    · intro k hk
      rw [Finset.mem_range] at hk
      rw [Finset.mem_filter, Finset.mem_Ico]
      omega
    · intro d hd
      rw [Finset.mem_filter, Finset.mem_Ico] at hd
      omega
    · intro k hk
      omega
    · intro d hd
      rw [Finset.mem_filter, Finset.mem_Ico] at hd
      have a1 : (((d - 1).toNat : ℕ) : ℤ) = d - 1 := by omega
      have a2 : (((d - 1).toNat + 1 : ℕ) : ℤ) = d := by omega
      rw [a1, a2]
  rw [hb, Finset.sum_range_sub' (fun k : ℕ => Spec.cone R (k : ℤ) b), cone_far R (a := (R : ℤ)) (by rw [abs_of_nonneg (by positivity)])]
  simp

/-- The part of the difference of two neighbouring kernels on the side of the second pixel weighs `R²`. -/
theorem side_weight {N M : ℕ} (R : ℕ) (i : Fin N) (j : Fin M) (h1 : R ≤ (i : ℕ)) (h2 : (i : ℕ) + R < N) (h3 : R ≤ (j : ℕ)) (h4 : (j : ℕ) + R < M) :
    ∑ i' : Fin N, ∑ j' : Fin M, (if (i : ℤ) < i' then Spec.cone R ((i' : ℤ) - (i + 1)) ((j' : ℤ) - j) - Spec.cone R ((i' : ℤ) - i) ((j' : ℤ) - j) else 0) = (R : ℝ) ^ 2 := by
  rw [Finset.sum_comm, Finset.sum_congr rfl fun (j' : Fin M) _ => side_sum R i h1 h2 ((j' : ℤ) - j), sum_axis_offsets j h3 h4 (fun d => Spec.cone R 0 d) fun d hd => cone_eq_zero_of (Or.inr hd), cone_row_sum]

/-- Two neighbouring weighted sums of densities between 0 and 1 differ by at most `R²`. -/
theorem step_core {N M : ℕ} (R : ℕ) (i i1 : Fin N) (hi : (i1 : ℕ) = i + 1) (j : Fin M) (h1 : R ≤ (i : ℕ)) (h2 : (i : ℕ) + R + 1 < N) (h3 : R ≤ (j : ℕ)) (h4 : (j : ℕ) + R < M) (ρ : Fin N → Fin M → ℝ)
    (hρ : ∀ i j, 0 ≤ ρ i j ∧ ρ i j ≤ 1) :
    |∑ i' : Fin N, ∑ j' : Fin M, Spec.cone R ((i' : ℤ) - i1) ((j' : ℤ) - j) * ρ i' j' - ∑ i' : Fin N, ∑ j' : Fin M, Spec.cone R ((i' : ℤ) - i) ((j' : ℤ) - j) * ρ i' j'| ≤ (R : ℝ) ^ 2 := by
  have hi' : ((i1 : ℕ) : ℤ) = (i : ℤ) + 1 := by omega
  have hw := side_weight R i j h1 (by omega) h3 h4
  have t1 := sum_cone_grid R i1 j (by omega) (by omega) h3 h4
  have t0 := sum_cone_grid R i j h1 (by omega) h3 h4
  rw [hi'] at t1 ⊢
  set D : Fin N → Fin M → ℝ := fun i' j' => Spec.cone R ((i' : ℤ) - (i + 1)) ((j' : ℤ) - j) - Spec.cone R ((i' : ℤ) - i) ((j' : ℤ) - j) with hD
  have hpos : ∀ (i' : Fin N) (j' : Fin M), (i : ℤ) < i' → 0 ≤ D i' j' := by
    intro i' j' h
    have := cone_anti R (a := (i' : ℤ) - (i + 1)) (a' := (i' : ℤ) - i) ((j' : ℤ) - j) (by rw [abs_of_nonneg (by omega), abs_of_nonneg (by omega)]; omega)
    simp only [hD]
    linarith
  have hneg : ∀ (i' : Fin N) (j' : Fin M), ¬ (i : ℤ) < i' → D i' j' ≤ 0 := by
    intro i' j' h
    have := cone_anti R (a := (i' : ℤ) - i) (a' := (i' : ℤ) - (i + 1)) ((j' : ℤ) - j) (by rw [abs_of_nonpos (by omega), abs_of_nonpos (by omega)]; omega)
    simp only [hD]
    linarith
  have hsum : ∑ i', ∑ j', D i' j' = 0 := by
    simp only [hD, Finset.sum_sub_distrib]
    rw [t1, t0, sub_self]
  have hdiff : ∑ i' : Fin N, ∑ j' : Fin M, Spec.cone R ((i' : ℤ) - (i + 1)) ((j' : ℤ) - j) * ρ i' j' - ∑ i' : Fin N, ∑ j' : Fin M, Spec.cone R ((i' : ℤ) - i) ((j' : ℤ) - j) * ρ i' j' =
      ∑ i', ∑ j', D i' j' * ρ i' j' := by
    simp only [hD, sub_mul, Finset.sum_sub_distrib]
  rw [hdiff, abs_le]
  have up : ∑ i', ∑ j', D i' j' * ρ i' j' ≤ ∑ i' : Fin N, ∑ j' : Fin M, (if (i : ℤ) < i' then D i' j' else 0) := by
    refine Finset.sum_le_sum fun i' _ => Finset.sum_le_sum fun j' _ => ?_
    split_ifs with h
    · have := mul_le_mul_of_nonneg_left (hρ i' j').2 (hpos i' j' h)
      linarith
    · exact mul_nonpos_of_nonpos_of_nonneg (hneg i' j' h) (hρ i' j').1
  have lo : ∑ i', ∑ j', D i' j' - ∑ i' : Fin N, ∑ j' : Fin M, (if (i : ℤ) < i' then D i' j' else 0) ≤ ∑ i', ∑ j', D i' j' * ρ i' j' := by
    simp only [← Finset.sum_sub_distrib]
    refine Finset.sum_le_sum fun i' _ => Finset.sum_le_sum fun j' _ => ?_
    split_ifs with h
    · rw [sub_self]
      exact mul_nonneg (hpos i' j' h) (hρ i' j').1
    · have := mul_le_mul_of_nonpos_left (hρ i' j').2 (hneg i' j' h)
      linarith
  rw [hw] at up
  rw [hw, hsum] at lo
  exact ⟨by linarith, up⟩

end Angler
