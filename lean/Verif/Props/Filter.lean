import Verif.Lemmas.Filter
import Mathlib.Tactic.Linarith
import Mathlib.Algebra.BigOperators.Field
import Mathlib.Algebra.Order.BigOperators.Group.List

/-! # C05–C07: the density filter -/

namespace Angler

open Matrix

variable {Nx Ny : ℕ}

/-- **C05.** Whatever `get_W` returns, the filtered density at a pixel outside the design region is the density there. -/
theorem C05_filter_identity_outside (design : Grid Nx Ny ℝ) (NPML : ℕ × ℕ) (R : ℕ) (W : Mat (Nx * Ny) ℝ) (hW : get_W Nx Ny design NPML R = .ok W)
    (rho : Grid Nx Ny ℝ) (i : Fin Nx) (j : Fin Ny) (hd : design i j = 0) : rho2rhot rho W i j = rho i j := by
  unfold get_W at hW
  rcases hc : csr_matrix (Nx * Ny) (getW_triples Nx Ny NPML R) with e | W0
  · rw [hc] at hW; cases hW
  · rw [hc] at hW
    cases hW
    simp only [rho2rhot, unflatten, Matrix.add_mulVec, ← Matrix.mulVec_mulVec, spdiag, Pi.add_apply, Matrix.mulVec_diagonal, flatten_pair, hd]
    ring

/-- The pixels within distance `R` of `(i,j)`, and the pixel itself, are all visited by `get_W`. -/
def Spec.WellInside (Nx Ny : ℕ) (NPML : ℕ × ℕ) (R : ℕ) (i j : ℕ) : Prop :=
  ∀ i' j' : ℕ, Real.sqrt (((i' : ℝ) - i) ^ 2 + ((j' : ℝ) - j) ^ 2) < R →
    (R + NPML.1 + 1 ≤ i' ∧ i' + R + NPML.1 + 1 < Nx) ∧ (R + NPML.2 + 1 ≤ j' ∧ j' + R + NPML.2 + 1 < Ny)

/-- **C06 (partial).** Full claim: for every grid, design region, `NPML`, `R` the filter is an average.  Proved for `NPML ≥ 1`, `R ≥ 1` when the design region lies so
far inside that the pixels within `R` of it are all visited by the loops.  Missing: design pixels nearer to the boundary, where the claim is false
(`C06_border_pixels_lost`, `C06_amplifies`). -/
theorem C06_average_partial (design : Grid Nx Ny ℝ) (NPML : ℕ × ℕ) (R : ℕ) (h1 : 1 ≤ NPML.1) (h2 : 1 ≤ NPML.2) (hR : 1 ≤ R)
    (hdes : ∀ i j, design i j = 0 ∨ design i j = 1) (hin : ∀ (i : Fin Nx) (j : Fin Ny), design i j = 1 → Spec.WellInside Nx Ny NPML R i j) :
    ∃ W, get_W Nx Ny design NPML R = .ok W ∧
      (∀ (c : ℝ) i j, rho2rhot (fun _ _ => c) W i j = c) ∧
      ∀ rho : Grid Nx Ny ℝ, (∀ i j, 0 ≤ rho i j ∧ rho i j ≤ 1) → ∀ i j, 0 ≤ rho2rhot rho W i j ∧ rho2rhot rho W i j ≤ 1 := by
  obtain ⟨W, hW, hent⟩ := get_W_interior design h1 h2 hR
  have hK := coneSum_pos hR
  -- weights of a design pixel
  have hdesign : ∀ i j, design i j = 1 → ∀ i' j', W (finProdFinEquiv (i, j)) (finProdFinEquiv (i', j')) =
      Spec.cone R ((i' : ℤ) - i) ((j' : ℤ) - j) / Spec.coneSum R := by
    intro i j hd i' j'
    have self : Interior Nx Ny NPML R i j := by
      have := hin i j hd i j (by simp; omega)
      unfold Interior InteriorAxis; omega
    rw [hent, hd, if_pos self]
    by_cases hc : Spec.cone R ((i' : ℤ) - i) ((j' : ℤ) - j) = 0
    · rw [hc]; simp
    · have hp := (cone_pos_iff _ _ _).1 (lt_of_le_of_ne (cone_nonneg R ((i' : ℤ) - i) ((j' : ℤ) - j)) (Ne.symm hc))
      have hi' : Interior Nx Ny NPML R i' j' := by
        have := hin i j hd i' j' (by push_cast at hp; exact hp)
        unfold Interior InteriorAxis; omega
      rw [if_pos hi']
      simp
  have hsum : ∀ (i : Fin Nx) (j : Fin Ny), design i j = 1 →
      ∑ i' : Fin Nx, ∑ j' : Fin Ny, Spec.cone R ((i' : ℤ) - i) ((j' : ℤ) - j) / Spec.coneSum R = 1 := by
    intro i j hd
    have := hin i j hd i j (by simp; omega)
    simp only [← Finset.sum_div]
    rw [sum_cone_grid R i j (by omega) (by omega) (by omega) (by omega), div_self hK.ne']
  have hrho : ∀ (rho : Grid Nx Ny ℝ) i j, design i j = 1 → rho2rhot rho W i j =
      ∑ i' : Fin Nx, ∑ j' : Fin Ny, Spec.cone R ((i' : ℤ) - i) ((j' : ℤ) - j) / Spec.coneSum R * rho i' j' := by
    intro rho i j hd
    rw [rho2rhot, unflatten, mulVec, dotProduct, sum_flat]
    simp only [hdesign i j hd, flatten_pair]
  refine ⟨W, hW, ?_, ?_⟩
  · intro c i j
    rcases hdes i j with hd | hd
    · exact C05_filter_identity_outside design NPML R W hW _ i j hd
    · rw [hrho _ i j hd]
      simp only [← Finset.sum_mul]
      rw [hsum i j hd, one_mul]
  · intro rho hr i j
    rcases hdes i j with hd | hd
    · rw [C05_filter_identity_outside design NPML R W hW _ i j hd]; exact hr i j
    · rw [hrho _ i j hd]
      have wn : ∀ (i' : Fin Nx) (j' : Fin Ny), 0 ≤ Spec.cone R ((i' : ℤ) - i) ((j' : ℤ) - j) / Spec.coneSum R := fun i' j' => div_nonneg (cone_nonneg _ _ _) hK.le
      constructor
      · exact Finset.sum_nonneg fun i' _ => Finset.sum_nonneg fun j' _ => mul_nonneg (wn i' j') (hr i' j').1
      · rw [← hsum i j hd]
        refine Finset.sum_le_sum fun i' _ => Finset.sum_le_sum fun j' _ => ?_
        have := (hr i' j').2
        have := wn i' j'
        nlinarith

/-- Non-vacuity of C06: one design pixel in the middle of an `11 × 11` grid, `NPML = [1,1]`, `R = 2`. -/
example : ∃ W, get_W 11 11 (fun i j => if i = 5 ∧ j = 5 then 1 else 0) (1, 1) 2 = .ok W ∧
    ∀ (c : ℝ) i j, rho2rhot (fun _ _ => c) W i j = c := by
  obtain ⟨W, h1, h2, _⟩ := C06_average_partial (Nx := 11) (Ny := 11) (fun i j => if i = 5 ∧ j = 5 then 1 else 0) (1, 1) 2 (by norm_num) (by norm_num) (by norm_num)
    (by intro i j; by_cases h : i = 5 ∧ j = 5 <;> simp [h])
    (by
      intro i j hd
      by_cases h : i = 5 ∧ j = 5
      · obtain ⟨rfl, rfl⟩ := h
        intro i' j' hlt
        have hc : 0 < Spec.cone 2 ((i' : ℤ) - 5) ((j' : ℤ) - 5) := by rw [cone_pos_iff]; push_cast; exact hlt
        have := cone_support hc
        rw [abs_lt, abs_lt] at this
        simp only
        omega
      · simp [h] at hd)
  exact ⟨W, h1, h2⟩

/-- **C06, negation (1).** A design pixel that the loops do not visit gets filtered density 0 whatever the density is. -/
theorem C06_border_pixels_lost (design : Grid Nx Ny ℝ) (NPML : ℕ × ℕ) (R : ℕ) (h1 : 1 ≤ NPML.1) (h2 : 1 ≤ NPML.2) (hR : 1 ≤ R)
    (i : Fin Nx) (j : Fin Ny) (hd : design i j = 1) (hb : (i : ℕ) < R + NPML.1 + 1) :
    ∃ W, get_W Nx Ny design NPML R = .ok W ∧ ∀ rho, rho2rhot rho W i j = 0 := by
  obtain ⟨W, hW, hent⟩ := get_W_interior design h1 h2 hR
  refine ⟨W, hW, fun rho => ?_⟩
  have hn : ¬ Interior Nx Ny NPML R i j := by unfold Interior InteriorAxis; omega
  rw [rho2rhot, unflatten, mulVec, dotProduct, sum_flat]
  refine Finset.sum_eq_zero fun i' _ => Finset.sum_eq_zero fun j' _ => ?_
  rw [hent, if_neg hn, hd]
  simp

/-- A design region over a whole `9 × 9` grid: the corner pixel's filtered density is 0 even for the density 1. -/
example : ∃ W, get_W 9 9 (fun _ _ => 1) (1, 1) 2 = .ok W ∧ rho2rhot (fun _ _ => 1) W 0 0 = 0 := by
  obtain ⟨W, h, hr⟩ := C06_border_pixels_lost (Nx := 9) (Ny := 9) (fun _ _ => 1) (1, 1) 2 (by norm_num) (by norm_num) (by norm_num) 0 0 rfl (by norm_num)
  exact ⟨W, h, hr _⟩

/-- **C06, negation (2).** A design pixel whose neighbours are not visited is amplified: on a `9 × 9` grid with `NPML = [1,1]`, `R = 2` the density 1 is filtered to
more than 4 at the centre (the code normalises columns where rows should be normalised). -/
theorem C06_amplifies : ∃ W, get_W 9 9 (fun _ _ => 1) (1, 1) 2 = .ok W ∧ 4 < rho2rhot (fun _ _ => 1) W 4 4 := by
  obtain ⟨W, hW, hent⟩ := get_W_interior (Nx := 9) (Ny := 9) (NPML := (1, 1)) (R := 2) (fun _ _ => 1) (by norm_num) (by norm_num) (by norm_num)
  refine ⟨W, hW, ?_⟩
  have hK := coneSum_pos (R := 2) (by norm_num)
  have hc4 : Interior 9 9 (1, 1) 2 ((4 : Fin 9) : ℕ) ((4 : Fin 9) : ℕ) := by decide
  have hW4 : ∀ i' j' : Fin 9, W (finProdFinEquiv (4, 4)) (finProdFinEquiv (i', j')) =
      Spec.cone 2 ((i' : ℤ) - 4) ((j' : ℤ) - 4) / (if Interior 9 9 (1, 1) 2 i' j' then Spec.coneSum 2 else 1) := by
    intro i' j'
    rw [hent, if_pos hc4]
    simp
  have c1 : ∀ a b : ℤ, (a : ℝ) ^ 2 + (b : ℝ) ^ 2 = 1 → Spec.cone 2 a b = 1 := by
    intro a b h
    simp only [Spec.cone, h, Real.sqrt_one]
    norm_num
  have c0 : 0 < Spec.cone 2 0 0 := by rw [cone_pos_iff]; simp
  have nn : ∀ i' j' : Fin 9, 0 ≤ W (finProdFinEquiv (4, 4)) (finProdFinEquiv (i', j')) * 1 := by
    intro i' j'
    rw [hW4, mul_one]
    refine div_nonneg (cone_nonneg _ _ _) ?_
    split_ifs
    · exact hK.le
    · exact zero_le_one
  rw [rho2rhot, unflatten, mulVec, dotProduct, sum_flat]
  simp only [flatten_pair]
  have e : ∀ a b : Fin 9, ¬ Interior 9 9 (1, 1) 2 a b → (((a : ℤ) - 4 : ℤ) : ℝ) ^ 2 + (((b : ℤ) - 4 : ℤ) : ℝ) ^ 2 = 1 →
      W (finProdFinEquiv (4, 4)) (finProdFinEquiv (a, b)) * 1 = 1 := by
    intro a b hn h
    rw [hW4, if_neg hn, c1 _ _ h]; norm_num
  have e44 : 0 < W (finProdFinEquiv (4, 4)) (finProdFinEquiv ((4 : Fin 9), (4 : Fin 9))) * 1 := by
    rw [hW4, if_pos hc4, mul_one]
    exact div_pos (by simpa using c0) hK
  have sub : ∑ p ∈ ({(3, 4), (5, 4), (4, 3), (4, 5), (4, 4)} : Finset (Fin 9 × Fin 9)), W (finProdFinEquiv (4, 4)) (finProdFinEquiv p) * 1
      ≤ ∑ p : Fin 9 × Fin 9, W (finProdFinEquiv (4, 4)) (finProdFinEquiv p) * 1 :=
    Finset.sum_le_sum_of_subset_of_nonneg (Finset.subset_univ _) fun p _ _ => nn p.1 p.2
  rw [Fintype.sum_prod_type] at sub
  refine lt_of_lt_of_le ?_ sub
  rw [Finset.sum_insert (by decide), Finset.sum_insert (by decide), Finset.sum_insert (by decide), Finset.sum_insert (by decide), Finset.sum_singleton]
  rw [e 3 4 (by decide) (by norm_num), e 5 4 (by decide) (by norm_num), e 4 3 (by decide) (by norm_num), e 4 5 (by decide) (by norm_num)]
  linarith

/-- With `R = 1` every triple sits on the diagonal: the only pixel closer than 1 is the pixel itself. -/
theorem getW_inner_one (Nx Ny i1 j1 : ℤ) (hi : 0 ≤ i1 ∧ i1 < Nx) (hj : 0 ≤ j1 ∧ j1 < Ny) (l : List ℤ) :
    ∀ i2, ∀ p ∈ getW_inner Nx Ny 1 i1 j1 i2 l, p.1 = i1 * Ny + j1 ∧ p.2.1 = i1 * Ny + j1 := by
  induction l with
  | nil => intro i2 p hp; simp [getW_inner] at hp
  | cons a l ih =>
    intro i2 p hp
    simp only [getW_inner, List.mem_append] at hp
    rcases hp with hp | hp
    · by_cases hv : (0 : ℝ) < ((1 : ℤ) : ℝ) - fdist i1 j1 i2 (j1 + a)
      · rw [if_pos hv, List.mem_singleton] at hp
        have hlt : fdist i1 j1 i2 (j1 + a) < 1 := by push_cast at hv; linarith
        unfold fdist at hlt
        rw [Real.sqrt_lt' one_pos] at hlt
        have hz : (i1 - i2) ^ 2 + (j1 - (j1 + a)) ^ 2 < (1 : ℤ) := by
          have : ((((i1 - i2) ^ 2 + (j1 - (j1 + a)) ^ 2 : ℤ)) : ℝ) < ((1 : ℤ) : ℝ) := by push_cast at hlt ⊢; linarith
          exact_mod_cast this
        have e1 : i1 - i2 = 0 := by
          have : (i1 - i2) ^ 2 = 0 := by nlinarith [sq_nonneg (i1 - i2), sq_nonneg (j1 - (j1 + a))]
          exact pow_eq_zero_iff (two_ne_zero) |>.1 this
        have e2 : j1 - (j1 + a) = 0 := by
          have : (j1 - (j1 + a)) ^ 2 = 0 := by nlinarith [sq_nonneg (i1 - i2), sq_nonneg (j1 - (j1 + a))]
          exact pow_eq_zero_iff (two_ne_zero) |>.1 this
        have e3 : i2 = i1 := by omega
        have e4 : j1 + a = j1 := by omega
        rw [e3, e4, wrap_inside hi.1 hi.2, wrap_inside hj.1 hj.2] at hp
        rw [hp]
        exact ⟨rfl, rfl⟩
      · rw [if_neg hv] at hp; simp at hp
    · exact ih _ p hp

/-- The pixel index `i` is visited along an axis of length `N` with `P` PML cells. -/
def Spec.Visited (N P R i : ℕ) : Prop := P = 0 ∨ (R + P + 1 ≤ i ∧ i + R + P + 1 < N)

theorem mem_range_of_visited {N P R : ℕ} (i : Fin N) (h : Spec.Visited N P R i) : ((i : ℕ) : ℤ) ∈ getW_range N P R := by
  have := i.2
  unfold Spec.Visited at h
  by_cases h0 : P = 0
  · rw [getW_range, if_pos (by omega), mem_pyRange]; omega
  · rw [getW_range, if_neg (by omega), mem_pyRange]; omega

theorem range_bounds {N P R : ℕ} {x : ℤ} (h : x ∈ getW_range N P R) : 0 ≤ x ∧ x < N := by
  by_cases h0 : P = 0
  · rw [getW_range, if_pos (by omega), mem_pyRange] at h; omega
  · rw [getW_range, if_neg (by omega), mem_pyRange] at h; omega

/-- **C07 (partial).** Full claim: for every `R ≥ 1` with `NPML` zero along an axis the filter succeeds and couples each design pixel with its neighbours modulo the grid
length with weight `R - distance`.  Proved: for `R = 1`, where no other pixel is closer than `R`, `get_W` succeeds for every `NPML` and every visited pixel (with `NPML = [0,0]`:
every pixel) is coupled with itself only, with weight 1.  Missing: `R ≥ 2`, where the claim is false (`C07_periodic_x_raises`, `C07_periodic_y_wrong`). -/
theorem C07_R_one_partial (design : Grid Nx Ny ℝ) (NPML : ℕ × ℕ) :
    ∃ W, get_W Nx Ny design NPML 1 = .ok W ∧ ∀ (i : Fin Nx) (j : Fin Ny), Spec.Visited Nx NPML.1 1 i → Spec.Visited Ny NPML.2 1 j →
      ∀ (i' : Fin Nx) (j' : Fin Ny), W (finProdFinEquiv (i, j)) (finProdFinEquiv (i', j')) = if i = i' ∧ j = j' then 1 else 0 := by
  have hdiag : ∀ p ∈ getW_triples Nx Ny NPML 1, p.2.1 = p.1 ∧ 0 ≤ p.1 ∧ p.1 < ((Nx * Ny : ℕ) : ℤ) := by
    intro p hp
    simp only [getW_triples, List.mem_flatMap] at hp
    obtain ⟨i1, hi1, j1, hj1, d, _, hp⟩ := hp
    have hi := range_bounds hi1
    have hj := range_bounds hj1
    have h := getW_inner_one Nx Ny i1 j1 hi hj _ _ p hp
    refine ⟨by rw [h.1, h.2], ?_, ?_⟩
    · rw [h.1]; have := mul_nonneg hi.1 (show (0 : ℤ) ≤ Ny by omega); omega
    · rw [h.1]; push_cast; nlinarith [hi.2, hj.2]
  have hok : ∀ p ∈ getW_triples Nx Ny NPML 1, (0 ≤ p.1 ∧ p.1 < ((Nx * Ny : ℕ) : ℤ)) ∧ (0 ≤ p.2.1 ∧ p.2.1 < ((Nx * Ny : ℕ) : ℤ)) := by
    intro p hp
    obtain ⟨h1, h2⟩ := hdiag p hp
    exact ⟨h2, by rw [h1]; exact h2⟩
  obtain ⟨W0, hW0, hdef⟩ : ∃ W0, csr_matrix (Nx * Ny) (getW_triples Nx Ny NPML 1) = .ok W0 ∧ ∀ r c, W0 r c =
      ((getW_triples Nx Ny NPML 1).map fun p => if p.1 = ((r : ℕ) : ℤ) ∧ p.2.1 = ((c : ℕ) : ℤ) then p.2.2 else 0).sum :=
    ⟨_, if_pos hok, fun _ _ => rfl⟩
  have hoff : ∀ r c, r ≠ c → W0 r c = 0 := by
    intro r c hrc
    rw [hdef]
    refine List.sum_eq_zero fun x hx => ?_
    obtain ⟨p, hp, rfl⟩ := List.mem_map.1 hx
    refine if_neg fun h => hrc (Fin.ext ?_)
    have := (hdiag p hp).1
    omega
  have hon : ∀ (i : Fin Nx) (j : Fin Ny), Spec.Visited Nx NPML.1 1 i → Spec.Visited Ny NPML.2 1 j →
      W0 (finProdFinEquiv (i, j)) (finProdFinEquiv (i, j)) ≠ 0 := by
    intro i j hi hj
    have hmem : ((i : ℤ) * Ny + j, (i : ℤ) * Ny + j, (1 : ℝ)) ∈ getW_triples Nx Ny NPML 1 := by
      unfold getW_triples
      simp only [List.mem_flatMap]
      refine ⟨i, mem_range_of_visited i hi, j, mem_range_of_visited j hj, 0, ?_, ?_⟩
      · rw [mem_pyRange]; omega
      · rw [add_zero, getW_inner_fix _ _ _ _ _ _ (wrap_inside (by omega) (by omega)), List.mem_flatMap]
        refine ⟨0, by rw [mem_pyRange]; omega, ?_⟩
        have hd : fdist i j i (j + 0) = 0 := by
          have := fdist_offset i j 0 0
          rw [add_zero] at this
          rw [this]; simp
        rw [hd, if_pos (by norm_num), add_zero, wrap_inside (by omega) (by omega)]
        simp
    rw [hdef]
    refine ne_of_gt (lt_of_lt_of_le one_pos (List.single_le_sum ?_ 1 (List.mem_map.2 ⟨_, hmem, ?_⟩)))
    · intro x hx
      obtain ⟨p, hp, rfl⟩ := List.mem_map.1 hx
      split_ifs
      · exact (getW_triples_val_pos _ _ _ _ p hp).le
      · exact le_refl _
    · exact if_pos ⟨(pair_val i j).symm, (pair_val i j).symm⟩
  have hrow : ∀ r, (W0 *ᵥ fun _ => (1 : ℝ)) r = W0 r r := by
    intro r
    rw [mulVec, dotProduct, Finset.sum_eq_single r (fun c _ hc => by rw [hoff r c (Ne.symm hc), zero_mul]) (fun h => absurd (Finset.mem_univ r) h), mul_one]
  refine ⟨_, by simp only [get_W, hW0]; rfl, ?_⟩
  intro i j hi hj i' j'
  simp only [Matrix.add_apply, spdiag, Matrix.diagonal_mul, Matrix.mul_diagonal, Matrix.diagonal_apply, flatten_pair, hrow,
    EmbeddingLike.apply_eq_iff_eq, Prod.mk.injEq]
  by_cases h : i = i' ∧ j = j'
  · obtain ⟨rfl, rfl⟩ := h
    have hne := hon i j hi hj
    simp only [if_neg hne, and_self, if_true]
    field_simp
    ring
  · rw [hoff _ _ (by rw [Ne, EmbeddingLike.apply_eq_iff_eq, Prod.mk.injEq]; exact h), if_neg h, if_neg h]
    ring

/-- Non-vacuity: fully periodic `2 × 3` grid. -/
example : ∃ W, get_W 2 3 (fun _ _ => 1) (0, 0) 1 = .ok W ∧ W (finProdFinEquiv (0, 2)) (finProdFinEquiv (0, 2)) = 1 := by
  obtain ⟨W, h, hw⟩ := C07_R_one_partial (Nx := 2) (Ny := 3) (fun _ _ => 1) (0, 0)
  exact ⟨W, h, by rw [hw 0 2 (Or.inl rfl) (Or.inl rfl)]; simp⟩

/-- **C07, negation (1).** With no PML along `x` and `R ≥ 2`, `get_W` raises `ValueError` (an index runs out of the matrix) as soon as some pixel is visited. -/
theorem C07_periodic_x_raises (design : Grid Nx Ny ℝ) (NPML : ℕ × ℕ) (R : ℕ) (h1 : NPML.1 = 0) (hR : 2 ≤ R) (hx : 0 < Nx)
    (hy : (NPML.2 = 0 ∧ 0 < Ny) ∨ 2 * (R + NPML.2 + 1) < Ny) : get_W Nx Ny design NPML R = .error .valueError := by
  obtain ⟨j, hj, hj0, hjN⟩ : ∃ j : ℤ, j ∈ getW_range Ny NPML.2 R ∧ 0 ≤ j ∧ j < Ny := by
    by_cases h0 : NPML.2 = 0
    · exact ⟨0, by rw [getW_range, if_pos (by omega), mem_pyRange]; omega, le_refl _, by omega⟩
    · exact ⟨R + NPML.2 + 1, by rw [getW_range, if_neg (by omega), mem_pyRange]; omega, by omega, by omega⟩
  have hmem : (((Nx : ℤ) - 1) * Ny + j, (Nx : ℤ) * Ny + j, (R : ℝ) - 1) ∈ getW_triples Nx Ny NPML R := by
    unfold getW_triples
    simp only [List.mem_flatMap]
    refine ⟨(Nx : ℤ) - 1, ?_, j, hj, 1, ?_, ?_⟩
    · rw [getW_range, if_pos (by omega), mem_pyRange]; omega
    · rw [mem_pyRange]; omega
    · have hN : (Nx : ℤ) - 1 + 1 = Nx := by ring
      rw [hN, getW_inner_fix _ _ _ _ _ _ (wrap_fix (by omega)), List.mem_flatMap]
      refine ⟨0, by rw [mem_pyRange]; omega, ?_⟩
      have hd : fdist ((Nx : ℤ) - 1) j Nx (j + 0) = 1 := by
        have := fdist_offset ((Nx : ℤ) - 1) j 1 0
        rw [hN] at this
        rw [this]; norm_num
      have hv : (0 : ℝ) < ((R : ℤ) : ℝ) - 1 := by
        have : (2 : ℝ) ≤ R := by exact_mod_cast hR
        push_cast; linarith
      rw [hd, if_pos hv, add_zero, wrap_inside hj0 hjN]
      simp
  unfold get_W csr_matrix
  rw [if_neg]
  · rfl
  · intro h
    have := (h _ hmem).2.2
    push_cast at this
    linarith

/-- A fully periodic `5 × 5` grid with `R = 2`. -/
example : get_W 5 5 (fun _ _ => 1) (0, 0) 2 = .error .valueError :=
  C07_periodic_x_raises _ _ _ rfl (le_refl _) (by norm_num) (Or.inl ⟨rfl, by norm_num⟩)

/-- **C07, negation (2).** With PML along `x`, none along `y` and `R = 2`, `get_W` succeeds but couples a design pixel `(i, Ny-1)` at the edge with `(i+2, 0)`, which is
a distance of at least 2 away along `x` alone and should have weight 0. -/
theorem C07_periodic_y_wrong (design : Grid Nx Ny ℝ) (NPML : ℕ × ℕ) (h1 : 1 ≤ NPML.1) (h2 : NPML.2 = 0)
    (i i2 : Fin Nx) (jl j0 : Fin Ny) (hi : 2 + NPML.1 + 1 ≤ (i : ℕ) ∧ (i : ℕ) + 2 + NPML.1 + 1 < Nx) (hi2 : (i2 : ℕ) = i + 2) (hjl : (jl : ℕ) + 1 = Ny) (hj0 : (j0 : ℕ) = 0)
    (hd : design i jl = 1) :
    ∃ W, get_W Nx Ny design NPML 2 = .ok W ∧ 0 < W (finProdFinEquiv (i, jl)) (finProdFinEquiv (i2, j0)) := by
  have hok : ∀ p ∈ getW_triples Nx Ny NPML 2, (0 ≤ p.1 ∧ p.1 < ((Nx * Ny : ℕ) : ℤ)) ∧ (0 ≤ p.2.1 ∧ p.2.1 < ((Nx * Ny : ℕ) : ℤ)) := by
    intro p hp
    simp only [getW_triples, List.mem_flatMap] at hp
    obtain ⟨a, ha, b, hb, d, hdd, hp⟩ := hp
    have hb' := range_bounds hb
    rw [mem_getW_range h1] at ha
    obtain ⟨a, rfl, ha⟩ := ha
    unfold InteriorAxis at ha
    rw [mem_pyRange] at hdd
    push_cast at hdd
    rw [getW_inner_fix _ _ _ _ _ _ (wrap_inside (by omega) (by omega)), List.mem_flatMap] at hp
    obtain ⟨e, _, hp⟩ := hp
    rw [fdist_offset] at hp
    by_cases hv : (0 : ℝ) < (((2 : ℕ) : ℤ) : ℝ) - Real.sqrt ((d : ℝ) ^ 2 + (e : ℝ) ^ 2)
    · rw [if_pos hv, List.mem_singleton] at hp
      have hs := cone_support ((cone_pos_iff 2 d e).2 (by push_cast at hv ⊢; linarith))
      rw [abs_lt, abs_lt] at hs
      push_cast at hs
      have hw : -1 ≤ wrap (b + e) Ny ∧ wrap (b + e) Ny ≤ Ny := by
        unfold wrap
        split_ifs <;> omega
      have hN : (1 : ℤ) ≤ Ny := by omega
      have hx1 : (1 : ℤ) ≤ a + d := by omega
      have hx2 : (a : ℤ) + d ≤ Nx - 2 := by omega
      have ha0 : (0 : ℤ) ≤ a := by omega
      have ha1 : (a : ℤ) ≤ Nx - 1 := by omega
      rw [hp]
      simp only
      push_cast
      refine ⟨⟨?_, ?_⟩, ⟨?_, ?_⟩⟩ <;> nlinarith [mul_le_mul_of_nonneg_right hx2 (show (0 : ℤ) ≤ Ny by omega), mul_le_mul_of_nonneg_right hx1 (show (0 : ℤ) ≤ Ny by omega),
        mul_le_mul_of_nonneg_right ha1 (show (0 : ℤ) ≤ Ny by omega), mul_nonneg ha0 (show (0 : ℤ) ≤ Ny by omega)]
    · rw [if_neg hv] at hp; simp at hp
  obtain ⟨W0, hW0, hdef⟩ : ∃ W0, csr_matrix (Nx * Ny) (getW_triples Nx Ny NPML 2) = .ok W0 ∧ ∀ r c, W0 r c =
      ((getW_triples Nx Ny NPML 2).map fun p => if p.1 = ((r : ℕ) : ℤ) ∧ p.2.1 = ((c : ℕ) : ℤ) then p.2.2 else 0).sum :=
    ⟨_, if_pos hok, fun _ _ => rfl⟩
  have hterm : ∀ r c : Fin (Nx * Ny), ∀ x ∈ (getW_triples Nx Ny NPML 2).map (fun p => if p.1 = ((r : ℕ) : ℤ) ∧ p.2.1 = ((c : ℕ) : ℤ) then p.2.2 else 0), (0 : ℝ) ≤ x := by
    intro r c x hx
    obtain ⟨p, hp, rfl⟩ := List.mem_map.1 hx
    split_ifs
    · exact (getW_triples_val_pos _ _ _ _ p hp).le
    · exact le_refl _
  have hnn : ∀ r c, 0 ≤ W0 r c := fun r c => by rw [hdef]; exact List.sum_nonneg (hterm r c)
  have hs2 : Real.sqrt 2 < 2 := by rw [Real.sqrt_lt' two_pos]; norm_num
  have hmem : ((i : ℤ) * Ny + jl, ((i : ℤ) + 1) * Ny + Ny, (2 : ℝ) - Real.sqrt 2) ∈ getW_triples Nx Ny NPML 2 := by
    unfold getW_triples
    simp only [List.mem_flatMap]
    refine ⟨i, mem_range_of_visited i (Or.inr hi), jl, mem_range_of_visited jl (Or.inl h2), 1, by rw [mem_pyRange]; omega, ?_⟩
    rw [getW_inner_fix _ _ _ _ _ _ (wrap_inside (by omega) (by omega)), List.mem_flatMap]
    refine ⟨1, by rw [mem_pyRange]; omega, ?_⟩
    have hj : (jl : ℤ) + 1 = Ny := by omega
    have hf : fdist i jl ((i : ℤ) + 1) ((jl : ℤ) + 1) = Real.sqrt 2 := by
      rw [fdist_offset]; norm_num
    rw [hf, if_pos (by push_cast; linarith), hj, wrap_fix (by omega)]
    simp
  have hpos : 0 < W0 (finProdFinEquiv (i, jl)) (finProdFinEquiv (i2, j0)) := by
    rw [hdef]
    refine lt_of_lt_of_le (show (0 : ℝ) < 2 - Real.sqrt 2 by linarith) (List.single_le_sum (hterm _ _) _ (List.mem_map.2 ⟨_, hmem, ?_⟩))
    refine if_pos ⟨(pair_val i jl).symm, ?_⟩
    rw [pair_val]
    have e1 : (i2 : ℤ) = i + 2 := by omega
    have e2 : (j0 : ℤ) = 0 := by omega
    simp only [e1, e2]
    ring
  refine ⟨_, by simp only [get_W, hW0]; rfl, ?_⟩
  simp only [Matrix.add_apply, spdiag, Matrix.diagonal_mul, Matrix.mul_diagonal, Matrix.diagonal_apply, flatten_pair, hd,
    EmbeddingLike.apply_eq_iff_eq, Prod.mk.injEq]
  have hne : ¬ (i = i2 ∧ jl = j0) := by
    rintro ⟨h, _⟩
    rw [h] at hi2; omega
  rw [if_neg hne, one_mul, add_zero]
  refine mul_pos hpos (one_div_pos.2 ?_)
  have hr : 0 ≤ (W0 *ᵥ fun _ => (1 : ℝ)) (finProdFinEquiv (i2, j0)) := by
    rw [mulVec, dotProduct]
    exact Finset.sum_nonneg fun c _ => mul_nonneg (hnn _ c) zero_le_one
  split_ifs with h
  · exact one_pos
  · exact lt_of_le_of_ne hr (Ne.symm h)

/-- Non-vacuity: `9 × 5` grid, `NPML = [1,0]`. -/
example : ∃ W, get_W 9 5 (fun _ _ => 1) (1, 0) 2 = .ok W ∧ 0 < W (finProdFinEquiv (4, 4)) (finProdFinEquiv (6, 0)) :=
  C07_periodic_y_wrong (Nx := 9) (Ny := 5) (fun _ _ => 1) (1, 0) (le_refl _) rfl 4 6 4 0 (by decide) rfl rfl rfl rfl

end Angler
