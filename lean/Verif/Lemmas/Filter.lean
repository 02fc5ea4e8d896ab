import Verif.Model.Filter
import Verif.Lemmas.Grid
import Mathlib.Algebra.Order.BigOperators.Group.List
import Mathlib.Data.Int.Interval
import Mathlib.Tactic.Ring
import Mathlib.Tactic.Positivity

/-! # The loops of `get_W` -/

namespace Angler

open Matrix

theorem mem_pyRange {a b x : ℤ} : x ∈ pyRange a b ↔ a ≤ x ∧ x < b := by
  simp only [pyRange, List.mem_map, List.mem_range]
  constructor
  · rintro ⟨k, hk, rfl⟩; omega
  · rintro ⟨h1, h2⟩
    exact ⟨(x - a).toNat, by omega, by omega⟩

theorem nodup_pyRange (a b : ℤ) : (pyRange a b).Nodup := by
  refine List.Nodup.map (fun x y h => by simpa using h) List.nodup_range

theorem sum_pyRange {M : Type*} [AddCommMonoid M] (a b : ℤ) (f : ℤ → M) : ((pyRange a b).map f).sum = ∑ x ∈ Finset.Ico a b, f x := by
  rw [← List.sum_toFinset f (nodup_pyRange a b)]
  congr 1
  ext x
  simp [mem_pyRange]

theorem sum_flatMap_map {α β : Type*} (l : List α) (g : α → List β) (f : β → ℝ) :
    ((l.flatMap g).map f).sum = (l.map fun x => ((g x).map f).sum).sum := by
  induction l with
  | nil => simp
  | cons a l ih => simp [ih]

theorem wrap_inside {i N : ℤ} (h0 : 0 ≤ i) (h1 : i < N) : wrap i N = i := by
  simp only [wrap, if_neg (not_le.2 h1), if_neg (not_lt.2 h0)]; ring

theorem wrap_fix {N : ℤ} (h : 0 < N) : wrap N N = N := by
  simp only [wrap, if_pos (le_refl N), if_neg (not_lt.2 h.le)]; ring

open Classical in
/-- When `i2` is fixed by `wrap` the innermost loop is a plain loop over the column offsets. -/
theorem getW_inner_fix (Nx Ny R i1 j1 i2 : ℤ) (h : wrap i2 Nx = i2) (l : List ℤ) :
    getW_inner Nx Ny R i1 j1 i2 l = l.flatMap fun jd =>
      if 0 < (R : ℝ) - fdist i1 j1 i2 (j1 + jd) then [(i1 * Ny + j1, i2 * Ny + wrap (j1 + jd) Ny, (R : ℝ) - fdist i1 j1 i2 (j1 + jd))] else [] := by
  induction l with
  | nil => rfl
  | cons a l ih =>
    simp only [getW_inner, List.flatMap_cons, h, ih]

theorem getW_inner_val_pos (Nx Ny R i1 j1 : ℤ) (l : List ℤ) : ∀ i2, ∀ p ∈ getW_inner Nx Ny R i1 j1 i2 l, 0 < p.2.2 := by
  induction l with
  | nil => intro i2 p hp; simp [getW_inner] at hp
  | cons a l ih =>
    intro i2 p hp
    simp only [getW_inner, List.mem_append] at hp
    rcases hp with hp | hp
    · split_ifs at hp with hv
      · rw [List.mem_singleton] at hp; rw [hp]; exact hv
      · simp at hp
    · exact ih _ p hp

theorem getW_triples_val_pos (Nx Ny : ℕ) (NPML : ℕ × ℕ) (R : ℕ) : ∀ p ∈ getW_triples Nx Ny NPML R, 0 < p.2.2 := by
  intro p hp
  simp only [getW_triples, List.mem_flatMap] at hp
  obtain ⟨i1, _, j1, _, d, _, hp⟩ := hp
  exact getW_inner_val_pos _ _ _ _ _ _ _ p hp

/-- The pixels visited by `get_W` along an axis with a PML. -/
def InteriorAxis (N P R i : ℕ) : Prop := R + P + 1 ≤ i ∧ i + R + P + 1 < N

instance (N P R i : ℕ) : Decidable (InteriorAxis N P R i) := by unfold InteriorAxis; infer_instance

theorem mem_getW_range {N P R : ℕ} (hP : 1 ≤ P) {x : ℤ} : x ∈ getW_range N P R ↔ ∃ i : ℕ, x = i ∧ InteriorAxis N P R i := by
  rw [getW_range, if_neg (by omega), mem_pyRange]
  constructor
  · intro h
    exact ⟨x.toNat, by omega, by unfold InteriorAxis; omega⟩
  · rintro ⟨i, rfl, h⟩
    unfold InteriorAxis at h
    omega

open Classical in
/-- The cone kernel of the filter: `R - distance` where positive. -/
noncomputable def Spec.cone (R : ℕ) (di dj : ℤ) : ℝ := if Real.sqrt ((di : ℝ) ^ 2 + (dj : ℝ) ^ 2) < R then R - Real.sqrt ((di : ℝ) ^ 2 + (dj : ℝ) ^ 2) else 0

theorem cone_nonneg (R : ℕ) (di dj : ℤ) : 0 ≤ Spec.cone R di dj := by
  unfold Spec.cone
  split_ifs with h
  · linarith
  · exact le_refl _

theorem cone_pos_iff (R : ℕ) (di dj : ℤ) : 0 < Spec.cone R di dj ↔ Real.sqrt ((di : ℝ) ^ 2 + (dj : ℝ) ^ 2) < R := by
  unfold Spec.cone
  split_ifs with h
  · exact ⟨fun _ => h, fun _ => by linarith⟩
  · exact ⟨fun h' => absurd h' (lt_irrefl _), fun h' => absurd h' h⟩

theorem cone_neg (R : ℕ) (di dj : ℤ) : Spec.cone R (-di) (-dj) = Spec.cone R di dj := by
  simp [Spec.cone]

/-- The kernel vanishes for offsets of at least `R` along an axis. -/
theorem cone_support {R : ℕ} {di dj : ℤ} (h : 0 < Spec.cone R di dj) : |di| < R ∧ |dj| < R := by
  rw [cone_pos_iff] at h
  have h1 : |(di : ℝ)| < R := lt_of_le_of_lt (by rw [← Real.sqrt_sq_eq_abs]; exact Real.sqrt_le_sqrt (by nlinarith [sq_nonneg (dj : ℝ)])) h
  have h2 : |(dj : ℝ)| < R := lt_of_le_of_lt (by rw [← Real.sqrt_sq_eq_abs]; exact Real.sqrt_le_sqrt (by nlinarith [sq_nonneg (di : ℝ)])) h
  constructor
  · exact_mod_cast h1
  · exact_mod_cast h2

theorem fdist_offset (i j a b : ℤ) : fdist i j (i + a) (j + b) = Real.sqrt ((a : ℝ) ^ 2 + (b : ℝ) ^ 2) := by
  unfold fdist
  congr 1
  push_cast
  ring

/-- Position of a pixel in the flattened order, over the integers. -/
theorem pair_index_int {Ny : ℕ} {i i' j j' : ℤ} (hj : 0 ≤ j ∧ j < Ny) (hj' : 0 ≤ j' ∧ j' < Ny) :
    i * Ny + j = i' * Ny + j' ↔ i = i' ∧ j = j' := by
  constructor
  · intro h
    have hN : (0 : ℤ) < Ny := by omega
    have e1 : (i * Ny + j) / Ny = i := by
      rw [Int.add_comm, Int.add_mul_ediv_right _ _ hN.ne', Int.ediv_eq_zero_of_lt hj.1 hj.2, zero_add]
    have e2 : (i' * Ny + j') / Ny = i' := by
      rw [Int.add_comm, Int.add_mul_ediv_right _ _ hN.ne', Int.ediv_eq_zero_of_lt hj'.1 hj'.2, zero_add]
    have hi : i = i' := by rw [← e1, ← e2, h]
    refine ⟨hi, ?_⟩
    rw [hi] at h
    linarith
  · rintro ⟨rfl, rfl⟩; rfl

theorem pair_val {Nx Ny : ℕ} (i : Fin Nx) (j : Fin Ny) : (((finProdFinEquiv (i, j) : Fin (Nx * Ny)) : ℕ) : ℤ) = (i : ℤ) * Ny + j := by
  simp [finProdFinEquiv, mul_comm, add_comm]

section interior
variable {Nx Ny : ℕ} {NPML : ℕ × ℕ} {R : ℕ}

open Classical in
/-- The triples with PML on both axes. -/
theorem getW_triples_interior (h1 : 1 ≤ NPML.1) (_h2 : 1 ≤ NPML.2) :
    getW_triples Nx Ny NPML R =
      (getW_range Nx NPML.1 R).flatMap fun (i1 : ℤ) => (getW_range Ny NPML.2 R).flatMap fun (j1 : ℤ) =>
        (pyRange (-(R : ℤ)) (R + 1)).flatMap fun (di : ℤ) => (pyRange (-(R : ℤ)) (R + 1)).flatMap fun (dj : ℤ) =>
          if 0 < Spec.cone R di dj then [(i1 * Ny + j1, (i1 + di) * Ny + wrap (j1 + dj) Ny, Spec.cone R di dj)] else [] := by
  unfold getW_triples
  refine List.flatMap_congr fun i1 hi => ?_
  refine List.flatMap_congr fun j1 hj => ?_
  refine List.flatMap_congr fun di hdi => ?_
  rw [mem_getW_range h1] at hi
  obtain ⟨i, rfl, hi⟩ := hi
  rw [mem_pyRange] at hdi
  unfold InteriorAxis at hi
  rw [getW_inner_fix _ _ _ _ _ _ (wrap_inside (by omega) (by omega))]
  refine List.flatMap_congr fun dj hdj => ?_
  rw [fdist_offset]
  by_cases hc : 0 < Spec.cone R di dj
  · have hlt := (cone_pos_iff R di dj).1 hc
    rw [if_pos hc, if_pos (by push_cast; linarith)]
    simp only [Spec.cone, if_pos hlt]
    push_cast
    rfl
  · have hlt : ¬ _ := fun h => hc ((cone_pos_iff R di dj).2 h)
    rw [if_neg hc, if_neg (by push_cast; intro h; exact hlt (by linarith))]

theorem csr_interior_ok (h1 : 1 ≤ NPML.1) (h2 : 1 ≤ NPML.2) :
    ∀ p ∈ getW_triples Nx Ny NPML R, (0 ≤ p.1 ∧ p.1 < ((Nx * Ny : ℕ) : ℤ)) ∧ (0 ≤ p.2.1 ∧ p.2.1 < ((Nx * Ny : ℕ) : ℤ)) := by
  intro p hp
  rw [getW_triples_interior h1 h2] at hp
  simp only [List.mem_flatMap] at hp
  obtain ⟨i1, hi, j1, hj, di, hdi, dj, hdj, hp⟩ := hp
  rw [mem_getW_range h1] at hi
  rw [mem_getW_range h2] at hj
  obtain ⟨i, rfl, hi⟩ := hi
  obtain ⟨j, rfl, hj⟩ := hj
  rw [mem_pyRange] at hdi hdj
  unfold InteriorAxis at hi hj
  have key : ∀ a b : ℤ, 0 ≤ a → a < Nx → 0 ≤ b → b < Ny → 0 ≤ a * Ny + b ∧ a * Ny + b < ((Nx * Ny : ℕ) : ℤ) := by
    intro a b ha ha' hb hb'
    constructor
    · positivity
    · push_cast
      nlinarith
  split_ifs at hp with hc
  · rw [List.mem_singleton] at hp
    rw [hp]
    rw [wrap_inside (by omega) (by omega)]
    exact ⟨key _ _ (by omega) (by omega) (by omega) (by omega), key _ _ (by omega) (by omega) (by omega) (by omega)⟩
  · simp at hp

/-- The entries of the unnormalised weight matrix. -/
theorem csr_interior_entry (h1 : 1 ≤ NPML.1) (h2 : 1 ≤ NPML.2) :
    ∃ W, csr_matrix (Nx * Ny) (getW_triples Nx Ny NPML R) = .ok W ∧
      ∀ (i i' : Fin Nx) (j j' : Fin Ny), W (finProdFinEquiv (i, j)) (finProdFinEquiv (i', j')) =
        if InteriorAxis Nx NPML.1 R i ∧ InteriorAxis Ny NPML.2 R j then Spec.cone R ((i' : ℤ) - i) ((j' : ℤ) - j) else 0 := by
  refine ⟨_, if_pos (csr_interior_ok h1 h2), ?_⟩
  intro i i' j j'
  rw [getW_triples_interior h1 h2]
  simp only [sum_flatMap_map]
  have hrange : ∀ (N P : ℕ), 1 ≤ P → getW_range N P R = pyRange (R + P + 1) (N - R - 1 - P) := fun N P hP => by
    rw [getW_range, if_neg (by omega)]
  rw [hrange _ _ h1, hrange _ _ h2]
  simp only [sum_pyRange, pair_val]
  -- simplify the innermost summand under the range conditions
  have inner : ∀ i1 ∈ Finset.Ico ((R : ℤ) + NPML.1 + 1) (Nx - R - 1 - NPML.1), ∀ j1 ∈ Finset.Ico ((R : ℤ) + NPML.2 + 1) (Ny - R - 1 - NPML.2),
      ∀ di ∈ Finset.Ico (-(R : ℤ)) (R + 1), ∀ dj ∈ Finset.Ico (-(R : ℤ)) (R + 1),
      ((if 0 < Spec.cone R di dj then [(i1 * (Ny : ℤ) + j1, (i1 + di) * (Ny : ℤ) + wrap (j1 + dj) Ny, Spec.cone R di dj)] else []).map
        fun p => if p.1 = (i : ℤ) * Ny + j ∧ p.2.1 = (i' : ℤ) * Ny + j' then p.2.2 else 0).sum =
      if dj = (j' : ℤ) - j then (if di = (i' : ℤ) - i then (if j1 = j then (if i1 = i then Spec.cone R di dj else 0) else 0) else 0) else 0 := by
    intro i1 hi1 j1 hj1 di hdi dj hdj
    rw [Finset.mem_Ico] at hi1 hj1 hdi hdj
    have hj : (j : ℤ) < Ny := by have := j.2; omega
    have hj' : (j' : ℤ) < Ny := by have := j'.2; omega
    rw [wrap_inside (by omega) (by omega)]
    by_cases hc : 0 < Spec.cone R di dj
    · simp only [if_pos hc, List.map_cons, List.map_nil, List.sum_cons, List.sum_nil, add_zero]
      have q1 := pair_index_int (Ny := Ny) (i := i1) (i' := i) (j := j1) (j' := j) ⟨by omega, by omega⟩ ⟨by omega, hj⟩
      have q2 := pair_index_int (Ny := Ny) (i := i1 + di) (i' := i') (j := j1 + dj) (j' := j') ⟨by omega, by omega⟩ ⟨by omega, hj'⟩
      simp only [q1, q2]
      by_cases a : i1 = i <;> by_cases b : j1 = j
      · subst a b
        by_cases c : di = (i' : ℤ) - i <;> by_cases d : dj = (j' : ℤ) - j
        · rw [if_pos ⟨⟨rfl, rfl⟩, by omega, by omega⟩]; simp [c, d]
        · rw [if_neg (by omega)]; simp [d]
        · rw [if_neg (by omega)]; simp [c]
        · rw [if_neg (by omega)]; simp [c]
      · rw [if_neg (by omega)]; simp [b]
      · rw [if_neg (by omega)]; simp [a]
      · rw [if_neg (by omega)]; simp [a]
    · have h0 : Spec.cone R di dj = 0 := le_antisymm (not_lt.1 hc) (cone_nonneg _ _ _)
      simp [h0]
  rw [Finset.sum_congr rfl fun i1 hi1 => Finset.sum_congr rfl fun j1 hj1 => Finset.sum_congr rfl fun di hdi => Finset.sum_congr rfl fun dj hdj =>
    inner i1 hi1 j1 hj1 di hdi dj hdj]
  simp only [Finset.sum_ite_eq', Finset.mem_Ico]
  have cone0 : ¬ ((-(R : ℤ) ≤ (j' : ℤ) - j ∧ (j' : ℤ) - j < R + 1) ∧ (-(R : ℤ) ≤ (i' : ℤ) - i ∧ (i' : ℤ) - i < R + 1)) →
      Spec.cone R ((i' : ℤ) - i) ((j' : ℤ) - j) = 0 := by
    intro h
    by_contra hne
    have hp := cone_support (lt_of_le_of_ne (cone_nonneg _ _ _) (Ne.symm hne))
    rw [abs_lt, abs_lt] at hp
    omega
  by_cases hs : ((-(R : ℤ) ≤ (j' : ℤ) - j ∧ (j' : ℤ) - j < R + 1) ∧ (-(R : ℤ) ≤ (i' : ℤ) - i ∧ (i' : ℤ) - i < R + 1))
  · simp only [if_pos hs.1, if_pos hs.2, Finset.sum_ite_eq', Finset.mem_Ico]
    by_cases hint : InteriorAxis Nx NPML.1 R i ∧ InteriorAxis Ny NPML.2 R j
    · rw [if_pos hint]
      unfold InteriorAxis at hint
      have a : (R : ℤ) + NPML.2 + 1 ≤ (j : ℤ) ∧ (j : ℤ) < Ny - R - 1 - NPML.2 := by omega
      have b : (R : ℤ) + NPML.1 + 1 ≤ (i : ℤ) ∧ (i : ℤ) < Nx - R - 1 - NPML.1 := by omega
      simp only [if_pos a, Finset.sum_ite_eq', Finset.mem_Ico, if_pos b]
    · rw [if_neg hint]
      unfold InteriorAxis at hint
      by_cases a : (R : ℤ) + NPML.2 + 1 ≤ (j : ℤ) ∧ (j : ℤ) < Ny - R - 1 - NPML.2
      · have b : ¬ ((R : ℤ) + NPML.1 + 1 ≤ (i : ℤ) ∧ (i : ℤ) < Nx - R - 1 - NPML.1) := by omega
        simp only [if_pos a, Finset.sum_ite_eq', Finset.mem_Ico, if_neg b]
      · simp only [if_neg a, Finset.sum_const_zero]
  · rw [cone0 hs, ite_self]
    refine Finset.sum_eq_zero fun i1 _ => Finset.sum_eq_zero fun j1 _ => ?_
    by_cases hs1 : (-(R : ℤ) ≤ (j' : ℤ) - j ∧ (j' : ℤ) - j < R + 1)
    · have hs2 : ¬ (-(R : ℤ) ≤ (i' : ℤ) - i ∧ (i' : ℤ) - i < R + 1) := fun h => hs ⟨hs1, h⟩
      simp only [if_pos hs1, Finset.sum_ite_eq', Finset.mem_Ico, if_neg hs2]
    · simp only [if_neg hs1, Finset.sum_const_zero]

/-- Shifting a sum over an axis to a sum over offsets, for a function supported within `R` of a pixel that is at least `R` away from both ends. -/
theorem sum_axis_offsets {N R : ℕ} (i : Fin N) (h1 : R ≤ (i : ℕ)) (h2 : (i : ℕ) + R < N) (g : ℤ → ℝ) (hg : ∀ d, (d < -(R : ℤ) ∨ (R : ℤ) < d) → g d = 0) :
    ∑ i' : Fin N, g ((i' : ℤ) - i) = ∑ d ∈ Finset.Ico (-(R : ℤ)) (R + 1), g d := by
  rw [Fin.sum_univ_eq_sum_range (fun k => g ((k : ℤ) - i)) N]
  have hsub : Finset.Ico ((i : ℕ) - R) ((i : ℕ) + R + 1) ⊆ Finset.range N := by
    intro k hk
    rw [Finset.mem_Ico] at hk
    rw [Finset.mem_range]; omega
  rw [← Finset.sum_subset hsub]
  · refine Finset.sum_nbij' (fun k => (k : ℤ) - i) (fun d => (d + i).toNat) ?_ ?_ ?_ ?_ ?_
    · intro k hk
      rw [Finset.mem_Ico] at hk ⊢
      omega
    · intro d hd
      rw [Finset.mem_Ico] at hd ⊢
      omega
    · intro k hk
      show ((k : ℤ) - i + i).toNat = k
      omega
    · intro d hd
      rw [Finset.mem_Ico] at hd
      show (((d + i).toNat : ℕ) : ℤ) - i = d
      omega
    · intro k _; rfl
  · intro k _ hk
    rw [Finset.mem_Ico] at hk
    exact hg _ (by omega)

/-- The total weight of the kernel. -/
noncomputable def Spec.coneSum (R : ℕ) : ℝ := ∑ di ∈ Finset.Ico (-(R : ℤ)) (R + 1), ∑ dj ∈ Finset.Ico (-(R : ℤ)) (R + 1), Spec.cone R di dj

theorem cone_eq_zero_of {R : ℕ} {di dj : ℤ} (h : (di < -(R : ℤ) ∨ (R : ℤ) < di) ∨ (dj < -(R : ℤ) ∨ (R : ℤ) < dj)) : Spec.cone R di dj = 0 := by
  by_contra hne
  have hp := cone_support (lt_of_le_of_ne (cone_nonneg _ _ _) (Ne.symm hne))
  rw [abs_lt, abs_lt] at hp
  omega

theorem coneSum_pos {R : ℕ} (hR : 1 ≤ R) : 0 < Spec.coneSum R := by
  have h0 : 0 < Spec.cone R 0 0 := by
    rw [cone_pos_iff]; simp; exact hR
  refine lt_of_lt_of_le h0 ?_
  have m : (0 : ℤ) ∈ Finset.Ico (-(R : ℤ)) (R + 1) := by rw [Finset.mem_Ico]; omega
  refine le_trans ?_ (Finset.single_le_sum (f := fun di => ∑ dj ∈ Finset.Ico (-(R : ℤ)) (R + 1), Spec.cone R di dj)
    (fun di _ => Finset.sum_nonneg fun dj _ => cone_nonneg _ _ _) m)
  exact Finset.single_le_sum (f := fun dj => Spec.cone R 0 dj) (fun dj _ => cone_nonneg _ _ _) m

theorem sum_cone_grid (R : ℕ) (i : Fin Nx) (j : Fin Ny) (h1 : R ≤ (i : ℕ)) (h2 : (i : ℕ) + R < Nx) (h3 : R ≤ (j : ℕ)) (h4 : (j : ℕ) + R < Ny) :
    ∑ i' : Fin Nx, ∑ j' : Fin Ny, Spec.cone R ((i' : ℤ) - i) ((j' : ℤ) - j) = Spec.coneSum R := by
  rw [sum_axis_offsets i h1 h2 (fun di => ∑ j' : Fin Ny, Spec.cone R di ((j' : ℤ) - j))]
  · refine Finset.sum_congr rfl fun di _ => ?_
    rw [sum_axis_offsets j h3 h4 (fun dj => Spec.cone R di dj)]
    intro d hd
    exact cone_eq_zero_of (Or.inr hd)
  · intro d hd
    exact Finset.sum_eq_zero fun j' _ => cone_eq_zero_of (Or.inl hd)

/-- Both coordinates of a pixel are visited by `get_W`. -/
def Interior (Nx Ny : ℕ) (NPML : ℕ × ℕ) (R : ℕ) (i j : ℕ) : Prop := InteriorAxis Nx NPML.1 R i ∧ InteriorAxis Ny NPML.2 R j

instance (Nx Ny : ℕ) (NPML : ℕ × ℕ) (R i j : ℕ) : Decidable (Interior Nx Ny NPML R i j) := by unfold Interior; infer_instance

/-- Closed form of `get_W` with PML on both axes. -/
theorem get_W_interior (design : Grid Nx Ny ℝ) (h1 : 1 ≤ NPML.1) (h2 : 1 ≤ NPML.2) (hR : 1 ≤ R) :
    ∃ W, get_W Nx Ny design NPML R = .ok W ∧ ∀ (i i' : Fin Nx) (j j' : Fin Ny), W (finProdFinEquiv (i, j)) (finProdFinEquiv (i', j')) =
      design i j * ((if Interior Nx Ny NPML R i j then Spec.cone R ((i' : ℤ) - i) ((j' : ℤ) - j) else 0) /
        (if Interior Nx Ny NPML R i' j' then Spec.coneSum R else 1)) + (if i = i' ∧ j = j' then 1 - design i j else 0) := by
  obtain ⟨W0, hW0, hent⟩ := csr_interior_entry (Nx := Nx) (Ny := Ny) (NPML := NPML) (R := R) h1 h2
  have hent' : ∀ (i i' : Fin Nx) (j j' : Fin Ny), W0 (finProdFinEquiv (i, j)) (finProdFinEquiv (i', j')) =
      if Interior Nx Ny NPML R i j then Spec.cone R ((i' : ℤ) - i) ((j' : ℤ) - j) else 0 := by
    intro i i' j j'
    rw [hent]
    by_cases h : Interior Nx Ny NPML R i j
    · rw [if_pos h, if_pos (show _ ∧ _ from h)]
    · rw [if_neg h, if_neg (show ¬ (_ ∧ _) from h)]
  have hrow : ∀ (i : Fin Nx) (j : Fin Ny), (W0 *ᵥ fun _ => (1 : ℝ)) (finProdFinEquiv (i, j)) = if Interior Nx Ny NPML R i j then Spec.coneSum R else 0 := by
    intro i j
    rw [mulVec, dotProduct, sum_flat]
    simp only [hent', mul_one]
    by_cases hi : Interior Nx Ny NPML R i j
    · simp only [if_pos hi]
      unfold Interior InteriorAxis at hi
      exact sum_cone_grid R i j (by omega) (by omega) (by omega) (by omega)
    · simp [if_neg hi]
  refine ⟨_, by simp only [get_W, hW0]; rfl, ?_⟩
  intro i i' j j'
  simp only [Matrix.add_apply, spdiag, Matrix.diagonal_mul, Matrix.mul_diagonal, Matrix.diagonal_apply, flatten_pair, hent', hrow,
    EmbeddingLike.apply_eq_iff_eq, Prod.mk.injEq]
  congr 2
  by_cases hi' : Interior Nx Ny NPML R i' j'
  · simp only [if_pos hi', if_neg (coneSum_pos hR).ne', mul_one_div]
  · simp only [if_neg hi', if_true, mul_one_div]

end interior

end Angler
