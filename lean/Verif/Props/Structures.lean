import Verif.Model.Structures
import Mathlib.Tactic.FieldSimp
import Mathlib.Tactic.Linarith
import Mathlib.Tactic.LinearCombination
import Mathlib.Tactic.Positivity
import Mathlib.Tactic.NormNum

/-! # C49 (painting regions), C50 (grids and symmetry) -/

namespace Angler

variable {Nx Ny : ℕ}

/-! ## C49 -/

theorem foldl_paint (regs : List Region) (xs ys : Grid Nx Ny ℝ) (a : ℝ) (start : Grid Nx Ny ℝ) (i : Fin Nx) (j : Fin Ny) :
    ((∃ r ∈ regs, r (xs i j) (ys i j)) → (regs.foldl (fun eps reg => fun i j => @ite _ (reg (xs i j) (ys i j)) (Classical.propDecidable _) a (eps i j)) start) i j = a) ∧
    ((¬ ∃ r ∈ regs, r (xs i j) (ys i j)) → (regs.foldl (fun eps reg => fun i j => @ite _ (reg (xs i j) (ys i j)) (Classical.propDecidable _) a (eps i j)) start) i j = start i j) := by
  classical
  induction regs generalizing start with
  | nil => exact ⟨fun ⟨r, hr, _⟩ => absurd hr (by simp), fun _ => rfl⟩
  | cons r regs ih =>
    rw [List.foldl_cons]
    obtain ⟨h1, h2⟩ := ih fun i j => if r (xs i j) (ys i j) then a else start i j
    by_cases hr : ∃ r' ∈ regs, r' (xs i j) (ys i j)
    · refine ⟨fun _ => h1 hr, fun hn => absurd ?_ hn⟩
      obtain ⟨r', hm, h⟩ := hr
      exact ⟨r', List.mem_cons_of_mem _ hm, h⟩
    · rw [h2 hr]
      by_cases h0 : r (xs i j) (ys i j)
      · exact ⟨fun _ => if_pos h0, fun hn => absurd ⟨r, List.mem_cons_self, h0⟩ hn⟩
      · refine ⟨fun ⟨r', hm, h⟩ => ?_, fun _ => if_neg h0⟩
        rcases List.mem_cons.1 hm with rfl | hm
        · exact absurd h h0
        · exact absurd ⟨r', hm, h⟩ hr

theorem paint_in (regs : List Region) (xs ys : Grid Nx Ny ℝ) (a b : ℝ) (i : Fin Nx) (j : Fin Ny) (h : ∃ r ∈ regs, r (xs i j) (ys i j)) : paint regs xs ys a b i j = a :=
  (foldl_paint regs xs ys a _ i j).1 h

theorem paint_out (regs : List Region) (xs ys : Grid Nx Ny ℝ) (a b : ℝ) (i : Fin Nx) (j : Fin Ny) (h : ¬ ∃ r ∈ regs, r (xs i j) (ys i j)) : paint regs xs ys a b i j = b := by
  have : paint regs xs ys a b i j = b * 1 := (foldl_paint regs xs ys a (fun _ _ => b * 1) i j).2 h
  rw [this, mul_one]

/-- **C49, painting.** On a non-empty grid `apply_regions` returns `eps_start` exactly on the union of the regions (for `eps_start ≠ eps_background`) and the background elsewhere; on an
empty grid it raises if there is a region. -/
theorem C49_union (regs : List Region) (xs ys : Grid Nx Ny ℝ) (a b : ℝ) :
    (0 < Nx → 0 < Ny → ∃ eps, apply_regions regs xs ys a b = .ok eps ∧
      ∀ i j, ((∃ r ∈ regs, r (xs i j) (ys i j)) → eps i j = a) ∧ ((∀ r ∈ regs, ¬ r (xs i j) (ys i j)) → eps i j = b) ∧ (a ≠ b → (eps i j = a ↔ ∃ r ∈ regs, r (xs i j) (ys i j)))) ∧
    (Nx = 0 ∨ Ny = 0 → regs ≠ [] → apply_regions regs xs ys a b = .error .valueError) := by
  constructor
  · intro hx hy
    refine ⟨paint regs xs ys a b, if_neg (fun h => ?_), fun i j => ⟨paint_in regs xs ys a b i j, fun h => paint_out regs xs ys a b i j ?_, fun hab => ⟨fun h => ?_, paint_in regs xs ys a b i j⟩⟩⟩
    · have := Nat.mul_pos hx hy
      omega
    · rintro ⟨r, hr, h'⟩
      exact h r hr h'
    · by_contra hn
      rw [paint_out regs xs ys a b i j hn] at h
      exact hab h.symm
  · rintro h hr
    refine if_pos ⟨hr, ?_⟩
    rcases h with rfl | rfl <;> simp

/-- **C49, order.** The result depends only on the set of regions. -/
theorem C49_order (regs regs' : List Region) (h : ∀ r, r ∈ regs ↔ r ∈ regs') (xs ys : Grid Nx Ny ℝ) (a b : ℝ) : apply_regions regs xs ys a b = apply_regions regs' xs ys a b := by
  have hnil : regs ≠ [] ↔ regs' ≠ [] := by
    rw [ne_eq, ne_eq, List.eq_nil_iff_forall_not_mem, List.eq_nil_iff_forall_not_mem]
    simp only [h]
  have hp : paint regs xs ys a b = paint regs' xs ys a b := by
    funext i j
    by_cases hr : ∃ r ∈ regs, r (xs i j) (ys i j)
    · have hr' : ∃ r ∈ regs', r (xs i j) (ys i j) := by
        obtain ⟨r, hm, h'⟩ := hr
        exact ⟨r, (h r).1 hm, h'⟩
      rw [paint_in _ _ _ _ _ _ _ hr, paint_in _ _ _ _ _ _ _ hr']
    · have hr' : ¬ ∃ r ∈ regs', r (xs i j) (ys i j) := by
        rintro ⟨r, hm, h'⟩
        exact hr ⟨r, (h r).2 hm, h'⟩
      rw [paint_out _ _ _ _ _ _ _ hr, paint_out _ _ _ _ _ _ _ hr']
  unfold apply_regions
  simp only [hnil, hp]

/-- What `build` returns. -/
theorem build_ok {Nx Ny : ℤ} {dl a b : ℝ} {regs des : List Region} {S : Structure} (h : build Nx Ny dl regs des a b = .ok S) :
    (S.Nx : ℤ) = Nx ∧ (S.Ny : ℤ) = Ny ∧
    ∀ (i : Fin S.Nx) (j : Fin S.Ny),
      ((∃ r ∈ regs, r (gridCoord S.Nx dl i) (gridCoord S.Ny dl j)) → S.eps_r i j = a) ∧ ((¬ ∃ r ∈ regs, r (gridCoord S.Nx dl i) (gridCoord S.Ny dl j)) → S.eps_r i j = b) ∧
      ((∃ r ∈ des, r (gridCoord S.Nx dl i) (gridCoord S.Ny dl j)) → S.design_region i j = 1) ∧ ((¬ ∃ r ∈ des, r (gridCoord S.Nx dl i) (gridCoord S.Ny dl j)) → S.design_region i j = 0) := by
  unfold build at h
  by_cases hneg : Nx < 0 ∨ Ny < 0
  · rw [if_pos hneg] at h; cases h
  · rw [if_neg hneg] at h
    simp only [apply_regions] at h
    by_cases h1 : regs ≠ [] ∧ Nx.toNat * Ny.toNat = 0
    · rw [if_pos h1] at h; cases h
    · rw [if_neg h1] at h
      simp only at h
      by_cases h2 : des ≠ [] ∧ Nx.toNat * Ny.toNat = 0
      · rw [if_pos h2] at h; cases h
      · rw [if_neg h2] at h
        cases h
        rw [not_or] at hneg
        refine ⟨Int.toNat_of_nonneg (by omega), Int.toNat_of_nonneg (by omega), fun i j => ⟨fun hr => paint_in _ _ _ _ _ i j hr, fun hr => paint_out _ _ _ _ _ i j hr, fun hr => ?_, fun hr => ?_⟩⟩
        · show paint des _ _ 2 1 i j - 1 = 1
          rw [paint_in _ _ _ _ _ i j hr]
          norm_num
        · show paint des _ _ 2 1 i j - 1 = 0
          rw [paint_out _ _ _ _ _ i j hr]
          norm_num

/-- The structures the library can build. -/
inductive Spec.Built : Structure → Prop
  | three (L H w d l spc dl NPML a b S) : three_port L H w d l spc dl NPML a b = .ok S → Spec.Built S
  | two (L H w l spc dl NPML a S) : two_port L H w l spc dl NPML a = .ok S → Spec.Built S
  | nport (N L H w d l spc dl NPML a b S) : N_port N L H w d l spc dl NPML a b = .ok S → Spec.Built S
  | ortho (L L2 H H2 w l dl NPML a S) : ortho_port L L2 H H2 w l dl NPML a = .ok S → Spec.Built S
  | acc (beta gap lambda0 L spc dl NPML a S) : accelerator beta gap lambda0 L spc dl NPML a = .ok S → Spec.Built S
  | multi (beta gap lambda0 L spc n dl NPML a S) : accelerator_multi beta gap lambda0 L spc n dl NPML a = .ok S → Spec.Built S

theorem ite_ok {ε α : Type} {c : Prop} [Decidable c] {e : ε} {x : Except ε α} {a : α} (h : (if c then .error e else x) = .ok a) : ¬ c ∧ x = .ok a := by
  by_cases hc : c
  · rw [if_pos hc] at h; cases h
  · rw [if_neg hc] at h; exact ⟨hc, h⟩

/-- Every structure function ends in `build`. -/
theorem Spec.Built.build {S : Structure} (h : Spec.Built S) : ∃ (Nx Ny : ℤ) (dl a b : ℝ) (regs des : List Region), Angler.build Nx Ny dl regs des a b = .ok S := by
  cases h with
  | three => exact ⟨_, _, _, _, _, _, _, (ite_ok ‹_›).2⟩
  | two => exact ⟨_, _, _, _, _, _, _, (ite_ok ‹_›).2⟩
  | nport => exact ⟨_, _, _, _, _, _, _, (ite_ok ‹_›).2⟩
  | ortho => exact ⟨_, _, _, _, _, _, _, (ite_ok ‹_›).2⟩
  | acc => exact ⟨_, _, _, _, _, _, _, (ite_ok ‹_›).2⟩
  | multi => exact ⟨_, _, _, _, _, _, _, (ite_ok (ite_ok ‹_›).2).2⟩

/-- **C49, design regions.** Every design region returned by a structure function is 0/1 valued. -/
theorem C49_design_binary {S : Structure} (h : Spec.Built S) (i : Fin S.Nx) (j : Fin S.Ny) : S.design_region i j = 0 ∨ S.design_region i j = 1 := by
  obtain ⟨Nx, Ny, dl, a, b, regs, des, hb⟩ := h.build
  obtain ⟨-, -, hS⟩ := build_ok hb
  by_cases hr : ∃ r ∈ des, r (gridCoord S.Nx dl i) (gridCoord S.Ny dl j)
  · exact Or.inr ((hS i j).2.2.1 hr)
  · exact Or.inl ((hS i j).2.2.2 hr)

/-! ## C50 -/

/-- **C50, grid.** For at least two points the coordinates are symmetric about 0 and uniformly spaced with spacing `N dl / (N-1)`. -/
theorem C50_grid_partial (N : ℕ) (hN : 2 ≤ N) (dl : ℝ) : (∀ k < N, gridCoord N dl (N - 1 - k) = -gridCoord N dl k) ∧
    ∀ k, gridCoord N dl (k + 1) - gridCoord N dl k = N * dl / ((N : ℝ) - 1) := by
  have h1 : ((N : ℝ) - 1) ≠ 0 := by
    have : (2 : ℝ) ≤ N := by exact_mod_cast hN
    linarith
  constructor
  · intro k hk
    unfold gridCoord npLinspace
    rw [if_neg (by omega), if_neg (by omega), Nat.sub_sub, Nat.cast_sub (by omega)]
    push_cast
    field_simp
    ring
  · intro k
    unfold gridCoord npLinspace
    rw [if_neg (by omega), if_neg (by omega)]
    push_cast
    field_simp
    ring

/-- **C50, negation of the spacing claim.** For a positive `dl` the spacing is never `dl`: the end points of the grid are both included. -/
theorem C50_spacing_false (N : ℕ) (hN : 2 ≤ N) (dl : ℝ) (hd : 0 < dl) (k : ℕ) : dl < gridCoord N dl (k + 1) - gridCoord N dl k := by
  rw [(C50_grid_partial N hN dl).2 k]
  have : (2 : ℝ) ≤ N := by exact_mod_cast hN
  rw [lt_div_iff₀ (by linarith)]
  nlinarith

/-- A single point is not at 0. -/
theorem C50_single_false (dl : ℝ) : gridCoord 1 dl 0 = -dl / 2 := by
  unfold gridCoord npLinspace
  rw [if_pos le_rfl]
  push_cast
  ring

/-- Mirror image in `y`. -/
def Spec.MirrorY {Nx Ny : ℕ} (g : Grid Nx Ny ℝ) : Prop := ∀ (i : Fin Nx) (j j' : Fin Ny), (j : ℕ) + j' + 1 = Ny → g i j' = g i j

theorem build_mirror {Nx Ny : ℤ} {dl a b : ℝ} {regs des : List Region} {S : Structure} (h : build Nx Ny dl regs des a b = .ok S)
    (hr : ∀ x y, (∃ r ∈ regs, r x (-y)) ↔ ∃ r ∈ regs, r x y) (hd : ∀ x y, (∃ r ∈ des, r x (-y)) ↔ ∃ r ∈ des, r x y) : Spec.MirrorY S.eps_r ∧ Spec.MirrorY S.design_region := by
  obtain ⟨-, -, hS⟩ := build_ok h
  have hy : ∀ (j j' : Fin S.Ny), (j : ℕ) + j' + 1 = S.Ny → j' = j ∨ gridCoord S.Ny dl j' = -gridCoord S.Ny dl j := by
    intro j j' hj
    by_cases hN : 2 ≤ S.Ny
    · right
      have := (C50_grid_partial S.Ny hN dl).1 j j.2
      rw [show S.Ny - 1 - (j : ℕ) = j' by omega] at this
      exact this
    · left
      apply Fin.ext
      have := j.2
      have := j'.2
      omega
  constructor
  · intro i j j' hj
    rcases hy j j' hj with rfl | he
    · rfl
    · by_cases hc : ∃ r ∈ regs, r (gridCoord S.Nx dl i) (gridCoord S.Ny dl j)
      · rw [(hS i j).1 hc, (hS i j').1 (by rw [he]; exact (hr _ _).2 hc)]
      · rw [(hS i j).2.1 hc, (hS i j').2.1 (by rw [he, hr]; exact hc)]
  · intro i j j' hj
    rcases hy j j' hj with rfl | he
    · rfl
    · by_cases hc : ∃ r ∈ des, r (gridCoord S.Nx dl i) (gridCoord S.Ny dl j)
      · rw [(hS i j).2.2.1 hc, (hS i j').2.2.1 (by rw [he]; exact (hd _ _).2 hc)]
      · rw [(hS i j).2.2.2 hc, (hS i j').2.2.2 (by rw [he, hd]; exact hc)]

/-- **C50, `two_port`.** Permittivity and design region are mirror symmetric in `y`, for all parameters for which the function returns. -/
theorem C50_two_port (L H w l spc dl : ℝ) (NPML : ℤ × ℤ) (a : ℝ) (S : Structure) (h : two_port L H w l spc dl NPML a = .ok S) : Spec.MirrorY S.eps_r ∧ Spec.MirrorY S.design_region := by
  refine build_mirror (ite_ok h).2 (fun x y => ?_) (fun x y => ?_) <;> simp

theorem pyInt_neg (x : ℝ) : pyInt (-x) = -pyInt x := by
  unfold pyInt
  rcases lt_trichotomy x 0 with h | h | h
  · rw [if_pos (by linarith), if_neg (by linarith), Int.floor_neg]
  · simp [h]
  · rw [if_neg (by linarith), if_pos h.le, Int.ceil_neg]

/-- **C50 (partial), `three_port`.** For an even number of rows, permittivity and design region are mirror symmetric in `y`.  Missing: odd numbers of rows, where it fails
(`C50_three_port_false`). -/
theorem C50_three_port_partial (L H w d l spc dl : ℝ) (NPML : ℤ × ℤ) (a b : ℝ) (S : Structure) (h : three_port L H w d l spc dl NPML a b = .ok S) (he : Even S.Ny) :
    Spec.MirrorY S.eps_r ∧ Spec.MirrorY S.design_region := by
  have hb := (ite_ok h).2
  obtain ⟨-, hNy, -⟩ := build_ok hb
  obtain ⟨m, hm⟩ := he
  have hz : ((2 * NPML.2 + pyInt ((H + 2 * spc) / dl) : ℤ) : ℝ) / 2 - (pyInt (((2 * NPML.2 + pyInt ((H + 2 * spc) / dl) : ℤ) : ℝ) / 2) : ℝ) = 0 := by
    rw [← hNy, hm]
    have : (((m + m : ℕ) : ℤ) : ℝ) / 2 = (m : ℤ) := by push_cast; ring
    rw [this]
    unfold pyInt
    rw [if_pos (by positivity), Int.floor_intCast, sub_self]
  have hmid : pyInt 0 = 0 := by
    unfold pyInt
    rw [if_pos le_rfl, Int.floor_zero]
  refine build_mirror hb (fun x y => ?_) (fun x y => ?_)
  · simp only [threePortRegions, hz, zero_sub, zero_add, pyInt_neg, hmid, List.mem_cons, List.not_mem_nil, or_false, exists_eq_or_imp, exists_eq_left, Int.cast_zero, mul_zero,
      sub_zero, abs_neg, Int.cast_neg, mul_neg, sub_neg_eq_add]
    have e1 : ∀ t : ℝ, |-y + t| = |y - t| := fun t => by rw [← abs_neg]; congr 1; ring
    have e2 : ∀ t : ℝ, |-y - t| = |y + t| := fun t => by rw [← abs_neg]; congr 1; ring
    simp only [e1, e2]
    tauto
  · simp only [threePortRegions, hz, zero_sub, zero_add, pyInt_neg, hmid, List.mem_cons, List.not_mem_nil, or_false, exists_eq_left, Int.cast_zero, mul_zero,
      sub_zero, abs_neg]

/-- `build` returns on a non-empty grid. -/
theorem build_returns (Nx Ny : ℤ) (dl a b : ℝ) (regs des : List Region) (hx : 0 < Nx) (hy : 0 < Ny) : ∃ S, build Nx Ny dl regs des a b = .ok S := by
  unfold build
  have h0 : ¬ Nx.toNat * Ny.toNat = 0 := (Nat.mul_pos (by omega) (by omega)).ne'
  rw [if_neg (by omega)]
  simp only [apply_regions, if_neg (fun h : _ ∧ _ => h0 h.2)]
  exact ⟨_, rfl⟩

theorem pyInt_ofInt (x : ℝ) (n : ℤ) (h : x = n) : pyInt x = n := by
  subst h
  unfold pyInt
  split
  · exact Int.floor_intCast n
  · exact Int.ceil_intCast n

theorem pyInt_half : pyInt ((3 : ℝ) / 2) = 1 := by
  unfold pyInt
  rw [if_pos (by norm_num), Int.floor_eq_iff]
  norm_num

/-- **C50, negation for `three_port`.** With an odd number of rows (`three_port(L=1, H=1, w=2, d=1, l=1.5, spc=1, dl=1, NPML=(0,0), eps_start=2)`, a 4×3 grid) the permittivity is not
mirror symmetric: the two output waveguides are centred at rows `0` and `+dl`. -/
theorem C50_three_port_false : ∃ S, three_port 1 1 2 1 1.5 1 1 (0, 0) 2 1 = .ok S ∧ ¬ Spec.MirrorY S.eps_r := by
  have h1 : pyInt (((2 : ℝ) * 1.5 + 1) / 1) = 4 := pyInt_ofInt _ 4 (by norm_num)
  have h2 : pyInt (((1 : ℝ) + 2 * 1) / 1) = 3 := pyInt_ofInt _ 3 (by norm_num)
  have h : three_port 1 1 2 1 1.5 1 1 (0, 0) 2 1 = build 4 3 1 (threePortRegions 1 1 2 1 1 3).2 [(threePortRegions 1 1 2 1 1 3).1] 2 1 := by
    unfold three_port
    rw [if_neg one_ne_zero]
    simp only [h1, h2, mul_zero, zero_add]
  obtain ⟨S, hS⟩ := build_returns 4 3 1 2 1 (threePortRegions 1 1 2 1 1 3).2 [(threePortRegions 1 1 2 1 1 3).1] (by norm_num) (by norm_num)
  refine ⟨S, h.trans hS, fun hm => ?_⟩
  obtain ⟨hx, hy, hval⟩ := build_ok hS
  have e3 : pyInt (((3 : ℤ) : ℝ) / 2) = 1 := by push_cast; exact pyInt_half
  have ebot : pyInt (((3 : ℤ) : ℝ) / 2 - ((1 : ℤ) : ℝ) - 1 / 2 / 1) = 0 := pyInt_ofInt _ 0 (by norm_num)
  have etop : pyInt (((3 : ℤ) : ℝ) / 2 - ((1 : ℤ) : ℝ) + 1 / 2 / 1) = 1 := pyInt_ofInt _ 1 (by norm_num)
  have emid : pyInt (((3 : ℤ) : ℝ) / 2 - ((1 : ℤ) : ℝ)) = 0 := by
    unfold pyInt
    rw [if_pos (by norm_num), Int.floor_eq_iff]
    norm_num
  have ew : pyInt ((2 : ℝ) / 1) = 2 := pyInt_ofInt _ 2 (by norm_num)
  have hregs : ∀ x y : ℝ, (∃ r ∈ (threePortRegions 1 1 2 1 1 3).2, r x y) ↔ (|x| < 1 / 2 ∧ |y| < 1 / 2) ∨ (x < 0 ∧ |y| < 1) ∨ (0 < x ∧ |y| < 1) ∨ (0 < x ∧ |y - 1| < 1) := by
    intro x y
    simp only [threePortRegions, e3, ebot, etop, emid, ew, List.mem_cons, List.not_mem_nil, or_false, exists_eq_or_imp, exists_eq_left]
    norm_num
  have hSx : S.Nx = 4 := by omega
  have hSy : S.Ny = 3 := by omega
  have hm' := hm ⟨3, by omega⟩ ⟨0, by omega⟩ ⟨2, by omega⟩ (by simp [hSy])
  have hin := (hval ⟨3, by omega⟩ ⟨2, by omega⟩).1
  have hout := (hval ⟨3, by omega⟩ ⟨0, by omega⟩).2.1
  have cx : gridCoord S.Nx 1 3 = 2 := by rw [hSx]; unfold gridCoord npLinspace; norm_num
  have cy0 : gridCoord S.Ny 1 0 = -3 / 2 := by rw [hSy]; unfold gridCoord npLinspace; norm_num
  have cy2 : gridCoord S.Ny 1 2 = 3 / 2 := by rw [hSy]; unfold gridCoord npLinspace; norm_num
  simp only [hregs, cx, cy0, cy2] at hin hout
  rw [hin (Or.inr (Or.inr (Or.inr ⟨by norm_num, by rw [abs_lt]; constructor <;> norm_num⟩))), hout ?_] at hm'
  · norm_num at hm'
  · rintro (⟨h, -⟩ | ⟨h, -⟩ | ⟨-, h⟩ | ⟨-, h⟩)
    · rw [abs_lt] at h; linarith [h.2]
    · linarith
    · rw [abs_lt] at h; linarith [h.1]
    · rw [abs_lt] at h; linarith [h.1]

/-! ### Concrete cases -/

/-- A `two_port` that returns (4 × 3). -/
example : ∃ S, two_port 1 1 2 1.5 1 1 (0, 0) 2 = .ok S ∧ S.Nx = 4 ∧ S.Ny = 3 ∧ Spec.Built S := by
  have h1 : pyInt (((2 : ℝ) * 1.5 + 1) / 1) = 4 := pyInt_ofInt _ 4 (by norm_num)
  have h2 : pyInt (((1 : ℝ) + 2 * 1) / 1) = 3 := pyInt_ofInt _ 3 (by norm_num)
  obtain ⟨S, hS⟩ := build_returns 4 3 1 2 1 [fun _ y => |y| < 2 / 2] [fun x y => |x| < 1 / 2 ∧ |y| < 1 / 2] (by norm_num) (by norm_num)
  have h : two_port 1 1 2 1.5 1 1 (0, 0) 2 = .ok S := by
    rw [← hS]
    unfold two_port
    rw [if_neg one_ne_zero]
    simp only [h1, h2, mul_zero, zero_add]
  obtain ⟨hx, hy, -⟩ := build_ok hS
  exact ⟨S, h, by omega, by omega, .two _ _ _ _ _ _ _ _ _ h⟩

/-- A `three_port` with an even number of rows (4 × 4). -/
example : ∃ S, three_port 1 2 2 1 1.5 1 1 (0, 0) 2 1 = .ok S ∧ Even S.Ny := by
  have h1 : pyInt (((2 : ℝ) * 1.5 + 1) / 1) = 4 := pyInt_ofInt _ 4 (by norm_num)
  have h2 : pyInt (((2 : ℝ) + 2 * 1) / 1) = 4 := pyInt_ofInt _ 4 (by norm_num)
  obtain ⟨S, hS⟩ := build_returns 4 4 1 2 1 (threePortRegions 1 2 2 1 1 4).2 [(threePortRegions 1 2 2 1 1 4).1] (by norm_num) (by norm_num)
  refine ⟨S, ?_, 2, ?_⟩
  · rw [← hS]
    unfold three_port
    rw [if_neg one_ne_zero]
    simp only [h1, h2, mul_zero, zero_add]
  · obtain ⟨-, hy, -⟩ := build_ok hS
    omega

/-- Two overlapping regions given in either order, with a duplicate: the lists have the same members. -/
example (r s : Region) (xs ys : Grid 3 3 ℝ) : apply_regions [r, s, r] xs ys 2 1 = apply_regions [s, r] xs ys 2 1 :=
  C49_order _ _ (fun t => by simp only [List.mem_cons, List.not_mem_nil, or_false]; tauto) _ _ _ _

end Angler
