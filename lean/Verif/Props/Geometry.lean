import Verif.Props.Structures
import Verif.Lemmas.Device
import Verif.Props.Accelerator

/-! # C117: the geometry of the structure functions -/

namespace Angler

/-- Mirror image in `x`. -/
def Spec.MirrorX {Nx Ny : ℕ} (g : Grid Nx Ny ℝ) : Prop := ∀ (i i' : Fin Nx) (j : Fin Ny), (i : ℕ) + i' + 1 = Nx → g i' j = g i j

/-- Nothing changes along `x`. -/
def Spec.Straight {Nx Ny : ℕ} (g : Grid Nx Ny ℝ) : Prop := ∀ i i' j, g i' j = g i j

/-- Nothing changes along `y`. -/
def Spec.Upright {Nx Ny : ℕ} (g : Grid Nx Ny ℝ) : Prop := ∀ i j j', g i j' = g i j

theorem gridCoord_mirror (N : ℕ) (dl : ℝ) (i i' : Fin N) (h : (i : ℕ) + i' + 1 = N) : i' = i ∨ gridCoord N dl i' = -gridCoord N dl i := by
  by_cases hN : 2 ≤ N
  · right
    have := (C50_grid_partial N hN dl).1 i i.2
    rw [show N - 1 - (i : ℕ) = i' by omega] at this
    exact this
  · left
    apply Fin.ext
    have := i.2
    have := i'.2
    omega

/-- The values of a structure at two pixels that lie in the same regions. -/
theorem build_same {Nx Ny : ℤ} {dl a b : ℝ} {regs des : List Region} {S : Structure} (h : build Nx Ny dl regs des a b = .ok S) (i i' : Fin S.Nx) (j j' : Fin S.Ny) :
    (((∃ r ∈ regs, r (gridCoord S.Nx dl i') (gridCoord S.Ny dl j')) ↔ ∃ r ∈ regs, r (gridCoord S.Nx dl i) (gridCoord S.Ny dl j)) → S.eps_r i' j' = S.eps_r i j) ∧
    (((∃ r ∈ des, r (gridCoord S.Nx dl i') (gridCoord S.Ny dl j')) ↔ ∃ r ∈ des, r (gridCoord S.Nx dl i) (gridCoord S.Ny dl j)) → S.design_region i' j' = S.design_region i j) := by
  obtain ⟨-, -, hS⟩ := build_ok h
  obtain ⟨a1, a2, a3, a4⟩ := hS i j
  obtain ⟨b1, b2, b3, b4⟩ := hS i' j'
  constructor
  · intro hr
    by_cases hc : ∃ r ∈ regs, r (gridCoord S.Nx dl i) (gridCoord S.Ny dl j)
    · rw [a1 hc, b1 (hr.2 hc)]
    · rw [a2 hc, b2 fun h => hc (hr.1 h)]
  · intro hr
    by_cases hc : ∃ r ∈ des, r (gridCoord S.Nx dl i) (gridCoord S.Ny dl j)
    · rw [a3 hc, b3 (hr.2 hc)]
    · rw [a4 hc, b4 fun h => hc (hr.1 h)]

/-- **C117, `two_port`.** The permittivity is that of a straight waveguide, and the design region is mirror symmetric in `x`. -/
theorem C117_two_port (L H w l spc dl : ℝ) (NPML : ℤ × ℤ) (a : ℝ) (S : Structure) (h : two_port L H w l spc dl NPML a = .ok S) : Spec.Straight S.eps_r ∧ Spec.MirrorX S.design_region := by
  have hb := (ite_ok h).2
  refine ⟨fun i i' j => (build_same hb i i' j j).1 ?_, fun i i' j hi => ?_⟩
  · simp
  · rcases gridCoord_mirror S.Nx dl i i' hi with rfl | he
    · rfl
    · refine (build_same hb i i' j j).2 ?_
      rw [he]
      simp

/-- **C117, `accelerator_multi`.** The structure is uniform along the beam, symmetric about its axis, and the material fills exactly the design region. -/
theorem C117_multi (beta gap lambda0 L spc dl : ℝ) (n : ℤ) (NPML : ℤ × ℤ) (a : ℝ) (S : Structure) (h : accelerator_multi beta gap lambda0 L spc n dl NPML a = .ok S) :
    Spec.Upright S.eps_r ∧ Spec.Upright S.design_region ∧ Spec.MirrorX S.eps_r ∧ Spec.MirrorX S.design_region ∧
    ∀ i j, (S.design_region i j = 1 ∧ S.eps_r i j = a) ∨ (S.design_region i j = 0 ∧ S.eps_r i j = 1) := by
  have hb := (ite_ok (ite_ok h).2).2
  refine ⟨fun i j j' => (build_same hb i i j j').1 ?_, fun i j j' => (build_same hb i i j j').2 ?_, fun i i' j hi => ?_, fun i i' j hi => ?_, fun i j => ?_⟩
  · simp
  · simp
  · rcases gridCoord_mirror S.Nx dl i i' hi with rfl | he
    · rfl
    · refine (build_same hb i i' j j).1 ?_
      rw [he]
      simp only [List.mem_map, exists_exists_and_eq_and, abs_neg]
  · rcases gridCoord_mirror S.Nx dl i i' hi with rfl | he
    · rfl
    · refine (build_same hb i i' j j).2 ?_
      rw [he]
      simp only [List.mem_map, exists_exists_and_eq_and, abs_neg]
  · obtain ⟨-, -, hS⟩ := build_ok hb
    obtain ⟨a1, a2, a3, a4⟩ := hS i j
    by_cases hc : ∃ r ∈ (List.range (n / 2 + 1).toNat).map (fun i : ℕ => (fun x _ => gap / 2 < |x| - (i : ℝ) * (gap + L) ∧ |x| - (i : ℝ) * (gap + L) < gap / 2 + L : Region)), r (gridCoord S.Nx dl i) (gridCoord S.Ny dl j)
    · exact Or.inl ⟨a3 hc, a1 hc⟩
    · exact Or.inr ⟨a4 hc, a2 hc⟩

/-- **C117, one channel.** `accelerator_multi` with one channel is `accelerator`. -/
theorem C117_one (beta gap lambda0 L spc dl : ℝ) (NPML : ℤ × ℤ) (a : ℝ) : accelerator_multi beta gap lambda0 L spc 1 dl NPML a = accelerator beta gap lambda0 L spc dl NPML a := by
  have e : ((List.range ((1 : ℤ) / 2 + 1).toNat).map fun i : ℕ => (fun x _ => gap / 2 < |x| - (i : ℝ) * (gap + L) ∧ |x| - (i : ℝ) * (gap + L) < gap / 2 + L : Region)) =
      [fun x _ => gap / 2 < |x| ∧ |x| < gap / 2 + L] := by
    have : ((1 : ℤ) / 2 + 1).toNat = 1 := by norm_num
    rw [this]
    simp
  unfold accelerator_multi accelerator
  rw [if_neg (by norm_num)]
  simp only [e, Int.cast_one, mul_one]

/-- Which points are in no slab: those in a channel and those outside. -/
theorem slab_iff (gap L : ℝ) (hg : 0 < gap) (hL : 0 < L) (m : ℤ) (x : ℝ) :
    (¬ ∃ i ∈ List.range (m + 1).toNat, gap / 2 < |x| - (i : ℝ) * (gap + L) ∧ |x| - (i : ℝ) * (gap + L) < gap / 2 + L) ↔
      (∃ k : ℤ, |k| ≤ m ∧ |x - k * (gap + L)| ≤ gap / 2) ∨ gap / 2 + L + m * (gap + L) ≤ |x| := by
  have hP : 0 < gap + L := by linarith
  constructor
  · intro h
    by_contra hc
    rw [not_or, not_le] at hc
    obtain ⟨hc1, hc2⟩ := hc
    set k := ⌊(|x| + gap / 2) / (gap + L)⌋ with hk
    have k1 : (k : ℝ) * (gap + L) ≤ |x| + gap / 2 := by
      have := Int.floor_le ((|x| + gap / 2) / (gap + L))
      rw [← hk, le_div_iff₀ hP] at this
      exact this
    have k2 : |x| + gap / 2 < ((k : ℝ) + 1) * (gap + L) := by
      have := Int.lt_floor_add_one ((|x| + gap / 2) / (gap + L))
      rw [← hk, div_lt_iff₀ hP] at this
      exact this
    have k3 : 0 ≤ k := Int.floor_nonneg.2 (by positivity)
    have k4 : k < m + 1 := by
      have : (k : ℝ) * (gap + L) < ((m : ℝ) + 1) * (gap + L) := by linarith
      have := lt_of_mul_lt_mul_right this hP.le
      exact_mod_cast this
    have hkr : ((k.toNat : ℕ) : ℝ) = (k : ℝ) := by
      have : ((k.toNat : ℕ) : ℤ) = k := Int.toNat_of_nonneg k3
      exact_mod_cast congrArg (Int.cast : ℤ → ℝ) this
    have k5 : |x| - (k : ℝ) * (gap + L) ≤ gap / 2 := by
      by_contra hlt
      rw [not_le] at hlt
      refine h ⟨k.toNat, List.mem_range.2 (by omega), ?_⟩
      rw [hkr]
      exact ⟨hlt, by linarith⟩
    have k6 : |(|x| - (k : ℝ) * (gap + L))| ≤ gap / 2 := abs_le.2 ⟨by linarith, k5⟩
    rcases le_total 0 x with hx | hx
    · rw [abs_of_nonneg hx] at k6
      exact hc1 ⟨k, by rw [abs_of_nonneg k3]; omega, k6⟩
    · rw [abs_of_nonpos hx] at k6
      refine hc1 ⟨-k, by rw [abs_neg, abs_of_nonneg k3]; omega, ?_⟩
      rw [← abs_neg]
      push_cast
      rw [show -(x - -(k : ℝ) * (gap + L)) = -x - k * (gap + L) by ring]
      exact k6
  · rintro h ⟨i, hi, h1, h2⟩
    rw [List.mem_range] at hi
    have him : (i : ℤ) ≤ m := by omega
    rcases h with ⟨k, -, hk⟩ | h
    · have h3 : |(|x| - |(k : ℝ) * (gap + L)|)| ≤ gap / 2 := (abs_abs_sub_abs_le_abs_sub _ _).trans hk
      rw [abs_mul, abs_of_pos hP, abs_le, ← Int.cast_abs] at h3
      have h4 : (i : ℝ) * (gap + L) < ((|k| : ℤ) : ℝ) * (gap + L) := by linarith [h3.2]
      have h5 : ((i : ℤ) : ℝ) < ((|k| : ℤ) : ℝ) := by
        rw [Int.cast_natCast]
        exact lt_of_mul_lt_mul_right h4 hP.le
      have h6 : (i : ℤ) + 1 ≤ |k| := by
        have : (i : ℤ) < |k| := by exact_mod_cast h5
        omega
      have h7 : ((i : ℝ) + 1) ≤ ((|k| : ℤ) : ℝ) := by exact_mod_cast h6
      have h8 := mul_le_mul_of_nonneg_right h7 hP.le
      linarith [h3.1]
    · have h3 : (i : ℝ) ≤ (m : ℝ) := by exact_mod_cast him
      have h4 := mul_le_mul_of_nonneg_right h3 hP.le
      linarith

/-- **C117, the channels.** A structure with `n` channels has exactly these empty pixels: those within half a gap of one of the `n` centres `k (gap + L)`, `|k| ≤ (n - 1)/2`, and those outside. -/
theorem C117_channels (beta gap lambda0 L spc dl : ℝ) (n : ℤ) (NPML : ℤ × ℤ) (a : ℝ) (S : Structure) (h : accelerator_multi beta gap lambda0 L spc n dl NPML a = .ok S) (hg : 0 < gap) (hL : 0 < L) (i : Fin S.Nx)
    (j : Fin S.Ny) :
    Odd n ∧ (S.design_region i j = 0 ↔ (∃ k : ℤ, 2 * |k| + 1 ≤ n ∧ |gridCoord S.Nx dl i - k * (gap + L)| ≤ gap / 2) ∨ (n * gap + (n + 1) * L) / 2 ≤ |gridCoord S.Nx dl i|) := by
  obtain ⟨hodd, h'⟩ := ite_ok h
  rw [not_not] at hodd
  have hb := (ite_ok h').2
  refine ⟨Int.odd_iff.2 hodd, ?_⟩
  obtain ⟨-, -, hS⟩ := build_ok hb
  obtain ⟨-, -, a3, a4⟩ := hS i j
  have key := slab_iff gap L hg hL (n / 2) (gridCoord S.Nx dl i)
  have hn : n = 2 * (n / 2) + 1 := by omega
  have e1 : (n * gap + (n + 1) * L) / 2 = gap / 2 + L + ((n / 2 : ℤ) : ℝ) * (gap + L) := by
    have : (n : ℝ) = 2 * ((n / 2 : ℤ) : ℝ) + 1 := by exact_mod_cast hn
    rw [this]
    ring
  have e2 : ∀ k : ℤ, 2 * |k| + 1 ≤ n ↔ |k| ≤ n / 2 := fun k => by omega
  simp only [e1, e2]
  rw [← key]
  simp only [List.mem_map, exists_exists_and_eq_and] at a3 a4
  constructor
  · intro h0 hc
    rw [a3 hc] at h0
    exact absurd h0 one_ne_zero
  · exact a4

/-- **C117, clear of the absorbing layers.** With a spacing of at least a quarter of a cell, the material of an accelerator with `n ≥ 1` channels stays out of the absorbing layers. -/
theorem C117_clear (beta gap lambda0 L spc dl : ℝ) (n : ℤ) (NPML : ℤ × ℤ) (a : ℝ) (S : Structure) (h : accelerator_multi beta gap lambda0 L spc n dl NPML a = .ok S) (hg : 0 < gap) (hL : 0 < L) (hn : 1 ≤ n)
    (hd : 0 < dl) (hs : dl ≤ 4 * spc) (i : Fin S.Nx) (j : Fin S.Ny) (hi : S.design_region i j = 1) : NPML.1 ≤ i ∧ (i : ℤ) < S.Nx - NPML.1 := by
  have hb := (ite_ok (ite_ok h).2).2
  obtain ⟨hNx, -, -⟩ := build_ok hb
  have hnr : (1 : ℝ) ≤ n := by exact_mod_cast hn
  have hlt : |gridCoord S.Nx dl i| < (n * gap + (n + 1) * L) / 2 := by
    by_contra hc
    rw [not_lt] at hc
    rw [(C117_channels beta gap lambda0 L spc dl n NPML a S h hg hL i j).2.2 (Or.inr hc)] at hi
    exact absurd hi.symm one_ne_zero
  set W := (4 * spc + 2 * L * n + gap * n) / dl with hW
  have hW0 : 0 ≤ W := by
    rw [hW]
    refine div_nonneg ?_ hd.le
    nlinarith
  obtain ⟨M, hM, -, hM2⟩ := pyInt_spec W hW0
  rw [hM] at hNx
  have hWd : W * dl = 4 * spc + 2 * L * n + gap * n := div_mul_cancel₀ _ hd.ne'
  -- the material ends before the last column in front of the layers
  have hend : (n * gap + (n + 1) * L) / 2 ≤ (M : ℝ) * dl / 2 := by
    have : W * dl ≤ ((M : ℝ) + 1) * dl := mul_le_mul_of_nonneg_right hM2.le hd.le
    nlinarith
  have hcoord : ∀ k : Fin S.Nx, (k : ℤ) < NPML.1 → gridCoord S.Nx dl k ≤ -((M : ℝ) * dl / 2) := by
    intro k hk
    have hk2 := k.2
    by_cases h2 : 2 ≤ S.Nx
    swap
    · have : S.Nx = 1 := by omega
      omega
    have hN1 : (0 : ℝ) < (S.Nx : ℝ) - 1 := by
      have : (2 : ℝ) ≤ S.Nx := by exact_mod_cast h2
      linarith
    unfold gridCoord npLinspace
    rw [if_neg (by omega)]
    have hNr : (S.Nx : ℝ) = 2 * (NPML.1 : ℝ) + M := by exact_mod_cast hNx
    have hp : ((k : ℕ) : ℝ) + 1 ≤ (NPML.1 : ℝ) := by
      have : (k : ℤ) + 1 ≤ NPML.1 := by omega
      exact_mod_cast this
    have hpN : (NPML.1 : ℝ) ≤ S.Nx := by
      have : (0 : ℝ) ≤ M := Nat.cast_nonneg M
      have : (0 : ℝ) ≤ ((k : ℕ) : ℝ) := Nat.cast_nonneg _
      linarith
    have e : ((S.Nx : ℝ) / 2 * dl - -(S.Nx : ℝ) / 2 * dl) / ((S.Nx : ℝ) - 1) = S.Nx * dl / ((S.Nx : ℝ) - 1) := by
      congr 1
      ring
    rw [e]
    have hle : ((k : ℕ) : ℝ) * (S.Nx * dl / ((S.Nx : ℝ) - 1)) ≤ NPML.1 * dl := by
      rw [mul_div_assoc', div_le_iff₀ hN1]
      have h1 : ((k : ℕ) : ℝ) * (S.Nx * dl) ≤ ((NPML.1 : ℝ) - 1) * (S.Nx * dl) := mul_le_mul_of_nonneg_right (by linarith) (by positivity)
      have h2 : (NPML.1 : ℝ) * dl ≤ S.Nx * dl := mul_le_mul_of_nonneg_right hpN hd.le
      linarith
    have : -(S.Nx : ℝ) / 2 * dl = -((M : ℝ) * dl / 2) - NPML.1 * dl := by
      rw [hNr]
      ring
    linarith
  constructor
  · by_contra hc
    have := hcoord i (by omega)
    have h2 := neg_abs_le (gridCoord S.Nx dl i)
    linarith
  · by_contra hc
    have hi2 := i.2
    have := hcoord ⟨S.Nx - 1 - i, by omega⟩ (by simp only; omega)
    rcases gridCoord_mirror S.Nx dl i ⟨S.Nx - 1 - i, by omega⟩ (by simp only; omega) with he | he
    · rw [he] at this
      have h2 := neg_abs_le (gridCoord S.Nx dl i)
      linarith
    · rw [he] at this
      have h2 := le_abs_self (gridCoord S.Nx dl i)
      linarith

/-- The output waveguides of `N_port` at `-y` are those at `y`. -/
theorem outs_mirror (N : ℕ) (d h x y : ℝ) (H : ∃ i ∈ List.range N, 0 < x ∧ |-y - ((i : ℝ) - ((N : ℝ) - 1) / 2) * d| < h) :
    ∃ i ∈ List.range N, 0 < x ∧ |y - ((i : ℝ) - ((N : ℝ) - 1) / 2) * d| < h := by
  obtain ⟨i, hi, hx, hy⟩ := H
  rw [List.mem_range] at hi
  refine ⟨N - 1 - i, List.mem_range.2 (by omega), hx, ?_⟩
  have : ((N - 1 - i : ℕ) : ℝ) = (N : ℝ) - 1 - i := by
    rw [Nat.sub_sub, Nat.cast_sub (by omega)]
    push_cast
    ring
  rw [this, ← abs_neg, show -(y - ((N : ℝ) - 1 - i - ((N : ℝ) - 1) / 2) * d) = -y - ((i : ℝ) - ((N : ℝ) - 1) / 2) * d by ring]
  exact hy

theorem outs_mirror_iff (N : ℕ) (d h x y : ℝ) : (∃ i ∈ List.range N, 0 < x ∧ |-y - ((i : ℝ) - ((N : ℝ) - 1) / 2) * d| < h) ↔
    ∃ i ∈ List.range N, 0 < x ∧ |y - ((i : ℝ) - ((N : ℝ) - 1) / 2) * d| < h := by
  refine ⟨outs_mirror N d h x y, fun H => outs_mirror N d h x (-y) ?_⟩
  rw [neg_neg]
  exact H

theorem gridCoord_pos (N : ℕ) (dl : ℝ) (hd : 0 < dl) (i : Fin N) (hi : N ≤ 2 * i.val) : 0 < gridCoord N dl i := by
  have := i.2
  unfold gridCoord npLinspace
  rw [if_neg (by omega)]
  have h1 : (0 : ℝ) < (N : ℝ) - 1 := by
    have : (2 : ℝ) ≤ N := by exact_mod_cast (by omega : 2 ≤ N)
    linarith
  have h2 : (N : ℝ) ≤ 2 * (i.val : ℝ) := by exact_mod_cast hi
  have h3 : (0 : ℝ) < N := by linarith
  have : -(N : ℝ) / 2 * dl + (i.val : ℝ) * (((N : ℝ) / 2 * dl - -(N : ℝ) / 2 * dl) / ((N : ℝ) - 1)) = N * dl * (2 * i.val - (N - 1)) / (2 * ((N : ℝ) - 1)) := by
    field_simp
    ring
  rw [this]
  refine div_pos (mul_pos (mul_pos h3 hd) (by linarith)) (by linarith)

/-- **C117 (partial), `N_port`.** The design region, and on the side of the outputs the permittivity, are mirror symmetric in `y`; so is all the permittivity if no row is within 0.01 of an edge of the
input waveguide.  Missing: the other cases, where it fails (`C117_N_port_false`). -/
theorem C117_N_port_partial (N : ℕ) (L H w d l spc dl : ℝ) (NPML : ℤ × ℤ) (a b : ℝ) (S : Structure) (h : N_port N L H w d l spc dl NPML a b = .ok S) :
    Spec.MirrorY S.design_region ∧ (0 < dl → ∀ (i : Fin S.Nx) (j j' : Fin S.Ny), S.Nx ≤ 2 * i.val → (j : ℕ) + j' + 1 = S.Ny → S.eps_r i j' = S.eps_r i j) ∧
    ((∀ j : Fin S.Ny, |gridCoord S.Ny dl j| < dl * pyInt (w / dl) / 2 - 0.01 ∨ dl * pyInt (w / dl) / 2 + 0.01 ≤ |gridCoord S.Ny dl j|) → Spec.MirrorY S.eps_r) := by
  have hb := (ite_ok h).2
  refine ⟨fun i j j' hj => ?_, fun hd i j j' hi hj => ?_, fun hrow i j j' hj => ?_⟩
  · rcases gridCoord_mirror S.Ny dl j j' hj with rfl | he
    · rfl
    · refine (build_same hb i i j j').2 ?_
      rw [he]
      simp
  · rcases gridCoord_mirror S.Ny dl j j' hj with rfl | he
    · rfl
    · refine (build_same hb i i j j').1 ?_
      have hx := gridCoord_pos S.Nx dl hd i hi
      rw [he]
      simp only [List.cons_append, List.nil_append, List.mem_cons, List.mem_map, exists_eq_or_imp, exists_exists_and_eq_and, sub_zero, abs_neg, not_lt.2 hx.le, false_and, false_or]
      rw [outs_mirror_iff]
  · rcases gridCoord_mirror S.Ny dl j j' hj with rfl | he
    · rfl
    · refine (build_same hb i i j j').1 ?_
      have hin : |-gridCoord S.Ny dl j - 0.01| < dl * pyInt (w / dl) / 2 ↔ |gridCoord S.Ny dl j - 0.01| < dl * pyInt (w / dl) / 2 := by
        rcases hrow j with hr | hr
        · rw [abs_lt] at hr
          constructor <;> intro _ <;> rw [abs_lt] <;> constructor <;> linarith [hr.1, hr.2]
        · constructor <;> intro hc <;> rw [abs_lt] at hc <;> exfalso <;> rcases abs_cases (gridCoord S.Ny dl j) with ⟨e, -⟩ | ⟨e, -⟩ <;> rw [e] at hr <;> linarith [hc.1, hc.2]
      rw [he]
      simp only [List.cons_append, List.nil_append, List.mem_cons, List.mem_map, exists_eq_or_imp, exists_exists_and_eq_and, sub_zero, abs_neg, hin]
      rw [outs_mirror_iff]

/-- Two points of spacing two at `±1`. -/
theorem gridCoord_two (N : ℕ) (hN : N = 2) (k : ℕ) : gridCoord N 1 k = -1 + k * 2 := by
  subst hN
  unfold gridCoord npLinspace
  rw [if_neg (by norm_num)]
  norm_num

/-- **C117 is false of `N_port`**: because of the offset 0.01 of the input waveguide, a structure with one output need not be mirror symmetric. -/
theorem C117_N_port_false : ∃ S, N_port 1 1 1 2 1 0.5 0.5 1 (0, 0) 2 1 = .ok S ∧ ¬ Spec.MirrorY S.eps_r := by
  have e1 : pyInt ((2 * 0.5 + 1) / 1) = 2 := pyInt_nat _ 2 (by norm_num) (by norm_num)
  have e2 : pyInt ((1 + 2 * 0.5) / 1) = 2 := pyInt_nat _ 2 (by norm_num) (by norm_num)
  have e3 : pyInt (2 / 1) = 2 := pyInt_nat _ 2 (by norm_num) (by norm_num)
  obtain ⟨S, hS⟩ : ∃ S, N_port 1 1 1 2 1 0.5 0.5 1 (0, 0) 2 1 = .ok S := by
    unfold N_port
    rw [if_neg one_ne_zero, e1, e2, e3]
    exact build_returns _ _ _ _ _ _ _ (by norm_num) (by norm_num)
  refine ⟨S, hS, fun hm => ?_⟩
  have hb := (ite_ok hS).2
  obtain ⟨h1, h2, h3⟩ := build_ok hb
  rw [e1] at h1
  rw [e2] at h2
  have hx : S.Nx = 2 := by
    simp only [mul_zero, zero_add] at h1
    exact_mod_cast h1
  have hy : S.Ny = 2 := by
    simp only [mul_zero, zero_add] at h2
    exact_mod_cast h2
  have hmm := hm ⟨0, by omega⟩ ⟨0, by omega⟩ ⟨1, by omega⟩ (by simp only; omega)
  have p1 := (h3 ⟨0, by omega⟩ ⟨1, by omega⟩).1
  have p0 := (h3 ⟨0, by omega⟩ ⟨0, by omega⟩).2.1
  rw [e3] at p1 p0
  simp only [gridCoord_two _ hx, gridCoord_two _ hy, List.cons_append, List.nil_append, List.mem_cons, List.mem_map, exists_eq_or_imp, exists_exists_and_eq_and] at p1 p0
  rw [p1 (Or.inr (Or.inl ⟨by norm_num, by norm_num [abs_lt]⟩)), p0] at hmm
  · norm_num at hmm
  · rintro (⟨hc, -⟩ | ⟨-, hc⟩ | ⟨k, -, hc, -⟩)
    · norm_num [abs_lt] at hc
    · norm_num [abs_lt] at hc
    · norm_num at hc

/-- **C117 (partial), `ortho_port`.** If no column is within half a cell outside the edges of the vertical waveguide, permittivity and design region are mirror symmetric in `x`.  Missing: the other
cases, where it fails (`C117_ortho_port_false`). -/
theorem C117_ortho_port_partial (L L2 H H2 w l dl : ℝ) (NPML : ℤ × ℤ) (a : ℝ) (S : Structure) (h : ortho_port L L2 H H2 w l dl NPML a = .ok S) (hd : 0 < dl)
    (hcol : ∀ i : Fin S.Nx, |gridCoord S.Nx dl i| < w / 2 ∨ w / 2 + dl / 2 ≤ |gridCoord S.Nx dl i|) : Spec.MirrorX S.eps_r ∧ Spec.MirrorX S.design_region := by
  have hb := (ite_ok h).2
  have hin : ∀ i : Fin S.Nx, (-w / 2 < -gridCoord S.Nx dl i ∧ -gridCoord S.Nx dl i < w / 2 + dl / 2) ↔ (-w / 2 < gridCoord S.Nx dl i ∧ gridCoord S.Nx dl i < w / 2 + dl / 2) := by
    intro i
    rcases hcol i with hr | hr
    · rw [abs_lt] at hr
      constructor <;> intro _ <;> constructor <;> linarith [hr.1, hr.2]
    · rcases abs_cases (gridCoord S.Nx dl i) with ⟨e, -⟩ | ⟨e, -⟩ <;> rw [e] at hr <;> constructor <;> rintro ⟨h1, h2⟩ <;> exfalso <;> linarith
  constructor
  · intro i i' j hi
    rcases gridCoord_mirror S.Nx dl i i' hi with rfl | he
    · rfl
    · refine (build_same hb i i' j j).1 ?_
      rw [he]
      simp only [List.mem_cons, List.not_mem_nil, or_false, exists_eq_or_imp, exists_eq_left, hin]
  · intro i i' j hi
    rcases gridCoord_mirror S.Nx dl i i' hi with rfl | he
    · rfl
    · refine (build_same hb i i' j j).2 ?_
      rw [he]
      simp only [List.mem_cons, List.not_mem_nil, or_false, exists_eq_or_imp, exists_eq_left, hin, abs_neg]

/-- **C117 is false of `ortho_port`**: the vertical waveguide is half a cell wider on the right. -/
theorem C117_ortho_port_false : ∃ S, ortho_port 1 1 1 1 2 0.5 1 (0, 0) 2 = .ok S ∧ ¬ Spec.MirrorX S.eps_r := by
  have e1 : pyInt ((2 * 0.5 + 1) / 1) = 2 := pyInt_nat _ 2 (by norm_num) (by norm_num)
  obtain ⟨S, hS⟩ : ∃ S, ortho_port 1 1 1 1 2 0.5 1 (0, 0) 2 = .ok S := by
    unfold ortho_port
    rw [if_neg one_ne_zero, e1]
    exact build_returns _ _ _ _ _ _ _ (by norm_num) (by norm_num)
  refine ⟨S, hS, fun hm => ?_⟩
  have hb := (ite_ok hS).2
  obtain ⟨h1, h2, h3⟩ := build_ok hb
  rw [e1] at h1 h2
  have hx : S.Nx = 2 := by
    simp only [mul_zero, zero_add] at h1
    exact_mod_cast h1
  have hy : S.Ny = 2 := by
    simp only [mul_zero, zero_add] at h2
    exact_mod_cast h2
  have hmm := hm ⟨0, by omega⟩ ⟨1, by omega⟩ ⟨1, by omega⟩ (by simp only; omega)
  have p1 := (h3 ⟨1, by omega⟩ ⟨1, by omega⟩).1
  have p0 := (h3 ⟨0, by omega⟩ ⟨1, by omega⟩).2.1
  simp only [gridCoord_two _ hx, gridCoord_two _ hy, List.mem_cons, List.not_mem_nil, or_false, exists_eq_or_imp, exists_eq_left] at p1 p0
  rw [p1 (Or.inr ⟨⟨by norm_num, by norm_num⟩, by norm_num⟩), p0] at hmm
  · norm_num at hmm
  · rintro (hc | ⟨⟨hc, -⟩, -⟩)
    · norm_num [abs_lt] at hc
    · norm_num at hc

/-- An accelerator with three channels that meets the hypotheses of `C117_channels` and `C117_clear`. -/
example : ∃ S, accelerator_multi 1 4 4 2 1 3 1 (2, 0) 2 = .ok S ∧ (0 : ℝ) < 4 ∧ (0 : ℝ) < 2 ∧ (1 : ℝ) ≤ 4 * 1 := by
  obtain ⟨S, h, -⟩ := accelerator_multi_case
  exact ⟨S, h, by norm_num, by norm_num, by norm_num⟩

/-- A `ortho_port` whose columns meet the hypothesis: `±1` for waveguides of width 3. -/
example : ∃ S, ortho_port 1 1 1 1 3 0.5 1 (0, 0) 2 = .ok S ∧ Spec.MirrorX S.eps_r := by
  have e1 : pyInt ((2 * 0.5 + 1) / 1) = 2 := pyInt_nat _ 2 (by norm_num) (by norm_num)
  obtain ⟨S, hS⟩ : ∃ S, ortho_port 1 1 1 1 3 0.5 1 (0, 0) 2 = .ok S := by
    unfold ortho_port
    rw [if_neg one_ne_zero, e1]
    exact build_returns _ _ _ _ _ _ _ (by norm_num) (by norm_num)
  obtain ⟨h1, -, -⟩ := build_ok (ite_ok hS).2
  rw [e1] at h1
  have hx : S.Nx = 2 := by
    simp only [mul_zero, zero_add] at h1
    exact_mod_cast h1
  refine ⟨S, hS, (C117_ortho_port_partial 1 1 1 1 3 0.5 1 (0, 0) 2 S hS one_pos fun i => Or.inl ?_).1⟩
  rw [gridCoord_two _ hx]
  have : i.val < 2 := hx ▸ i.2
  have : i.val = 0 ∨ i.val = 1 := by omega
  rcases this with h | h <;> rw [h] <;> norm_num

end Angler
