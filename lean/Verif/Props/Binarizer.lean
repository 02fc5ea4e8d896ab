import Verif.Model.Binarizer
import Mathlib.Algebra.BigOperators.Field
import Mathlib.Algebra.Order.BigOperators.Ring.Finset
import Mathlib.Tactic.FieldSimp
import Mathlib.Tactic.LinearCombination
import Mathlib.Tactic.Positivity

/-! # C45-C48: binarisers -/

namespace Angler

variable {Nx Ny : ℕ}

/-- A binariser set up as intended and a permittivity between the two materials in the design region: 0/1 region with at least one design pixel, `eps_m > 1`. -/
structure Spec.Intended (b : Binarizer Nx Ny) (eps : Grid Nx Ny ℝ) : Prop where
  region : ∀ i j, b.design_region i j = 0 ∨ b.design_region i j = 1
  some_design : ∃ i j, b.design_region i j = 1
  material : 1 < b.eps_m
  range : ∀ i j, b.design_region i j = 1 → 1 ≤ eps i j ∧ eps i j ≤ b.eps_m

open Classical in
/-- The design pixels. -/
noncomputable def Spec.designPixels (b : Binarizer Nx Ny) : Finset (Fin Nx × Fin Ny) := Finset.univ.filter fun p => b.design_region p.1 p.2 = 1

/-- The material fraction of a pixel. -/
noncomputable def Spec.fraction (eps_m e : ℝ) : ℝ := (e - 1) / (eps_m - 1)

/-- The mean gray level `4 u (1-u)` over the design pixels. -/
noncomputable def Spec.grayness (b : Binarizer Nx Ny) (eps : Grid Nx Ny ℝ) : ℝ :=
  (∑ p ∈ Spec.designPixels b, 4 * Spec.fraction b.eps_m (eps p.1 p.2) * (1 - Spec.fraction b.eps_m (eps p.1 p.2))) / (Spec.designPixels b).card

/-- Every design pixel is vacuum or material. -/
def Spec.Binary (b : Binarizer Nx Ny) (eps : Grid Nx Ny ℝ) : Prop := ∀ i j, b.design_region i j = 1 → eps i j = 1 ∨ eps i j = b.eps_m

/-- Every design pixel is exactly halfway. -/
def Spec.Halfway (b : Binarizer Nx Ny) (eps : Grid Nx Ny ℝ) : Prop := ∀ i j, b.design_region i j = 1 → eps i j = (1 + b.eps_m) / 2

theorem bin_mem {b : Binarizer Nx Ny} {i : Fin Nx} {j : Fin Ny} : (i, j) ∈ Spec.designPixels b ↔ b.design_region i j = 1 := by
  classical
  simp [Spec.designPixels]

theorem bin_N {b : Binarizer Nx Ny} {eps : Grid Nx Ny ℝ} (h : Spec.Intended b eps) : b.N = (Spec.designPixels b).card := by
  classical
  unfold Binarizer.N Spec.designPixels
  rw [← Fintype.sum_prod_type', Finset.card_filter]
  push_cast
  refine Finset.sum_congr rfl fun p _ => ?_
  rcases h.region p.1 p.2 with h0 | h0 <;> simp [h0]

theorem bin_card_pos {b : Binarizer Nx Ny} {eps : Grid Nx Ny ℝ} (h : Spec.Intended b eps) : (0 : ℝ) < (Spec.designPixels b).card := by
  obtain ⟨i, j, hij⟩ := h.some_design
  exact_mod_cast Finset.card_pos.2 ⟨(i, j), bin_mem.2 hij⟩

theorem bin_sum {b : Binarizer Nx Ny} {eps : Grid Nx Ny ℝ} (h : Spec.Intended b eps) :
    ∑ i, ∑ j, b.M_nd eps i j = ∑ p ∈ Spec.designPixels b, 4 * Spec.fraction b.eps_m (eps p.1 p.2) * (1 - Spec.fraction b.eps_m (eps p.1 p.2)) := by
  classical
  unfold Spec.designPixels
  rw [← Fintype.sum_prod_type', Finset.sum_filter]
  refine Finset.sum_congr rfl fun p _ => ?_
  unfold Binarizer.M_nd Binarizer.rho Spec.fraction
  rcases h.region p.1 p.2 with h0 | h0 <;> simp [h0]

theorem bin_scalar {b : Binarizer Nx Ny} {eps : Grid Nx Ny ℝ} (h : Spec.Intended b eps) : (∑ i, ∑ j, b.M_nd eps i j) / b.N = Spec.grayness b eps := by
  rw [bin_sum h, bin_N h]
  rfl

theorem bin_ok {b : Binarizer Nx Ny} {eps : Grid Nx Ny ℝ} (h : Spec.Intended b eps) : ¬ (b.eps_m - 1 = 0 ∨ b.N = 0) := by
  rw [not_or, bin_N h]
  exact ⟨by have := h.material; linarith, (bin_card_pos h).ne'⟩

theorem fraction_mem {b : Binarizer Nx Ny} {eps : Grid Nx Ny ℝ} (h : Spec.Intended b eps) {p : Fin Nx × Fin Ny} (hp : p ∈ Spec.designPixels b) :
    0 ≤ Spec.fraction b.eps_m (eps p.1 p.2) ∧ Spec.fraction b.eps_m (eps p.1 p.2) ≤ 1 := by
  obtain ⟨h1, h2⟩ := h.range p.1 p.2 (bin_mem.1 hp)
  have := h.material
  unfold Spec.fraction
  exact ⟨div_nonneg (by linarith) (by linarith), (div_le_one (by linarith)).2 (by linarith)⟩

/-- The gray level lies in `[0,1]`, is 0 exactly for binary and 1 exactly for halfway permittivities. -/
theorem grayness_spec {b : Binarizer Nx Ny} {eps : Grid Nx Ny ℝ} (h : Spec.Intended b eps) :
    0 ≤ Spec.grayness b eps ∧ Spec.grayness b eps ≤ 1 ∧ (Spec.grayness b eps = 0 ↔ Spec.Binary b eps) ∧ (Spec.grayness b eps = 1 ↔ Spec.Halfway b eps) := by
  have hc := bin_card_pos h
  have hm : b.eps_m - 1 ≠ 0 := by have := h.material; linarith
  have hnn : ∀ p ∈ Spec.designPixels b, 0 ≤ 4 * Spec.fraction b.eps_m (eps p.1 p.2) * (1 - Spec.fraction b.eps_m (eps p.1 p.2)) := fun p hp => by
    obtain ⟨h1, h2⟩ := fraction_mem h hp
    exact mul_nonneg (by linarith) (by linarith)
  have hle : ∀ p ∈ Spec.designPixels b, 0 ≤ 1 - 4 * Spec.fraction b.eps_m (eps p.1 p.2) * (1 - Spec.fraction b.eps_m (eps p.1 p.2)) := fun p _ => by
    nlinarith [sq_nonneg (2 * Spec.fraction b.eps_m (eps p.1 p.2) - 1)]
  have hone : 1 - Spec.grayness b eps = (∑ p ∈ Spec.designPixels b, (1 - 4 * Spec.fraction b.eps_m (eps p.1 p.2) * (1 - Spec.fraction b.eps_m (eps p.1 p.2)))) / (Spec.designPixels b).card := by
    rw [Finset.sum_sub_distrib, Finset.sum_const, nsmul_eq_mul, mul_one, sub_div, div_self hc.ne']
    rfl
  refine ⟨div_nonneg (Finset.sum_nonneg hnn) hc.le, ?_, ?_, ?_⟩
  · have := div_nonneg (Finset.sum_nonneg hle) hc.le
    rw [← hone] at this
    linarith
  · unfold Spec.grayness
    rw [div_eq_zero_iff, or_iff_left hc.ne', Finset.sum_eq_zero_iff_of_nonneg hnn]
    constructor
    · intro h0 i j hij
      have := h0 (i, j) (bin_mem.2 hij)
      rcases mul_eq_zero.1 this with h1 | h1
      · left
        have : Spec.fraction b.eps_m (eps i j) = 0 := by simpa using h1
        unfold Spec.fraction at this
        rw [div_eq_zero_iff, or_iff_left hm] at this
        linarith
      · right
        have : Spec.fraction b.eps_m (eps i j) = 1 := by
          have : (1 : ℝ) - Spec.fraction b.eps_m (eps i j) = 0 := h1
          linarith
        unfold Spec.fraction at this
        rw [div_eq_one_iff_eq hm] at this
        linarith
    · rintro h0 ⟨i, j⟩ hp
      rcases h0 i j (bin_mem.1 hp) with h1 | h1
      · simp [Spec.fraction, h1]
      · simp [Spec.fraction, h1, div_self hm]
  · rw [← sub_eq_zero, ← neg_sub, neg_eq_zero, hone, div_eq_zero_iff, or_iff_left hc.ne', Finset.sum_eq_zero_iff_of_nonneg hle]
    constructor
    · intro h0 i j hij
      have h1 := h0 (i, j) (bin_mem.2 hij)
      have h2 : (2 * Spec.fraction b.eps_m (eps i j) - 1) ^ 2 = 0 := by
        simp only at h1
        linear_combination h1
      have h3 : Spec.fraction b.eps_m (eps i j) = 1 / 2 := by
        have := pow_eq_zero_iff (two_ne_zero) |>.1 h2
        linarith
      unfold Spec.fraction at h3
      rw [div_eq_div_iff hm two_ne_zero] at h3
      linarith
    · rintro h0 ⟨i, j⟩ hp
      have h1 := h0 i j (bin_mem.1 hp)
      have : Spec.fraction b.eps_m (eps i j) = 1 / 2 := by
        unfold Spec.fraction
        rw [h1]
        field_simp
        ring
      simp only [this]
      norm_num

/-- A call of a binarised function with the arguments `(e, e_nl, eps)`. -/
theorem J_new_call (J : PyFn Nx Ny) (J_bin : Grid Nx Ny ℝ → Except PyErr ℝ) (e e_nl eps : Grid Nx Ny ℝ) (v f : ℝ) (hv : J.call [e, e_nl, eps] = .ok v) (hf : J_bin eps = .ok f) :
    (Binarizer.J_new J J_bin).call [e, e_nl, eps] = .ok (v * f) := by
  simp only [Binarizer.J_new, List.getElem?_cons_succ, List.getElem?_cons_zero, hv, hf, Except.map]

/-- **C45.** `density` multiplies `J` by a factor in `[0,1]` which is 1 iff every design pixel is binary and 0 iff each is exactly halfway. -/
theorem C45_density (b : Binarizer Nx Ny) (J : PyFn Nx Ny) (e e_nl eps : Grid Nx Ny ℝ) (v : ℝ) (h : Spec.Intended b eps) (hv : J.call [e, e_nl, eps] = .ok v) :
    ∃ f, (b.density J).call [e, e_nl, eps] = .ok (v * f) ∧ 0 ≤ f ∧ f ≤ 1 ∧ (f = 1 ↔ Spec.Binary b eps) ∧ (f = 0 ↔ Spec.Halfway b eps) := by
  obtain ⟨g0, g1, gb, gh⟩ := grayness_spec h
  refine ⟨1 - Spec.grayness b eps, J_new_call J _ e e_nl eps v _ hv ?_, by linarith, by linarith, ?_, ?_⟩
  · unfold Binarizer.density_bin
    rw [if_neg (bin_ok h)]
    simp only [bin_scalar h]
  · rw [← gb]
    constructor <;> intro <;> linarith
  · rw [← gh]
    constructor <;> intro <;> linarith

/-- **C46.** `density_exp` multiplies `J` by `exp(-c·grayness)`: for `exp_const > 0` a factor in `(0,1]`, 1 iff binary, and strictly decreasing in the gray level. -/
theorem C46_density_exp (b : Binarizer Nx Ny) (hc : 0 < b.exp_const) : ∃ F : Grid Nx Ny ℝ → ℝ,
    (∀ (J : PyFn Nx Ny) (e e_nl eps : Grid Nx Ny ℝ) (v : ℝ), Spec.Intended b eps → J.call [e, e_nl, eps] = .ok v → (b.density_exp J).call [e, e_nl, eps] = .ok (v * F eps)) ∧
    ∀ eps, Spec.Intended b eps → 0 < F eps ∧ F eps ≤ 1 ∧ (F eps = 1 ↔ Spec.Binary b eps) ∧
      ∀ eps', Spec.Intended b eps' → (F eps' < F eps ↔ Spec.grayness b eps < Spec.grayness b eps') := by
  refine ⟨fun eps => Real.exp (-b.exp_const * |Spec.grayness b eps|), fun J e e_nl eps v h hv => J_new_call J _ e e_nl eps v _ hv ?_, fun eps h => ?_⟩
  · unfold Binarizer.density_exp_bin
    rw [if_neg (bin_ok h)]
    simp only [bin_scalar h]
  · obtain ⟨g0, g1, gb, -⟩ := grayness_spec h
    refine ⟨Real.exp_pos _, ?_, ?_, fun eps' h' => ?_⟩
    · rw [Real.exp_le_one_iff, abs_of_nonneg g0]
      nlinarith
    · rw [Real.exp_eq_one_iff, abs_of_nonneg g0, mul_eq_zero, or_iff_right (by linarith : -b.exp_const ≠ 0), gb]
    · obtain ⟨g0', -⟩ := grayness_spec h'
      rw [Real.exp_lt_exp, abs_of_nonneg g0, abs_of_nonneg g0']
      constructor
      · intro hl
        by_contra hn
        nlinarith [mul_le_mul_of_nonneg_left (not_lt.1 hn) hc.le]
      · intro hl
        nlinarith [mul_lt_mul_of_pos_left hl hc]

/-! ## C47 -/

theorem stripPenalty_eq (s : List ℝ) (hs : s ≠ []) : Binarizer.stripPenalty s = (s.map fun x => |x|).sum := by
  unfold Binarizer.stripPenalty
  have hlen : 0 < s.length := List.length_pos_iff.2 hs
  have hconv : Binarizer.convolve Binarizer.kernel s = 0 :: s := by
    refine List.ext_getElem ?_ ?_
    · simp [Binarizer.convolve, Binarizer.kernel]
      omega
    · intro n h1 h2
      simp only [Binarizer.convolve, Binarizer.kernel, List.getElem_map, List.getElem_range]
      cases n with
      | zero => simp
      | succ n =>
        have hn : n < s.length := by simpa using h2
        rw [Finset.sum_range_succ', Finset.sum_range_succ']
        have : ∑ k ∈ Finset.range n, ([0, 1] : List ℝ).getD (k + 1 + 1) 0 * s.getD (n + 1 - (k + 1 + 1)) 0 = 0 := Finset.sum_eq_zero fun k _ => by simp
        rw [this]
        simp [hn]
  rw [hconv]
  simp

theorem foldl_add_sum {α : Type} (l : List α) (f : α → ℝ) (p : ℝ) : l.foldl (fun p i => p + f i) p = p + (l.map f).sum := by
  induction l generalizing p with
  | nil => simp
  | cons a l ih => rw [List.foldl_cons, ih, List.map_cons, List.sum_cons, add_assoc]

/-- The value of the smoothness factor: one minus the mean absolute gray level. -/
theorem smoothness_eq (b : Binarizer Nx Ny) (eps : Grid Nx Ny ℝ) (hx : 0 < Nx) (hy : 0 < Ny) (hok : ¬ (b.eps_m - 1 = 0 ∨ b.N = 0)) :
    b.smoothness_bin eps = .ok (1 - (∑ i, ∑ j, |b.M_nd eps i j|) / b.N) := by
  unfold Binarizer.smoothness_bin
  rw [if_neg hok]
  simp only
  rw [foldl_add_sum, foldl_add_sum, zero_add]
  have h1 : ((List.finRange Nx).map fun i => Binarizer.stripPenalty ((List.finRange Ny).map fun j => b.M_nd eps i j)).sum = ∑ i, ∑ j, |b.M_nd eps i j| := by
    rw [← List.ofFn_eq_map, List.sum_ofFn]
    refine Finset.sum_congr rfl fun i _ => ?_
    rw [stripPenalty_eq _ (by rw [ne_eq, List.map_eq_nil_iff, List.finRange_eq_nil_iff]; omega), List.map_map, ← List.ofFn_eq_map, List.sum_ofFn]
    rfl
  have h2 : ((List.finRange Ny).map fun j => Binarizer.stripPenalty ((List.finRange Nx).map fun i => b.M_nd eps i j)).sum = ∑ i, ∑ j, |b.M_nd eps i j| := by
    rw [← List.ofFn_eq_map, List.sum_ofFn, Finset.sum_comm]
    refine Finset.sum_congr rfl fun i _ => ?_
    rw [stripPenalty_eq _ (by rw [ne_eq, List.map_eq_nil_iff, List.finRange_eq_nil_iff]; omega), List.map_map, ← List.ofFn_eq_map, List.sum_ofFn]
    rfl
  rw [h1, h2]
  congr 1
  field_simp
  ring

theorem smoothness_density {b : Binarizer Nx Ny} {eps : Grid Nx Ny ℝ} (h : Spec.Intended b eps) : b.smoothness_bin eps = .ok (1 - Spec.grayness b eps) := by
  obtain ⟨i0, j0, -⟩ := h.some_design
  rw [smoothness_eq b eps (by have := i0.2; omega) (by have := j0.2; omega) (bin_ok h), ← bin_scalar h]
  congr 3
  refine Finset.sum_congr rfl fun i _ => Finset.sum_congr rfl fun j _ => abs_of_nonneg ?_
  unfold Binarizer.M_nd Binarizer.rho
  rcases h.region i j with h0 | h0
  · simp [h0]
  · obtain ⟨h1, h2⟩ := fraction_mem h (bin_mem.2 h0)
    unfold Spec.fraction at h1 h2
    rw [h0, mul_one]
    exact mul_nonneg (by linarith) (by linarith)

/-- **C47 (partial).** The smoothness factor lies in `[0,1]`.  Missing: it does not depend on the arrangement (`C47_false`). -/
theorem C47_range_partial (b : Binarizer Nx Ny) (J : PyFn Nx Ny) (e e_nl eps : Grid Nx Ny ℝ) (v : ℝ) (h : Spec.Intended b eps) (hv : J.call [e, e_nl, eps] = .ok v) :
    ∃ f, (b.smoothness J).call [e, e_nl, eps] = .ok (v * f) ∧ 0 ≤ f ∧ f ≤ 1 := by
  obtain ⟨g0, g1, -⟩ := grayness_spec h
  exact ⟨_, J_new_call J _ e e_nl eps v _ hv (smoothness_density h), by linarith, by linarith⟩

/-- **C47, negation.** The smoothness factor is the density factor; in particular it is the same for any two permittivities with the same gray level, whatever their arrangement. -/
theorem C47_false (b : Binarizer Nx Ny) (J : PyFn Nx Ny) (e e_nl eps : Grid Nx Ny ℝ) (h : Spec.Intended b eps) :
    (b.smoothness J).call [e, e_nl, eps] = (b.density J).call [e, e_nl, eps] ∧
    ∀ eps', Spec.Intended b eps' → Spec.grayness b eps' = Spec.grayness b eps → b.smoothness_bin eps' = b.smoothness_bin eps := by
  refine ⟨?_, fun eps' h' hg => by rw [smoothness_density h, smoothness_density h', hg]⟩
  have hd : b.density_bin eps = .ok (1 - Spec.grayness b eps) := by
    unfold Binarizer.density_bin
    rw [if_neg (bin_ok h)]
    simp only [bin_scalar h]
  simp only [Binarizer.smoothness, Binarizer.density, Binarizer.J_new, List.getElem?_cons_succ, List.getElem?_cons_zero, smoothness_density h, hd]

/-! ## C48 -/

/-- **C48, negation.** A binarised objective never works with `Objective`: construction raises `ValueError` unless there are exactly two arguments, and with two arguments
evaluation raises `IndexError`; in particular the three arguments `(e, e_nl, eps)` of the class documentation are rejected. -/
theorem C48_false (b : Binarizer Nx Ny) (J : PyFn Nx Ny) (args : List ObjArg) (F : PyFn Nx Ny) (hF : F = b.density J ∨ F = b.density_exp J ∨ F = b.smoothness J) :
    (args.length ≠ 2 → F.objectiveCheck args = .error .valueError) ∧
    (F.objectiveCheck args = .ok () → ∀ fields : List (Grid Nx Ny ℝ), fields.length = args.length → F.call fields = .error .indexError) := by
  have hp : F.params = 2 ∧ ∀ fields : List (Grid Nx Ny ℝ), fields.length = 2 → F.call fields = .error .indexError := by
    have : ∀ (g : Grid Nx Ny ℝ → Except PyErr ℝ) (fields : List (Grid Nx Ny ℝ)), fields.length = 2 → (Binarizer.J_new J g).call fields = .error .indexError := by
      intro g fields hl
      simp only [Binarizer.J_new]
      rw [List.getElem?_eq_none (by omega)]
    rcases hF with rfl | rfl | rfl <;> exact ⟨rfl, this _⟩
  unfold PyFn.objectiveCheck
  rw [hp.1]
  refine ⟨fun h => if_pos h, fun h fields hl => hp.2 fields ?_⟩
  by_cases h2 : args.length ≠ 2
  · rw [if_pos h2] at h; cases h
  · rw [hl]
    exact not_not.1 h2

/-- **C48 (partial).** Called directly with the three arguments of the documentation, the binarised function evaluates whenever `J` does.  Missing: construction as an `Objective`. -/
theorem C48_call_partial (b : Binarizer Nx Ny) (f : (Fin 3 → Grid Nx Ny ℝ) → ℝ) (e e_nl eps : Grid Nx Ny ℝ) (h : Spec.Intended b eps) :
    ∃ w, (b.density (PyFn.ofFun 3 f)).call [e, e_nl, eps] = .ok w ∧ |w| ≤ |f ![e, e_nl, eps]| := by
  have hv : (PyFn.ofFun 3 f).call [e, e_nl, eps] = .ok (f ![e, e_nl, eps]) := by
    simp only [PyFn.ofFun]
    rw [dif_pos (by rfl)]
    congr 2
    funext k
    fin_cases k <;> rfl
  obtain ⟨g, h1, h2, h3, -⟩ := C45_density b _ e e_nl eps _ h hv
  refine ⟨_, h1, ?_⟩
  rw [abs_mul, abs_of_nonneg h2]
  exact mul_le_of_le_one_right (abs_nonneg _) h3

/-- A `2 × 2` case with one pixel outside the region, one binary and two gray pixels; moving the gray pixels does not change the smoothness factor. -/
theorem binarizer_witness : Spec.Intended (⟨!![0, 1; 1, 1], 5, 1⟩ : Binarizer 2 2) !![7, 1; 3, 2] ∧ Spec.Intended (⟨!![0, 1; 1, 1], 5, 1⟩ : Binarizer 2 2) !![7, 2; 1, 3] := by
  constructor <;> refine ⟨?_, ⟨0, 1, ?_⟩, ?_, ?_⟩ <;> simp [Fin.forall_fin_two] <;> norm_num

example : (⟨!![0, 1; 1, 1], 5, 1⟩ : Binarizer 2 2).smoothness_bin !![7, 1; 3, 2] = (⟨!![0, 1; 1, 1], 5, 1⟩ : Binarizer 2 2).smoothness_bin !![7, 2; 1, 3] := by
  obtain ⟨h1, h2⟩ := binarizer_witness
  refine (C47_false _ ⟨0, fun _ => .ok 0⟩ (fun _ _ => 0) (fun _ _ => 0) _ h2).2 _ h1 ?_
  rw [← bin_scalar h1, ← bin_scalar h2]
  simp [Binarizer.M_nd, Binarizer.rho, Fin.sum_univ_two]
  norm_num

end Angler
