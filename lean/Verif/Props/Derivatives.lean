import Verif.Model.Derivatives
import Verif.Lemmas.Grid
import Mathlib.Analysis.Complex.Basic
import Mathlib.Analysis.Complex.Order
import Mathlib.LinearAlgebra.Matrix.PosDef

/-! # C08, C09: finite-difference operators -/

namespace Angler

open Matrix Spec
open scoped ComplexOrder

variable {Nx Ny : ℕ}

theorem createDws_xf (dx dy : ℝ) (h : 1 < Nx) (f : Grid Nx Ny ℂ) :
    createDws .x .f dx dy Nx Ny *ᵥ flatten f = flatten (fwdX dx f) := by
  simp only [createDws, if_pos h, smul_mulVec, kron_one_mulVec]
  refine flat_ext fun i j => ?_
  simp only [Pi.smul_apply, flatten_pair, diags_fwd_entry h, smul_eq_mul, fwdX, sub_mul, Finset.sum_sub_distrib, ite_mul,
    one_mul, zero_mul, Finset.sum_ite_eq', Finset.mem_univ, if_true]
  ring

theorem createDws_xb (dx dy : ℝ) (h : 1 < Nx) (f : Grid Nx Ny ℂ) :
    createDws .x .b dx dy Nx Ny *ᵥ flatten f = flatten (bwdX dx f) := by
  simp only [createDws, if_pos h, smul_mulVec, kron_one_mulVec]
  refine flat_ext fun i j => ?_
  simp only [Pi.smul_apply, flatten_pair, diags_bwd_entry h, smul_eq_mul, bwdX, sub_mul, Finset.sum_sub_distrib, ite_mul,
    one_mul, zero_mul, Finset.sum_ite_eq', Finset.mem_univ, if_true]
  ring

theorem createDws_yf (dx dy : ℝ) (h : 1 < Ny) (f : Grid Nx Ny ℂ) :
    createDws .y .f dx dy Nx Ny *ᵥ flatten f = flatten (fwdY dy f) := by
  simp only [createDws, if_pos h, smul_mulVec, one_kron_mulVec]
  refine flat_ext fun i j => ?_
  simp only [Pi.smul_apply, flatten_pair, diags_fwd_entry h, smul_eq_mul, fwdY, sub_mul, Finset.sum_sub_distrib, ite_mul,
    one_mul, zero_mul, Finset.sum_ite_eq', Finset.mem_univ, if_true]
  ring

theorem createDws_yb (dx dy : ℝ) (h : 1 < Ny) (f : Grid Nx Ny ℂ) :
    createDws .y .b dx dy Nx Ny *ᵥ flatten f = flatten (bwdY dy f) := by
  simp only [createDws, if_pos h, smul_mulVec, one_kron_mulVec]
  refine flat_ext fun i j => ?_
  simp only [Pi.smul_apply, flatten_pair, diags_bwd_entry h, smul_eq_mul, bwdY, sub_mul, Finset.sum_sub_distrib, ite_mul,
    one_mul, zero_mul, Finset.sum_ite_eq', Finset.mem_univ, if_true]
  ring

/-- C08 (partial): on an axis with at least two cells the operators are the periodic difference quotients.
Missing: the claim fails on an axis with one cell, see `C08_singleton_axis_fails`. -/
theorem C08_differences_partial (dx dy : ℝ) (_hdx : dx ≠ 0) (_hdy : dy ≠ 0) (f : Grid Nx Ny ℂ) :
    (1 < Nx → createDws .x .f dx dy Nx Ny *ᵥ flatten f = flatten (fwdX dx f) ∧
      createDws .x .b dx dy Nx Ny *ᵥ flatten f = flatten (bwdX dx f)) ∧
    (1 < Ny → createDws .y .f dx dy Nx Ny *ᵥ flatten f = flatten (fwdY dy f) ∧
      createDws .y .b dx dy Nx Ny *ᵥ flatten f = flatten (bwdY dy f)) :=
  ⟨fun h => ⟨createDws_xf dx dy h f, createDws_xb dx dy h f⟩, fun h => ⟨createDws_yf dx dy h f, createDws_yb dx dy h f⟩⟩

/-- C08 is false in full: on an axis with one cell `createDws` is the identity, so the "derivative" of the field is the field itself,
for each direction and each spacing; in particular constant fields do not have zero derivative. -/
theorem C08_singleton_axis_fails (dx dy : ℝ) (s : Dir) :
    (∀ (Ny : ℕ) (f : Grid 1 Ny ℂ), createDws .x s dx dy 1 Ny *ᵥ flatten f = flatten f) ∧
    (∀ (Nx : ℕ) (f : Grid Nx 1 ℂ), createDws .y s dx dy Nx 1 *ᵥ flatten f = flatten f) ∧
    ∃ f : Grid 1 3 ℂ, (∀ i i' j, f i j = f i' j) ∧ createDws .x s dx dy 1 3 *ᵥ flatten f ≠ 0 := by
  have h1 : ∀ (Ny : ℕ) (f : Grid 1 Ny ℂ), createDws .x s dx dy 1 Ny *ᵥ flatten f = flatten f := fun Ny f => by
    simp [createDws]
  refine ⟨h1, fun Nx f => by simp [createDws], fun _ _ => 1, fun _ _ _ => rfl, ?_⟩
  rw [h1]
  intro h
  have := congrFun h (finProdFinEquiv (0, 0))
  rw [flatten_pair] at this
  exact one_ne_zero this

/-- Non-vacuity and the wrap-around: on three cells with spacing 2 the forward difference at the last cell uses the first. -/
example (f : Grid 3 1 ℂ) :
    unflatten (createDws .x .f 2 2 3 1 *ᵥ flatten f) 2 0 = (f 0 0 - f 2 0) / (2 : ℝ) := by
  rw [((C08_differences_partial 2 2 (by norm_num) (by norm_num) f).1 (by norm_num)).1, unflatten_flatten]
  rfl

/-- C08: a field constant along an axis (with more than one cell) has zero derivative there. -/
theorem C08_constant_partial (dx dy : ℝ) (s : Dir) (f : Grid Nx Ny ℂ) :
    (1 < Nx → (∀ i i' j, f i j = f i' j) → createDws .x s dx dy Nx Ny *ᵥ flatten f = 0) ∧
    (1 < Ny → (∀ i j j', f i j = f i j') → createDws .y s dx dy Nx Ny *ᵥ flatten f = 0) := by
  refine ⟨fun h hc => ?_, fun h hc => ?_⟩ <;> cases s
  · rw [createDws_xf dx dy h]; refine flat_ext fun i j => ?_
    simp [fwdX, hc (next i) i j]
  · rw [createDws_xb dx dy h]; refine flat_ext fun i j => ?_
    simp [bwdX, hc (prev i) i j]
  · rw [createDws_yf dx dy h]; refine flat_ext fun i j => ?_
    simp [fwdY, hc i (next j) j]
  · rw [createDws_yb dx dy h]; refine flat_ext fun i j => ?_
    simp [bwdY, hc i (prev j) j]

/-! ## C09 -/

/-- C09: the forward operator is minus the transpose of the backward operator. -/
theorem C09_negative_transpose (dx dy : ℝ) :
    (1 < Nx → createDws .x .f dx dy Nx Ny = - (createDws .x .b dx dy Nx Ny)ᵀ) ∧
    (1 < Ny → createDws .y .f dx dy Nx Ny = - (createDws .y .b dx dy Nx Ny)ᵀ) := by
  refine ⟨fun h => ?_, fun h => ?_⟩
  · ext r c
    simp only [createDws, if_pos h, Matrix.neg_apply, Matrix.transpose_apply, Matrix.smul_apply, kron, smul_eq_mul,
      diags_bwd_transpose, Matrix.one_apply, @eq_comm _ c.modNat]
    ring
  · ext r c
    simp only [createDws, if_pos h, Matrix.neg_apply, Matrix.transpose_apply, Matrix.smul_apply, kron, smul_eq_mul,
      diags_bwd_transpose, Matrix.one_apply, @eq_comm _ c.divNat]
    ring

theorem createDws_real (w : Axis) (s : Dir) (dx dy : ℝ) (r c : Fin (Nx * Ny)) :
    star (createDws w s dx dy Nx Ny r c) = createDws w s dx dy Nx Ny r c := by
  have hd : ∀ (n : ℕ) (a b d : ℂ) (o p q : ℤ) (r c : Fin n), star a = a → star b = b → star d = d →
      star (diags n [a, b, d] [o, p, q] r c) = diags n [a, b, d] [o, p, q] r c := by
    intro n a b d o p q r c ha hb hd
    simp only [diags, List.zip_cons_cons, List.zip_nil_right, List.map_cons, List.map_nil, List.sum_cons, List.sum_nil,
      star_add, star_zero, apply_ite star, ha, hb, hd]
  have h1 : ∀ (n : ℕ) (r c : Fin n), star ((1 : Mat n ℂ) r c) = (1 : Mat n ℂ) r c := by
    intro n r c; simp [Matrix.one_apply, apply_ite star]
  have hr : ∀ d : ℝ, star (1 / (d : ℂ)) = 1 / (d : ℂ) := fun d => by
    rw [star_div₀, star_one]; simp
  cases w <;> cases s <;> simp only [createDws] <;> split_ifs <;>
    first
      | exact h1 _ r c
      | (simp only [Matrix.smul_apply, kron, smul_eq_mul, star_mul', hr, h1]
         rw [hd] <;> simp)

/-- The discrete Laplacian without PML. -/
noncomputable def laplacian (dx dy : ℝ) (Nx Ny : ℕ) : Mat (Nx * Ny) ℂ :=
  createDws .x .f dx dy Nx Ny * createDws .x .b dx dy Nx Ny + createDws .y .f dx dy Nx Ny * createDws .y .b dx dy Nx Ny

/-- C09: without PML, `Dxf Dxb + Dyf Dyb` is real, symmetric and negative semidefinite (grids with at least two cells per axis):
`-(x* L x) = |Dxb x|² + |Dyb x|²`. -/
theorem C09_laplacian (dx dy : ℝ) (hx : 1 < Nx) (hy : 1 < Ny) :
    (∀ r c, (laplacian dx dy Nx Ny r c).im = 0) ∧ (laplacian dx dy Nx Ny)ᵀ = laplacian dx dy Nx Ny ∧
    (-(laplacian dx dy Nx Ny)).PosSemidef := by
  obtain ⟨tx, ty⟩ := C09_negative_transpose (Nx := Nx) (Ny := Ny) dx dy
  have cx : (createDws .x .b dx dy Nx Ny)ᴴ = (createDws .x .b dx dy Nx Ny)ᵀ := by
    ext r c; simpa [Matrix.conjTranspose_apply] using createDws_real .x .b dx dy c r
  have cy : (createDws .y .b dx dy Nx Ny)ᴴ = (createDws .y .b dx dy Nx Ny)ᵀ := by
    ext r c; simpa [Matrix.conjTranspose_apply] using createDws_real .y .b dx dy c r
  have e : -(laplacian dx dy Nx Ny) = (createDws .x .b dx dy Nx Ny)ᴴ * createDws .x .b dx dy Nx Ny
      + (createDws .y .b dx dy Nx Ny)ᴴ * createDws .y .b dx dy Nx Ny := by
    rw [laplacian, tx hx, ty hy, cx, cy]; simp [add_comm]
  refine ⟨fun r c => ?_, ?_, ?_⟩
  · have h : star (laplacian dx dy Nx Ny r c) = laplacian dx dy Nx Ny r c := by
      simp only [laplacian, Matrix.add_apply, Matrix.mul_apply, star_add, star_sum, star_mul', createDws_real]
    exact Complex.conj_eq_iff_im.1 h
  · rw [laplacian, tx hx, ty hy]
    simp [Matrix.transpose_add, Matrix.transpose_mul]
  · rw [e]
    exact (posSemidef_conjTranspose_mul_self _).add (posSemidef_conjTranspose_mul_self _)

/-- Non-vacuity: a `2 × 3` grid; an entry of the forward operator. -/
example : createDws .x .f 1 1 2 3 (finProdFinEquiv (0, 1)) (finProdFinEquiv (1, 1)) = 1 ∧
    (-(laplacian 1 1 2 3)).PosSemidef := by
  refine ⟨?_, (C09_laplacian 1 1 (by norm_num) (by norm_num)).2.2⟩
  simp only [createDws, if_pos (by norm_num : 1 < 2), Matrix.smul_apply, kron, divNat_pair, modNat_pair, diags_fwd_entry (by norm_num : 1 < 2), Matrix.one_apply]
  simp [Spec.next]

end Angler
