import Verif.Model.Linalg
import Verif.Lemmas.Grid
import Verif.Lemmas.Pml
import Verif.Props.Derivatives
import Mathlib.LinearAlgebra.Matrix.ToLinearEquiv

/-! # Structure of the derivative matrices and of `construct_A` -/

namespace Angler

open Matrix

variable {Nx Ny : ℕ}

theorem spdiag_mulVec {n : ℕ} (d v : Vec n ℂ) : spdiag d *ᵥ v = fun k => d k * v k := by
  funext k
  simp [spdiag, mulVec_diagonal]

/-- `createDws` along `x` is of the form `kron C 1`. -/
theorem createDws_x_kron (s : Dir) (dx dy : ℝ) : ∃ C : Mat Nx ℂ, createDws .x s dx dy Nx Ny = kron C (1 : Mat Ny ℂ) := by
  by_cases h : 1 < Nx
  · cases s
    · refine ⟨(1 / (dx : ℂ)) • diags Nx [-1, 1, 1] [0, 1, -(Nx : ℤ) + 1], ?_⟩
      ext r c
      simp only [createDws, if_pos h, Matrix.smul_apply, kron, smul_eq_mul, mul_assoc]
    · refine ⟨(1 / (dx : ℂ)) • diags Nx [1, -1, -1] [0, -1, (Nx : ℤ) - 1], ?_⟩
      ext r c
      simp only [createDws, if_pos h, Matrix.smul_apply, kron, smul_eq_mul, mul_assoc]
  · refine ⟨1, ?_⟩
    ext r c
    have e : r = c ↔ r.divNat = c.divNat ∧ r.modNat = c.modNat :=
      ⟨fun h => by rw [h]; exact ⟨rfl, rfl⟩, fun ⟨h1, h2⟩ => by rw [← pair_div_mod r, ← pair_div_mod c, h1, h2]⟩
    simp only [createDws, if_neg h, kron, Matrix.one_apply]
    by_cases h1 : r.divNat = c.divNat <;> by_cases h2 : r.modNat = c.modNat <;> simp [e, h1, h2]

/-- `createDws` along `y` is of the form `kron 1 C`. -/
theorem createDws_y_kron (s : Dir) (dx dy : ℝ) : ∃ C : Mat Ny ℂ, createDws .y s dx dy Nx Ny = kron (1 : Mat Nx ℂ) C := by
  by_cases h : 1 < Ny
  · cases s
    · refine ⟨(1 / (dy : ℂ)) • diags Ny [-1, 1, 1] [0, 1, -(Ny : ℤ) + 1], ?_⟩
      ext r c
      simp only [createDws, if_pos h, Matrix.smul_apply, kron, smul_eq_mul]
      ring
    · refine ⟨(1 / (dy : ℂ)) • diags Ny [1, -1, -1] [0, -1, (Ny : ℤ) - 1], ?_⟩
      ext r c
      simp only [createDws, if_pos h, Matrix.smul_apply, kron, smul_eq_mul]
      ring
  · refine ⟨1, ?_⟩
    ext r c
    have e : r = c ↔ r.divNat = c.divNat ∧ r.modNat = c.modNat :=
      ⟨fun h => by rw [h]; exact ⟨rfl, rfl⟩, fun ⟨h1, h2⟩ => by rw [← pair_div_mod r, ← pair_div_mod c, h1, h2]⟩
    simp only [createDws, if_neg h, kron, Matrix.one_apply]
    by_cases h1 : r.divNat = c.divNat <;> by_cases h2 : r.modNat = c.modNat <;> simp [e, h1, h2]

/-- A diagonal depending on `y` only commutes with operators along `x`. -/
theorem diag_y_comm_kron_x (g : Fin Ny → ℂ) (C : Mat Nx ℂ) :
    spdiag (flatten fun (_ : Fin Nx) j => g j) * kron C (1 : Mat Ny ℂ) = kron C (1 : Mat Ny ℂ) * spdiag (flatten fun (_ : Fin Nx) j => g j) := by
  ext r c
  simp only [spdiag, diagonal_mul, mul_diagonal, kron, flatten, Matrix.one_apply]
  by_cases h : r.modNat = c.modNat
  · simp only [h, if_true]; ring
  · simp [h]

/-- A diagonal depending on `x` only commutes with operators along `y`. -/
theorem diag_x_comm_kron_y (g : Fin Nx → ℂ) (C : Mat Ny ℂ) :
    spdiag (flatten fun i (_ : Fin Ny) => g i) * kron (1 : Mat Nx ℂ) C = kron (1 : Mat Nx ℂ) C * spdiag (flatten fun i (_ : Fin Ny) => g i) := by
  ext r c
  simp only [spdiag, diagonal_mul, mul_diagonal, kron, flatten, Matrix.one_apply]
  by_cases h : r.divNat = c.divNat
  · simp only [h, if_true]; ring
  · simp [h]

theorem spdiag_mul_spdiag {n : ℕ} (a b : Vec n ℂ) : spdiag a * spdiag b = spdiag fun k => a k * b k := by
  simp [spdiag, diagonal_mul_diagonal]

theorem spdiag_transpose {n : ℕ} (a : Vec n ℂ) : (spdiag a)ᵀ = spdiag a := by simp [spdiag]

theorem spdiag_one {n : ℕ} : spdiag (fun _ : Fin n => (1 : ℂ)) = 1 := by simp [spdiag]

/-- Either `Cf = -Cbᵀ` (more than one cell) or both are the identity (one cell), along `x`. -/
theorem createDws_x_pair (dx dy : ℝ) :
    createDws .x .f dx dy Nx Ny = - (createDws .x .b dx dy Nx Ny)ᵀ ∨
    (createDws .x .f dx dy Nx Ny = 1 ∧ createDws .x .b dx dy Nx Ny = 1) := by
  by_cases h : 1 < Nx
  · exact Or.inl ((C09_negative_transpose dx dy).1 h)
  · right; constructor <;> simp [createDws, h]

theorem createDws_y_pair (dx dy : ℝ) :
    createDws .y .f dx dy Nx Ny = - (createDws .y .b dx dy Nx Ny)ᵀ ∨
    (createDws .y .f dx dy Nx Ny = 1 ∧ createDws .y .b dx dy Nx Ny = 1) := by
  by_cases h : 1 < Ny
  · exact Or.inl ((C09_negative_transpose dx dy).2 h)
  · right; constructor <;> simp [createDws, h]

/-- Symmetrised second-order operator along one axis: `G · (Sf Cf) · T · (Sb Cb)` is symmetric when `G Sf = H` is diagonal and `H` commutes with `Cf`. -/
theorem sym_block {n : ℕ} (g sf sb t h : Vec n ℂ) (Cf Cb : Mat n ℂ) (hg : ∀ k, g k * sf k = h k)
    (hc : spdiag h * Cf = Cf * spdiag h) (hp : Cf = -Cbᵀ ∨ (Cf = 1 ∧ Cb = 1)) :
    (spdiag g * ((spdiag sf * Cf) * spdiag t * (spdiag sb * Cb)))ᵀ = spdiag g * ((spdiag sf * Cf) * spdiag t * (spdiag sb * Cb)) := by
  have e : spdiag g * ((spdiag sf * Cf) * spdiag t * (spdiag sb * Cb)) = Cf * spdiag (fun k => h k * (t k * sb k)) * Cb := by
    calc spdiag g * ((spdiag sf * Cf) * spdiag t * (spdiag sb * Cb))
        = (spdiag g * spdiag sf) * Cf * (spdiag t * spdiag sb) * Cb := by simp only [Matrix.mul_assoc]
      _ = spdiag h * Cf * (spdiag t * spdiag sb) * Cb := by rw [spdiag_mul_spdiag]; simp only [hg]
      _ = Cf * (spdiag h * (spdiag t * spdiag sb)) * Cb := by rw [hc]; simp only [Matrix.mul_assoc]
      _ = _ := by simp only [spdiag_mul_spdiag]
  rw [e]
  rcases hp with hp | ⟨h1, h2⟩
  · rw [hp]; simp only [Matrix.transpose_mul, Matrix.transpose_neg, Matrix.transpose_transpose, spdiag_transpose, Matrix.neg_mul, Matrix.mul_assoc]
  · rw [h1, h2]; simp [spdiag_transpose]

/-- The symmetriser: the product of the forward stretch factors. -/
noncomputable def symm (omega : ℝ) (xrange yrange : ℝ × ℝ) (Nx Ny : ℕ) (NPML : ℕ × ℕ) (L0 : ℝ) : Vec (Nx * Ny) ℂ :=
  flatten fun i j => create_sfactor xrange L0 .f omega Nx NPML.1 i * create_sfactor yrange L0 .f omega Ny NPML.2 j

theorem symm_block_x (omega L0 : ℝ) (NPML : ℕ × ℕ) (xr yr : ℝ × ℝ) (t : Vec (Nx * Ny) ℂ)
    (hx : ∀ i : Fin Nx, create_sfactor xr L0 .f omega Nx NPML.1 i ≠ 0) :
    let D := mkDerivs omega xr yr Nx Ny NPML L0
    (spdiag (symm omega xr yr Nx Ny NPML L0) * (D.Dxf * spdiag t * D.Dxb))ᵀ = spdiag (symm omega xr yr Nx Ny NPML L0) * (D.Dxf * spdiag t * D.Dxb) := by
  intro D
  simp only [D, mkDerivs, S_create]
  refine sym_block _ _ _ _ (flatten fun (_ : Fin Nx) j => create_sfactor yr L0 .f omega Ny NPML.2 j) _ _ ?_ ?_ (createDws_x_pair _ _)
  · intro k
    simp only [symm, flatten]
    have := hx k.divNat
    field_simp
  · obtain ⟨C, hC⟩ := createDws_x_kron (Nx := Nx) (Ny := Ny) .f (dL Nx Ny xr yr).1 (dL Nx Ny xr yr).2
    rw [hC]
    exact diag_y_comm_kron_x _ C

theorem symm_block_y (omega L0 : ℝ) (NPML : ℕ × ℕ) (xr yr : ℝ × ℝ) (t : Vec (Nx * Ny) ℂ)
    (hy : ∀ j : Fin Ny, create_sfactor yr L0 .f omega Ny NPML.2 j ≠ 0) :
    let D := mkDerivs omega xr yr Nx Ny NPML L0
    (spdiag (symm omega xr yr Nx Ny NPML L0) * (D.Dyf * spdiag t * D.Dyb))ᵀ = spdiag (symm omega xr yr Nx Ny NPML L0) * (D.Dyf * spdiag t * D.Dyb) := by
  intro D
  simp only [D, mkDerivs, S_create]
  refine sym_block _ _ _ _ (flatten fun i (_ : Fin Ny) => create_sfactor xr L0 .f omega Nx NPML.1 i) _ _ ?_ ?_ (createDws_y_pair _ _)
  · intro k
    simp only [symm, flatten]
    have := hy k.modNat
    field_simp
  · obtain ⟨C, hC⟩ := createDws_y_kron (Nx := Nx) (Ny := Ny) .f (dL Nx Ny xr yr).1 (dL Nx Ny xr yr).2
    rw [hC]
    exact diag_x_comm_kron_y _ C

/-- `diag(s) · A` is symmetric for both polarisations. -/
theorem construct_A_symm (omega L0 : ℝ) (NPML : ℕ × ℕ) (xr yr : ℝ × ℝ) (eps : Grid Nx Ny ℂ) (pol : Pol) (avg : Bool)
    (hx : ∀ i : Fin Nx, create_sfactor xr L0 .f omega Nx NPML.1 i ≠ 0)
    (hy : ∀ j : Fin Ny, create_sfactor yr L0 .f omega Ny NPML.2 j ≠ 0) :
    (spdiag (symm omega xr yr Nx Ny NPML L0) * (construct_A omega xr yr eps NPML pol L0 avg).1)ᵀ
      = spdiag (symm omega xr yr Nx Ny NPML L0) * (construct_A omega xr yr eps NPML pol L0 avg).1 := by
  have hbx := fun t => symm_block_x (Nx := Nx) (Ny := Ny) omega L0 NPML xr yr t hx
  have hby := fun t => symm_block_y (Nx := Nx) (Ny := Ny) omega L0 NPML xr yr t hy
  simp only at hbx hby
  have hd : ∀ (a b : Vec (Nx * Ny) ℂ), (spdiag a * spdiag b)ᵀ = spdiag a * spdiag b := fun a b => by
    rw [spdiag_mul_spdiag, spdiag_transpose]
  cases pol
  · have h1x := hbx fun _ => 1
    have h1y := hby fun _ => 1
    rw [spdiag_one, Matrix.mul_one] at h1x h1y
    simp only [construct_A, Matrix.mul_add, Matrix.mul_smul, Matrix.transpose_add, Matrix.transpose_smul, h1x, h1y, hd]
  · have h1 := hd (symm omega xr yr Nx Ny NPML L0) fun _ => 1
    rw [spdiag_one] at h1
    simp only [construct_A, Matrix.mul_add, Matrix.mul_smul, Matrix.transpose_add, Matrix.transpose_smul, hbx, hby, h1]

end Angler
