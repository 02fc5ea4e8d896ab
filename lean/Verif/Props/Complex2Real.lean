import Verif.Model.Linalg
import Mathlib.Data.Complex.BigOperators
import Mathlib.LinearAlgebra.Matrix.ToLinearEquiv

/-! # C16: the complex-to-real solver -/

namespace Angler

open Matrix

theorem Areal_ll {n : ℕ} (A11 A12 : Mat n ℂ) (i j : Fin n) : Areal A11 A12 (.inl i) (.inl j) = (A11 i j).re + (A12 i j).re := rfl
theorem Areal_lr {n : ℕ} (A11 A12 : Mat n ℂ) (i j : Fin n) : Areal A11 A12 (.inl i) (.inr j) = -(A11 i j).im + (A12 i j).im := rfl
theorem Areal_rl {n : ℕ} (A11 A12 : Mat n ℂ) (i j : Fin n) : Areal A11 A12 (.inr i) (.inl j) = (A11 i j).im + (A12 i j).im := rfl
theorem Areal_rr {n : ℕ} (A11 A12 : Mat n ℂ) (i j : Fin n) : Areal A11 A12 (.inr i) (.inr j) = (A11 i j).re - (A12 i j).re := rfl

/-- **C16 (partial).** Full claim: for every backend the package supports.  Proved for the Pardiso backend (and for a zero right-hand side in both); with the
fallback backend `'scipy'` the function raises (`C16_scipy_raises`). -/
theorem C16_complex2real_partial (env : Env) (he : env.Exact) {n : ℕ} (A11 A12 : Mat n ℂ) (b : Vec n ℂ)
    (hback : env.backend = .pardiso ∨ b = 0) (hdet : (Areal A11 A12).det ≠ 0 ∨ b = 0) :
    ∃ x, solver_complex2real env A11 A12 b = .ok x ∧ A11 *ᵥ x + A12 *ᵥ (fun k => (starRingEnd ℂ) (x k)) = b := by
  by_cases hb : b = 0
  · refine ⟨0, by simp [solver_complex2real, hb], ?_⟩
    have : (fun k : Fin n => (starRingEnd ℂ) ((0 : Vec n ℂ) k)) = 0 := by funext k; simp
    rw [this, hb]; simp
  · have hp := hback.resolve_right hb
    have hd := hdet.resolve_right hb
    set z := env.solveR (Areal A11 A12) (Sum.elim (fun k => (b k).re) (fun k => (b k).im)) with hz
    have hs := he.solveR_spec (Areal A11 A12) (Sum.elim (fun k => (b k).re) (fun k => (b k).im)) hd
    rw [← hz] at hs
    refine ⟨fun k => (z (Sum.inl k) : ℂ) + Complex.I * (z (Sum.inr k) : ℂ), by simp [solver_complex2real, hb, hp, ← hz], ?_⟩
    funext k
    have h1 := congrFun hs (Sum.inl k)
    have h2 := congrFun hs (Sum.inr k)
    simp only [mulVec, dotProduct, Fintype.sum_sum_type, Areal_ll, Areal_lr, Areal_rl, Areal_rr,
      Sum.elim_inl, Sum.elim_inr, ← Finset.sum_add_distrib] at h1 h2
    simp only [Pi.add_apply, mulVec, dotProduct, ← Finset.sum_add_distrib]
    apply Complex.ext
    · rw [Complex.re_sum, ← h1]
      refine Finset.sum_congr rfl fun j _ => ?_
      simp
      ring
    · rw [Complex.im_sum, ← h2]
      refine Finset.sum_congr rfl fun j _ => ?_
      simp
      ring

/-- **C16, negation.** On an installation without Pardiso (the fallback `'scipy'`) the function raises `NameError` on every nonzero right-hand side. -/
theorem C16_scipy_raises (env : Env) (hback : env.backend = .scipy) {n : ℕ} (A11 A12 : Mat n ℂ) (b : Vec n ℂ) (hb : b ≠ 0) :
    solver_complex2real env A11 A12 b = .error .nameError := by
  simp [solver_complex2real, hb, hback]

/-- Exactly when the real block matrix is singular there is a nonzero solution of the homogeneous coupled system. -/
theorem Areal_det_ne_zero_iff {n : ℕ} (A11 A12 : Mat n ℂ) :
    (Areal A11 A12).det ≠ 0 ↔ ∀ x : Vec n ℂ, A11 *ᵥ x + A12 *ᵥ (fun k => (starRingEnd ℂ) (x k)) = 0 → x = 0 := by
  have key : ∀ z : Fin n ⊕ Fin n → ℝ, (Areal A11 A12) *ᵥ z = 0 ↔
      A11 *ᵥ (fun k => (z (Sum.inl k) : ℂ) + Complex.I * (z (Sum.inr k) : ℂ)) +
        A12 *ᵥ (fun k => (starRingEnd ℂ) ((z (Sum.inl k) : ℂ) + Complex.I * (z (Sum.inr k) : ℂ))) = 0 := by
    intro z
    have hre : ∀ k, ((A11 *ᵥ (fun k => (z (Sum.inl k) : ℂ) + Complex.I * (z (Sum.inr k) : ℂ)) +
        A12 *ᵥ (fun k => (starRingEnd ℂ) ((z (Sum.inl k) : ℂ) + Complex.I * (z (Sum.inr k) : ℂ)))) k).re = ((Areal A11 A12) *ᵥ z) (Sum.inl k) := by
      intro k
      simp only [Pi.add_apply, mulVec, dotProduct, Fintype.sum_sum_type, Areal_ll, Areal_lr, ← Finset.sum_add_distrib]
      rw [Complex.re_sum]
      refine Finset.sum_congr rfl fun j _ => ?_
      simp
      ring
    have him : ∀ k, ((A11 *ᵥ (fun k => (z (Sum.inl k) : ℂ) + Complex.I * (z (Sum.inr k) : ℂ)) +
        A12 *ᵥ (fun k => (starRingEnd ℂ) ((z (Sum.inl k) : ℂ) + Complex.I * (z (Sum.inr k) : ℂ)))) k).im = ((Areal A11 A12) *ᵥ z) (Sum.inr k) := by
      intro k
      simp only [Pi.add_apply, mulVec, dotProduct, Fintype.sum_sum_type, Areal_rl, Areal_rr, ← Finset.sum_add_distrib]
      rw [Complex.im_sum]
      refine Finset.sum_congr rfl fun j _ => ?_
      simp
      ring
    constructor
    · intro h
      funext k
      apply Complex.ext
      · rw [hre, h]; rfl
      · rw [him, h]; rfl
    · intro h
      funext k
      cases k with
      | inl k => rw [← hre, h]; rfl
      | inr k => rw [← him, h]; rfl
  constructor
  · intro hd x hx
    by_contra hne
    refine hd (Matrix.exists_mulVec_eq_zero_iff.1 ⟨Sum.elim (fun k => (x k).re) (fun k => (x k).im), ?_, ?_⟩)
    · intro h0
      apply hne
      funext k
      exact Complex.ext (congrFun h0 (Sum.inl k)) (congrFun h0 (Sum.inr k))
    · rw [key]
      have t : ∀ k, (((x k).re : ℝ) : ℂ) + Complex.I * (((x k).im : ℝ) : ℂ) = x k := fun k => by
        rw [mul_comm]; exact Complex.re_add_im _
      simp only [Sum.elim_inl, Sum.elim_inr, t]
      exact hx
  · intro h hd
    obtain ⟨z, hz, h0⟩ := Matrix.exists_mulVec_eq_zero_iff.2 hd
    have h1 := h _ ((key z).1 h0)
    apply hz
    funext k
    cases k with
    | inl k => simpa using congrArg Complex.re (congrFun h1 k)
    | inr k => simpa using congrArg Complex.im (congrFun h1 k)

/-- Non-vacuity of C16: `2 x + conj x = 3i` has a nonsingular real block matrix; the solution is `3i`. -/
example : (Areal (2 • (1 : Mat 1 ℂ)) (1 : Mat 1 ℂ)).det ≠ 0 ∧ ((fun _ => 3 * Complex.I : Vec 1 ℂ)) ≠ 0 := by
  constructor
  · rw [Areal_det_ne_zero_iff]
    intro x hx
    funext k
    have h := congrFun hx k
    simp only [smul_mulVec, Matrix.one_mulVec, Pi.add_apply, Pi.smul_apply, Pi.zero_apply, nsmul_eq_mul] at h
    have hr := congrArg Complex.re h
    have hi := congrArg Complex.im h
    simp at hr hi
    apply Complex.ext <;> simp <;> linarith
  · intro h
    have := congrFun h 0
    simp at this

end Angler
