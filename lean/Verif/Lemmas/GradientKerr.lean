import Verif.Lemmas.GradientEz
import Verif.Lemmas.ImplicitBranch
import Verif.Props.Nonlinear
import Mathlib.LinearAlgebra.Matrix.ToLinearEquiv

/-! # The adjoint method for the Kerr-nonlinear Ez field -/

namespace Angler

open Matrix Filter Topology

/-! ## The doubled system of `adjoint_kerr_Ez` -/

section Stack
variable {n : ℕ}

theorem elim_append (a b : Vec n ℂ) : Sum.elim a b ∘ finSumFinEquiv.symm = Fin.append a b := by
  funext k
  refine Fin.addCases (fun i => ?_) (fun i => ?_) k
  · rw [Function.comp_apply, finSumFinEquiv_symm_apply_castAdd, Fin.append_left, Sum.elim_inl]
  · rw [Function.comp_apply, finSumFinEquiv_symm_apply_natAdd, Fin.append_right, Sum.elim_inr]

theorem comp_elim (z : Vec (n + n) ℂ) : z ∘ finSumFinEquiv = Sum.elim (fun k => z (Fin.castAdd n k)) (fun k => z (Fin.natAdd n k)) := by
  funext s
  cases s
  · rw [Function.comp_apply, finSumFinEquiv_apply_left, Sum.elim_inl]
  · rw [Function.comp_apply, finSumFinEquiv_apply_right, Sum.elim_inr]

theorem stackConj_mulVec (C11 C12 : Mat n ℂ) (z : Vec (n + n) ℂ) :
    stackConj C11 C12 *ᵥ z = Fin.append (C11 *ᵥ (fun k => z (Fin.castAdd n k)) + C12 *ᵥ fun k => z (Fin.natAdd n k))
      (C12.map (starRingEnd ℂ) *ᵥ (fun k => z (Fin.castAdd n k)) + C11.map (starRingEnd ℂ) *ᵥ fun k => z (Fin.natAdd n k)) := by
  have h1 : stackConj C11 C12 *ᵥ z = (fromBlocks C11 C12 (C12.map (starRingEnd ℂ)) (C11.map (starRingEnd ℂ)) *ᵥ
      Sum.elim (fun k => z (Fin.castAdd n k)) (fun k => z (Fin.natAdd n k))) ∘ finSumFinEquiv.symm := by
    unfold stackConj
    rw [Matrix.reindex_apply, Matrix.submatrix_mulVec_equiv, Equiv.symm_symm, comp_elim]
  rw [h1, fromBlocks_mulVec, elim_append]
  rfl

theorem stackConj_transpose_mulVec (C11 C12 : Mat n ℂ) (z : Vec (n + n) ℂ) :
    (stackConj C11 C12)ᵀ *ᵥ z = Fin.append (C11ᵀ *ᵥ (fun k => z (Fin.castAdd n k)) + (C12.map (starRingEnd ℂ))ᵀ *ᵥ fun k => z (Fin.natAdd n k))
      (C12ᵀ *ᵥ (fun k => z (Fin.castAdd n k)) + (C11.map (starRingEnd ℂ))ᵀ *ᵥ fun k => z (Fin.natAdd n k)) := by
  have h1 : (stackConj C11 C12)ᵀ *ᵥ z = (fromBlocks C11ᵀ (C12.map (starRingEnd ℂ))ᵀ C12ᵀ (C11.map (starRingEnd ℂ))ᵀ *ᵥ
      Sum.elim (fun k => z (Fin.castAdd n k)) (fun k => z (Fin.natAdd n k))) ∘ finSumFinEquiv.symm := by
    unfold stackConj
    rw [Matrix.reindex_apply, Matrix.transpose_submatrix, Matrix.submatrix_mulVec_equiv, Matrix.fromBlocks_transpose, Equiv.symm_symm, comp_elim]
  rw [h1, fromBlocks_mulVec, elim_append]
  rfl

theorem conj_mulVec (C : Mat n ℂ) (v : Vec n ℂ) : (C.map (starRingEnd ℂ)) *ᵥ (fun k => (starRingEnd ℂ) (v k)) = fun k => (starRingEnd ℂ) ((C *ᵥ v) k) := by
  funext i
  simp only [mulVec_eq_sum', Matrix.map_apply, map_sum, map_mul]

theorem append_inj {a b c d : Vec n ℂ} (h : Fin.append a b = Fin.append c d) : a = c ∧ b = d := by
  constructor
  · funext k
    have := congrFun h (Fin.castAdd n k)
    rwa [Fin.append_left, Fin.append_left] at this
  · funext k
    have := congrFun h (Fin.natAdd n k)
    rwa [Fin.append_right, Fin.append_right] at this

/-- The doubled matrix is nonsingular when the real-linear map `h ↦ C11 h + C12 conj(h)` is injective. -/
theorem stackConj_det (C11 C12 : Mat n ℂ) (hinj : ∀ h : Vec n ℂ, C11 *ᵥ h + C12 *ᵥ (fun k => (starRingEnd ℂ) (h k)) = 0 → h = 0) : (stackConj C11 C12).det ≠ 0 := by
  intro hdet
  obtain ⟨v, hv, hv0⟩ := Matrix.exists_mulVec_eq_zero_iff.2 hdet
  apply hv
  rw [stackConj_mulVec] at hv0
  set a : Vec n ℂ := fun k => v (Fin.castAdd n k) with ha
  set b : Vec n ℂ := fun k => v (Fin.natAdd n k) with hb
  have h0 : Fin.append (0 : Vec n ℂ) (0 : Vec n ℂ) = 0 := by
    funext k
    refine Fin.addCases (fun i => ?_) (fun i => ?_) k
    · rw [Fin.append_left]; rfl
    · rw [Fin.append_right]; rfl
  rw [← h0] at hv0
  obtain ⟨e1, e2⟩ := append_inj hv0
  let b' : Vec n ℂ := fun k => (starRingEnd ℂ) (b k)
  let a' : Vec n ℂ := fun k => (starRingEnd ℂ) (a k)
  have e2' : C12 *ᵥ a' + C11 *ᵥ b' = 0 := by
    have h1 := conj_mulVec C12 a'
    have h2 := conj_mulVec C11 b'
    simp only [a', b', Complex.conj_conj] at h1 h2
    have e3 := e2
    rw [show a = fun k => a k from rfl, show b = fun k => b k from rfl, h1, h2] at e3
    funext k
    have h3 := congrFun e3 k
    simp only [Pi.add_apply, Pi.zero_apply] at h3 ⊢
    rw [← map_add] at h3
    exact (map_eq_zero _).1 h3
  have k1 : a + b' = 0 := by
    apply hinj
    have hc : (fun k => (starRingEnd ℂ) ((a + b') k)) = a' + b := by
      funext k; simp [a', b']
    rw [hc, mulVec_add, mulVec_add]
    have : C11 *ᵥ a + C11 *ᵥ b' + (C12 *ᵥ a' + C12 *ᵥ b) = (C11 *ᵥ a + C12 *ᵥ b) + (C12 *ᵥ a' + C11 *ᵥ b') := by abel
    rw [this, e1, e2', add_zero]
  have k2 : Complex.I • (a - b') = 0 := by
    apply hinj
    have hc : (fun k => (starRingEnd ℂ) ((Complex.I • (a - b')) k)) = -(Complex.I • (a' - b)) := by
      funext k; simp [a', b']
    rw [hc, mulVec_smul, mulVec_neg, mulVec_smul, mulVec_sub, mulVec_sub]
    have : Complex.I • (C11 *ᵥ a - C11 *ᵥ b') + -(Complex.I • (C12 *ᵥ a' - C12 *ᵥ b)) = Complex.I • ((C11 *ᵥ a + C12 *ᵥ b) - (C12 *ᵥ a' + C11 *ᵥ b')) := by
      rw [← smul_neg, ← smul_add]; congr 1; abel
    rw [this, e1, e2', sub_zero, smul_zero]
  have k3 : a - b' = 0 := (smul_eq_zero.1 k2).resolve_left Complex.I_ne_zero
  have k4 : ∀ k, a k = 0 := by
    intro k
    have h1 := congrFun k1 k
    have h2 := congrFun k3 k
    simp only [Pi.add_apply, Pi.sub_apply, Pi.zero_apply] at h1 h2
    linear_combination (h1 + h2) / 2
  have k5 : ∀ k, b k = 0 := by
    intro k
    have h1 := congrFun k1 k
    simp only [Pi.add_apply, Pi.zero_apply, k4 k, zero_add, b'] at h1
    exact (map_eq_zero _).1 h1
  funext k
  exact Fin.addCases (fun i => k4 i) (fun i => k5 i) k

/-- The two halves of the adjoint solution are conjugate. -/
theorem stack_halves (C11 C12 : Mat n ℂ) (hdet : (stackConj C11 C12).det ≠ 0) (b : Vec n ℂ) (z : Vec (n + n) ℂ) (hz : (stackConj C11 C12)ᵀ *ᵥ z = stackVec b) (k : Fin n) :
    z (Fin.natAdd n k) = (starRingEnd ℂ) (z (Fin.castAdd n k)) := by
  set z1 : Vec n ℂ := fun k => z (Fin.castAdd n k) with h1
  set z2 : Vec n ℂ := fun k => z (Fin.natAdd n k) with h2
  rw [stackConj_transpose_mulVec, ← h1, ← h2, stackVec] at hz
  obtain ⟨e1, e2⟩ := append_inj hz
  let w : Vec (n + n) ℂ := Fin.append (fun k => (starRingEnd ℂ) (z2 k)) fun k => (starRingEnd ℂ) (z1 k)
  have hw1 : (fun k => w (Fin.castAdd n k)) = fun k => (starRingEnd ℂ) (z2 k) := by funext k; exact Fin.append_left _ _ k
  have hw2 : (fun k => w (Fin.natAdd n k)) = fun k => (starRingEnd ℂ) (z1 k) := by funext k; exact Fin.append_right _ _ k
  have hcc : ∀ C : Mat n ℂ, (C.map (starRingEnd ℂ)).map (starRingEnd ℂ) = C := by
    intro C; ext i j; simp
  have hw : (stackConj C11 C12)ᵀ *ᵥ w = stackVec b := by
    rw [stackConj_transpose_mulVec, hw1, hw2, stackVec]
    have q1 : C11ᵀ *ᵥ (fun k => (starRingEnd ℂ) (z2 k)) = fun k => (starRingEnd ℂ) ((((C11.map (starRingEnd ℂ))ᵀ) *ᵥ z2) k) := by
      rw [← conj_mulVec, Matrix.transpose_map, hcc]
    have q2 : (C12.map (starRingEnd ℂ))ᵀ *ᵥ (fun k => (starRingEnd ℂ) (z1 k)) = fun k => (starRingEnd ℂ) ((C12ᵀ *ᵥ z1) k) := by
      rw [← conj_mulVec, Matrix.transpose_map]
    have q3 : C12ᵀ *ᵥ (fun k => (starRingEnd ℂ) (z2 k)) = fun k => (starRingEnd ℂ) ((((C12.map (starRingEnd ℂ))ᵀ) *ᵥ z2) k) := by
      rw [← conj_mulVec, Matrix.transpose_map, hcc]
    have q4 : (C11.map (starRingEnd ℂ))ᵀ *ᵥ (fun k => (starRingEnd ℂ) (z1 k)) = fun k => (starRingEnd ℂ) ((C11ᵀ *ᵥ z1) k) := by
      rw [← conj_mulVec, Matrix.transpose_map]
    rw [q1, q2, q3, q4]
    congr 1
    · funext k
      have := congrArg (starRingEnd ℂ) (congrFun e2 k)
      simp only [Pi.add_apply, map_add, Complex.conj_conj] at this
      simp only [Pi.add_apply]
      rw [← this, add_comm]
    · funext k
      have := congrArg (starRingEnd ℂ) (congrFun e1 k)
      simp only [Pi.add_apply, map_add] at this
      simp only [Pi.add_apply]
      rw [← this, add_comm]
  have hdT : (stackConj C11 C12)ᵀ.det ≠ 0 := by rwa [Matrix.det_transpose]
  have hzz : (stackConj C11 C12)ᵀ *ᵥ z = stackVec b := by
    rw [stackConj_transpose_mulVec, ← h1, ← h2, stackVec, e1, e2]
  have hsub : z - w = 0 := Matrix.eq_zero_of_mulVec_eq_zero hdT (by rw [mulVec_sub, hzz, hw, sub_self])
  have := congrFun (sub_eq_zero.1 hsub) (Fin.natAdd n k)
  rw [this]
  exact Fin.append_right _ _ k

/-- The adjoint identity for the doubled system. -/
theorem kerr_adjoint_identity (C11 C12 : Mat n ℂ) (hdet : (stackConj C11 C12).det ≠ 0) (p : Vec n ℂ) (z : Vec (n + n) ℂ)
    (hz : (stackConj C11 C12)ᵀ *ᵥ z = stackVec (-p)) (h r : Vec n ℂ) (hh : C11 *ᵥ h + C12 *ᵥ (fun k => (starRingEnd ℂ) (h k)) = -r) :
    (p ⬝ᵥ h).re = ((fun k => z (Fin.castAdd n k)) ⬝ᵥ r).re := by
  have hz2 : (fun k => z (Fin.natAdd n k)) = fun k => (starRingEnd ℂ) (z (Fin.castAdd n k)) := funext fun k => stack_halves C11 C12 hdet _ z hz k
  rw [stackConj_transpose_mulVec, stackVec] at hz
  obtain ⟨e1, -⟩ := append_inj hz
  rw [hz2] at e1
  set z1 : Vec n ℂ := fun k => z (Fin.castAdd n k) with h1
  have hr : r = -(C11 *ᵥ h + C12 *ᵥ fun k => (starRingEnd ℂ) (h k)) := by rw [hh, neg_neg]
  have hp : p = -(C11ᵀ *ᵥ z1 + (C12.map (starRingEnd ℂ))ᵀ *ᵥ fun k => (starRingEnd ℂ) (z1 k)) := by rw [e1, neg_neg]
  have hc : ((fun k => (starRingEnd ℂ) (z1 k)) ⬝ᵥ (C12.map (starRingEnd ℂ) *ᵥ h)).re = (z1 ⬝ᵥ (C12 *ᵥ fun k => (starRingEnd ℂ) (h k))).re := by
    have : (fun k => (starRingEnd ℂ) (z1 k)) ⬝ᵥ (C12.map (starRingEnd ℂ) *ᵥ h) = (starRingEnd ℂ) (z1 ⬝ᵥ (C12 *ᵥ fun k => (starRingEnd ℂ) (h k))) := by
      have h3 := conj_mulVec C12 fun k => (starRingEnd ℂ) (h k)
      simp only [Complex.conj_conj] at h3
      rw [show h = fun k => h k from rfl, h3]
      simp only [dotProduct, map_sum, map_mul]
    rw [this, Complex.conj_re]
  rw [hp, hr, neg_dotProduct, dotProduct_neg, add_dotProduct, dotProduct_add, Matrix.mulVec_transpose, Matrix.mulVec_transpose, ← Matrix.dotProduct_mulVec,
    ← Matrix.dotProduct_mulVec, Complex.neg_re, Complex.neg_re, Complex.add_re, Complex.add_re, hc]

end Stack

end Angler
