import Verif.Model.RoundedMatrixHz
import Verif.Props.Assembly
import Verif.Props.Resonance

/-! # The Hz system matrix in floating point (C111) -/

namespace Angler

open Matrix

variable {Nx Ny : ℕ} {F : FlLib} {u v θ : ℝ}

/-- The cell before a cell along an axis, with wrap-around. -/
def Spec.back (w : Axis) (i : Fin Nx) (j : Fin Ny) : Fin Nx × Fin Ny :=
  match w with
  | .x => (Spec.prev i, j)
  | .y => (i, Spec.prev j)

/-- The permittivity on the edges along `w`: the mean of two cells, or that of the cell itself without averaging. -/
noncomputable def Spec.edge (avg : Bool) (eps : Grid Nx Ny ℂ) (w : Axis) (i : Fin Nx) (j : Fin Ny) : ℂ :=
  if avg then (eps (Spec.back w i j).1 (Spec.back w i j).2 + eps i j) / 2 else eps i j

/-- No edge permittivity vanishes, and the sums of neighbours lose at most a factor `K` by cancellation. -/
def Spec.Balanced (avg : Bool) (eps : Grid Nx Ny ℂ) (K : ℕ) : Prop :=
  1 ≤ K ∧ ∀ w i j, Spec.edge avg eps w i j ≠ 0 ∧ (avg = true → ‖eps (Spec.back w i j).1 (Spec.back w i j).2‖ + ‖eps i j‖ ≤ K * ‖eps (Spec.back w i j).1 (Spec.back w i j).2 + eps i j‖)

/-! ## Exact statements -/

theorem matMul_diag_right (h : Spec.Rounding F.toFl u v) {n : ℕ} (A : Mat n ℂ) (hA : Spec.TwoEntries A) (d : Vec n ℂ) (i j : Fin n) : F.matMul A (spdiag d) i j = F.mulC (A i j) (d j) := by
  rw [h.matMul_eq _ _ hA, Finset.sum_eq_single j]
  · show F.rndC (F.mulC (A i j) (Matrix.diagonal d j j)) = _
    rw [Matrix.diagonal_apply_eq, h.rndC_mulC]
  · intro k _ hk
    show F.mulC (A i k) (Matrix.diagonal d k j) = 0
    rw [Matrix.diagonal_apply_ne _ hk, h.mulC_zero_right]
  · intro hi
    exact absurd (Finset.mem_univ j) hi

theorem matMul_diag_two (h : Spec.Rounding F.toFl u v) {n : ℕ} (A : Mat n ℂ) (hA : Spec.TwoEntries A) (d : Vec n ℂ) : Spec.TwoEntries (F.matMul A (spdiag d)) := fun i => by
  obtain ⟨a, b, hab⟩ := hA i
  exact ⟨a, b, fun k g1 g2 => by rw [matMul_diag_right h A hA, hab k g1 g2, h.mulC_zero_left]⟩

/-- One axis of the matrix, as a sum. -/
theorem blockHz_eq (h : Spec.Rounding F.toFl u v) (w : Axis) (dl L0 omega : ℝ) (NPML : ℕ × ℕ) (d : Vec (Nx * Ny) ℂ) (i j : Fin (Nx * Ny)) :
    F.matMul (F.matMul (F.deriv w .f dl L0 omega Nx Ny NPML) (spdiag d)) (F.deriv w .b dl L0 omega Nx Ny NPML) i j =
      F.rndC (∑ k, F.mulC (F.mulC (F.deriv w .f dl L0 omega Nx Ny NPML i k) (d k)) (F.deriv w .b dl L0 omega Nx Ny NPML k j)) := by
  have h2 := deriv_two (Nx := Nx) (Ny := Ny) h w .f dl L0 omega NPML
  rw [h.matMul_eq _ _ (matMul_diag_two h _ h2 d)]
  refine congrArg F.rndC (Finset.sum_congr rfl fun k _ => ?_)
  rw [matMul_diag_right h _ h2]

/-- Without layers: multiples of one number per edge. -/
theorem blockHz_none (h : Spec.Rounding F.toFl u v) (h1 : F.cinv 1 = 1) (w : Axis) (dl L0 omega : ℝ) (d : Vec (Nx * Ny) ℂ) (i j : Fin (Nx * Ny)) :
    F.matMul (F.matMul (F.deriv w .f dl L0 omega Nx Ny (0, 0)) (spdiag d)) (F.deriv w .b dl L0 omega Nx Ny (0, 0)) i j =
      F.rndC (∑ k, ((pat w .f Nx Ny i k * pat w .b Nx Ny k j : ℝ) : ℂ) * F.mulC (F.mulC ((F.slope w dl Nx Ny : ℝ) : ℂ) (d k)) ((F.slope w dl Nx Ny : ℝ) : ℂ)) := by
  have hd : ∀ s i j, F.deriv w s dl L0 omega Nx Ny (0, 0) i j = ((pat w s Nx Ny i j : ℝ) : ℂ) * ((F.slope w dl Nx Ny : ℝ) : ℂ) := fun s i j => by
    rw [deriv_entry h, stretch_none h1, h.mulC_one_left]
    refine Complex.ext ?_ ?_
    · show F.rnd (F.slope w dl Nx Ny) = F.slope w dl Nx Ny
      unfold FlLib.slope Fl.div
      rw [h.idem]
    · show F.rnd 0 = 0
      exact h.rnd_zero
  rw [blockHz_eq h]
  refine congrArg F.rndC (Finset.sum_congr rfl fun k _ => ?_)
  rw [hd, hd, h.mulC_sign_left (pat_values w .f i k), h.mulC_sign_left (pat_values w .f i k), h.mulC_sign_right (pat_values w .b k j), Complex.ofReal_mul]
  ring

theorem patHz_symm (w : Axis) (i j : Fin (Nx * Ny)) (g : Vec (Nx * Ny) ℂ) :
    ∑ k, ((pat w .f Nx Ny i k * pat w .b Nx Ny k j : ℝ) : ℂ) * g k = ∑ k, ((pat w .f Nx Ny j k * pat w .b Nx Ny k i : ℝ) : ℂ) * g k := by
  rcases pat_transpose (Nx := Nx) (Ny := Ny) w with h | ⟨h1, h2⟩
  · refine Finset.sum_congr rfl fun k _ => ?_
    rw [h, h]
    push_cast
    ring
  · by_cases hij : i = j
    · rw [hij]
    · have e : ∀ a b : Fin (Nx * Ny), a ≠ b → ∑ k, ((pat w .f Nx Ny a k * pat w .b Nx Ny k b : ℝ) : ℂ) * g k = 0 := fun a b hab => by
        refine Finset.sum_eq_zero fun k _ => ?_
        rw [h1, h2, Matrix.one_apply, Matrix.one_apply]
        by_cases ha : a = k
        · rw [if_neg (show ¬k = b from fun hk => hab (ha.trans hk))]
          simp
        · rw [if_neg ha]
          simp
      rw [e i j hij, e j i (Ne.symm hij)]

/-- **C111, symmetry.** Without absorbing layers the computed Hz matrix is exactly symmetric. -/
theorem C111_symmetric (h : Spec.Rounding F.toFl u v) (h1 : F.cinv 1 = 1) (omega dl L0 : ℝ) (eps : Grid Nx Ny ℂ) (avg : Bool) :
    (F.construct_A_Hz omega dl eps (0, 0) L0 avg)ᵀ = F.construct_A_Hz omega dl eps (0, 0) L0 avg := by
  ext i j
  rw [Matrix.transpose_apply]
  unfold FlLib.construct_A_Hz
  dsimp only
  rw [Matrix.of_apply, Matrix.of_apply, blockHz_none h h1, blockHz_none h h1, blockHz_none h h1, blockHz_none h h1, patHz_symm .x j i, patHz_symm .y j i]
  congr 2
  rw [Matrix.one_apply, Matrix.one_apply, if_congr (@eq_comm _ j i) rfl rfl]

/-- **C111, lossless devices.** If reciprocals of real numbers are real, the computed Hz matrix of a real permittivity is exactly real without absorbing layers. -/
theorem C111_real (h : Spec.Rounding F.toFl u v) (h1 : F.cinv 1 = 1) (hr : ∀ x : ℝ, (F.cinv x).im = 0) (omega dl L0 : ℝ) (eps : Grid Nx Ny ℂ) (he : ∀ i j, (eps i j).im = 0) (avg : Bool) (i j : Fin (Nx * Ny)) :
    (F.construct_A_Hz omega dl eps (0, 0) L0 avg i j).im = 0 := by
  have real : ∀ {z : ℂ}, z.im = 0 → z = ((z.re : ℝ) : ℂ) := fun hz => Complex.ext rfl hz
  have hmul : ∀ a b : ℂ, a.im = 0 → b.im = 0 → (F.mulC a b).im = 0 := fun a b ha hb => by
    rw [real ha, real hb, h.mulC_real, Complex.ofReal_im]
  have hadd : ∀ a b : ℂ, a.im = 0 → b.im = 0 → (F.addC a b).im = 0 := fun a b ha hb => by
    show F.rnd (a.im + b.im) = 0
    rw [ha, hb, add_zero, h.rnd_zero]
  have hhalf : ∀ a : ℂ, a.im = 0 → (F.rndC (a / 2)).im = 0 := fun a ha => by
    show F.rnd (a / 2).im = 0
    have e : (a / 2).im = a.im / 2 := by simp
    rw [e, ha, zero_div, h.rnd_zero]
  have hE : ∀ i j, (F.mulC ((F.mul F.eps0 L0 : ℝ) : ℂ) (eps i j)).im = 0 := fun i j => hmul _ _ (Complex.ofReal_im _) (he i j)
  have hv : ∀ w k, (F.vector_eps avg eps L0 w k).im = 0 := fun w k => by
    unfold FlLib.vector_eps
    cases avg
    · exact hE _ _
    · cases w
      · exact hhalf _ (hadd _ _ (hE _ _) (hE _ _))
      · exact hhalf _ (hadd _ _ (hE _ _) (hE _ _))
  have hc : ∀ w k, (F.cinv (F.vector_eps avg eps L0 w k)).im = 0 := fun w k => by
    rw [real (hv w k)]
    exact hr _
  have hb : ∀ w, (F.matMul (F.matMul (F.deriv w .f dl L0 omega Nx Ny (0, 0)) (spdiag fun k => F.cinv (F.vector_eps avg eps L0 w k))) (F.deriv w .b dl L0 omega Nx Ny (0, 0)) i j).im = 0 := fun w => by
    rw [blockHz_none h h1]
    show F.rnd (Complex.im _) = 0
    rw [Complex.im_sum, Finset.sum_eq_zero, h.rnd_zero]
    intro k _
    rw [Complex.im_ofReal_mul, hmul _ _ (hmul _ _ (Complex.ofReal_im _) (hc w k)) (Complex.ofReal_im _), mul_zero]
  unfold FlLib.construct_A_Hz
  dsimp only
  rw [Matrix.of_apply]
  refine hadd _ _ (hadd _ _ (hb .x) (hb .y)) (hmul _ _ (Complex.ofReal_im _) ?_)
  rw [Matrix.one_apply]
  split_ifs <;> simp

/-! ## Accuracy -/

theorem bernoulli_mul {θ : ℝ} (hθ : 0 ≤ θ) (k K : ℕ) : (K : ℝ) * ((1 + θ) ^ k - 1) ≤ (1 + θ) ^ (k * K) - 1 := by
  have h1 : 0 ≤ (1 + θ) ^ k - 1 := sub_nonneg.2 (one_le_pow₀ (by linarith))
  have h2 := one_add_mul_le_pow (a := (1 + θ) ^ k - 1) (by linarith) K
  rw [add_sub_cancel, ← pow_mul] at h2
  linarith

theorem half_near (h : Spec.Library F u v θ) {k K : ℕ} {a a' b b' : ℂ} (ha : Spec.CNear θ k a' a) (hb : Spec.CNear θ k b' b) (hK : ‖a‖ + ‖b‖ ≤ K * ‖a + b‖) :
    Spec.CNear θ (k * K + 2) (F.rndC (F.addC a' b' / 2)) ((a + b) / 2) := by
  have hθ := h.theta_nonneg
  have ha' : ‖a' - a‖ ≤ ((1 + θ) ^ k - 1) * ‖a‖ := ha
  have hb' : ‖b' - b‖ ≤ ((1 + θ) ^ k - 1) * ‖b‖ := hb
  have h0 : 0 ≤ (1 + θ) ^ k - 1 := sub_nonneg.2 (one_le_pow₀ (by linarith))
  have h1 : Spec.CNear θ (k * K) (a' + b') (a + b) := by
    show ‖a' + b' - (a + b)‖ ≤ _
    rw [add_sub_add_comm]
    refine (norm_add_le _ _).trans ?_
    have g1 := mul_le_mul_of_nonneg_left hK h0
    have g2 := mul_le_mul_of_nonneg_right (bernoulli_mul hθ k K) (norm_nonneg (a + b))
    have e : ((1 + θ) ^ k - 1) * (K * ‖a + b‖) = K * ((1 + θ) ^ k - 1) * ‖a + b‖ := by ring
    linarith
  have h2 : Spec.CNear θ (k * K + 1) (F.addC a' b') (a + b) := h1.step hθ (h.rndC_err _)
  have h3 : Spec.CNear θ (k * K + 1) (F.addC a' b' / 2) ((a + b) / 2) := by
    have := h2.mul hθ (Spec.CNear.refl θ (1 / 2))
    rw [mul_one_div, mul_one_div] at this
    exact this
  exact h3.step hθ (h.rndC_err _)

theorem cinv_near (h : Spec.Library F u v θ) {m : ℕ} {z z' : ℂ} (hz : z ≠ 0) (hn : Spec.CNear θ m z' z) (hm : (1 + θ) ^ m ≤ 3 / 2) : Spec.CNear θ (2 * m + 1) (F.cinv z') (1 / z) := by
  have hθ := h.theta_nonneg
  have hn' : ‖z' - z‖ ≤ ((1 + θ) ^ m - 1) * ‖z‖ := hn
  have hz0 : 0 < ‖z‖ := norm_pos_iff.2 hz
  have h1 : 1 ≤ (1 + θ) ^ m := one_le_pow₀ (by linarith)
  set c := (1 + θ) ^ m with hc
  have h2 : ‖z‖ / 2 ≤ ‖z'‖ := by
    have g1 := norm_add_le (z - z') z'
    rw [sub_add_cancel, norm_sub_rev] at g1
    have g2 := mul_le_mul_of_nonneg_right (show c - 1 ≤ 1 / 2 by linarith) hz0.le
    linarith
  have hz' : z' ≠ 0 := norm_pos_iff.1 (by linarith)
  have h3 : Spec.CNear θ (2 * m) (1 / z') (1 / z) := by
    have e : 1 / z' - 1 / z = (z - z') / z' * (1 / z) := by field_simp
    show ‖1 / z' - 1 / z‖ ≤ _
    rw [e, norm_mul, norm_div, norm_sub_rev]
    refine mul_le_mul_of_nonneg_right ?_ (norm_nonneg _)
    rw [div_le_iff₀ (by linarith), mul_comm 2 m, pow_mul, ← hc]
    have g1 : (c - 1) * 2 ≤ c ^ 2 - 1 := by nlinarith [sq_nonneg (c - 1)]
    have g2 := mul_le_mul g1 h2 (by positivity) (by nlinarith)
    have e2 : (c - 1) * 2 * (‖z‖ / 2) = (c - 1) * ‖z‖ := by ring
    linarith
  refine h3.step hθ ?_
  rw [one_div]
  exact h.cinv_err z' hz'

/-- The exact edge permittivities of the model. -/
theorem exact_eps (avg : Bool) (eps : Grid Nx Ny ℂ) (L0 : ℝ) (w : Axis) (k : Fin (Nx * Ny)) :
    (if avg then flatten (grid_average (fun i j => ((EPSILON_0 * L0 : ℝ) : ℂ) * eps i j) w) else fun k => ((EPSILON_0 * L0 : ℝ) : ℂ) * flatten eps k) k =
      ((EPSILON_0 * L0 : ℝ) : ℂ) * Spec.edge avg eps w k.divNat k.modNat := by
  cases avg
  · rfl
  · cases w
    · show (((EPSILON_0 * L0 : ℝ) : ℂ) * eps (Spec.prev k.divNat) k.modNat + ((EPSILON_0 * L0 : ℝ) : ℂ) * eps k.divNat k.modNat) / 2 = ((EPSILON_0 * L0 : ℝ) : ℂ) * ((eps (Spec.prev k.divNat) k.modNat + eps k.divNat k.modNat) / 2)
      ring
    · show (((EPSILON_0 * L0 : ℝ) : ℂ) * eps k.divNat (Spec.prev k.modNat) + ((EPSILON_0 * L0 : ℝ) : ℂ) * eps k.divNat k.modNat) / 2 = ((EPSILON_0 * L0 : ℝ) : ℂ) * ((eps k.divNat (Spec.prev k.modNat) + eps k.divNat k.modNat) / 2)
      ring

theorem vector_eps_near (h : Spec.Library F u v θ) {avg : Bool} {eps : Grid Nx Ny ℂ} {K : ℕ} (hK : Spec.Balanced avg eps K) {L0 : ℝ} (hL : 0 < L0) (w : Axis) (k : Fin (Nx * Ny)) :
    Spec.CNear θ (3 * K + 2) (F.vector_eps avg eps L0 w k) (((EPSILON_0 * L0 : ℝ) : ℂ) * Spec.edge avg eps w k.divNat k.modNat) := by
  have hθ := h.theta_nonneg
  have hE : 0 < EPSILON_0 * L0 := mul_pos EPSILON_0_pos hL
  have g2 := (h.near_mul (eps0_near h) (Spec.Near.refl θ L0)).toC hθ
  have g3 : ∀ i j, Spec.CNear θ 3 (F.mulC ((F.mul F.eps0 L0 : ℝ) : ℂ) (eps i j)) (((EPSILON_0 * L0 : ℝ) : ℂ) * eps i j) := fun i j => h.cnear_mul g2 (Spec.CNear.refl θ (eps i j))
  obtain ⟨hK1, hK2⟩ := hK
  cases avg
  · exact (g3 _ _).mono hθ (by omega)
  · have hs : ∀ a b : ℂ, ‖a‖ + ‖b‖ ≤ K * ‖a + b‖ → ‖((EPSILON_0 * L0 : ℝ) : ℂ) * a‖ + ‖((EPSILON_0 * L0 : ℝ) : ℂ) * b‖ ≤ K * ‖((EPSILON_0 * L0 : ℝ) : ℂ) * a + ((EPSILON_0 * L0 : ℝ) : ℂ) * b‖ := fun a b hab => by
      rw [← mul_add, norm_mul, norm_mul, norm_mul, Complex.norm_real, Real.norm_of_nonneg hE.le]
      have := mul_le_mul_of_nonneg_left hab hE.le
      have e1 : EPSILON_0 * L0 * (‖a‖ + ‖b‖) = EPSILON_0 * L0 * ‖a‖ + EPSILON_0 * L0 * ‖b‖ := by ring
      have e2 : EPSILON_0 * L0 * (K * ‖a + b‖) = K * (EPSILON_0 * L0 * ‖a + b‖) := by ring
      linarith
    have e : ((EPSILON_0 * L0 : ℝ) : ℂ) * Spec.edge true eps w k.divNat k.modNat =
        (((EPSILON_0 * L0 : ℝ) : ℂ) * eps (Spec.back w k.divNat k.modNat).1 (Spec.back w k.divNat k.modNat).2 + ((EPSILON_0 * L0 : ℝ) : ℂ) * eps k.divNat k.modNat) / 2 := by
      show _ * ((_ + _) / 2) = _
      ring
    rw [e]
    have key := half_near h (g3 (Spec.back w k.divNat k.modNat).1 (Spec.back w k.divNat k.modNat).2) (g3 k.divNat k.modNat) (hs _ _ ((hK2 w k.divNat k.modNat).2 rfl))
    cases w
    · exact key
    · exact key

/-- The sum of the moduli of the terms of one entry of the Hz matrix. -/
noncomputable def Spec.entryWeightHz (omega dl : ℝ) (avg : Bool) (eps : Grid Nx Ny ℂ) (NPML : ℕ × ℕ) (L0 : ℝ) (i j : Fin (Nx * Ny)) : ℝ :=
  (∑ k, ‖exactD .x .f dl L0 omega Nx Ny NPML i k‖ * ‖exactD .x .b dl L0 omega Nx Ny NPML k j‖ / (EPSILON_0 * L0 * ‖Spec.edge avg eps .x k.divNat k.modNat‖))
    + (∑ k, ‖exactD .y .f dl L0 omega Nx Ny NPML i k‖ * ‖exactD .y .b dl L0 omega Nx Ny NPML k j‖ / (EPSILON_0 * L0 * ‖Spec.edge avg eps .y k.divNat k.modNat‖))
    + if i = j then omega ^ 2 * (MU_0 * L0) else 0

theorem blockHz_near (h : Spec.Library F u v θ) {avg : Bool} {eps : Grid Nx Ny ℂ} {K : ℕ} (hK : Spec.Balanced avg eps K) (hs : (1 + θ) ^ (3 * K + 2) ≤ 3 / 2) (w : Axis) (dl L0 omega : ℝ) (hL : 0 < L0) (NPML : ℕ × ℕ) (i j : Fin (Nx * Ny)) :
    ‖F.matMul (F.matMul (F.deriv w .f dl L0 omega Nx Ny NPML) (spdiag fun k => F.cinv (F.vector_eps avg eps L0 w k))) (F.deriv w .b dl L0 omega Nx Ny NPML) i j
        - ∑ k, exactD w .f dl L0 omega Nx Ny NPML i k * (1 / (((EPSILON_0 * L0 : ℝ) : ℂ) * Spec.edge avg eps w k.divNat k.modNat)) * exactD w .b dl L0 omega Nx Ny NPML k j‖
      ≤ ((1 + θ) ^ (6 * K + 126) - 1) * ∑ k, ‖exactD w .f dl L0 omega Nx Ny NPML i k‖ * ‖exactD w .b dl L0 omega Nx Ny NPML k j‖ / (EPSILON_0 * L0 * ‖Spec.edge avg eps w k.divNat k.modNat‖) ∧
    ‖∑ k, exactD w .f dl L0 omega Nx Ny NPML i k * (1 / (((EPSILON_0 * L0 : ℝ) : ℂ) * Spec.edge avg eps w k.divNat k.modNat)) * exactD w .b dl L0 omega Nx Ny NPML k j‖
      ≤ ∑ k, ‖exactD w .f dl L0 omega Nx Ny NPML i k‖ * ‖exactD w .b dl L0 omega Nx Ny NPML k j‖ / (EPSILON_0 * L0 * ‖Spec.edge avg eps w k.divNat k.modNat‖) := by
  have hE : 0 < EPSILON_0 * L0 := mul_pos EPSILON_0_pos hL
  have e2 : ∀ k : Fin (Nx * Ny), ‖exactD w .f dl L0 omega Nx Ny NPML i k * (1 / (((EPSILON_0 * L0 : ℝ) : ℂ) * Spec.edge avg eps w k.divNat k.modNat)) * exactD w .b dl L0 omega Nx Ny NPML k j‖ =
      ‖exactD w .f dl L0 omega Nx Ny NPML i k‖ * ‖exactD w .b dl L0 omega Nx Ny NPML k j‖ / (EPSILON_0 * L0 * ‖Spec.edge avg eps w k.divNat k.modNat‖) := fun k => by
    rw [norm_mul, norm_mul, norm_div, norm_one, norm_mul, Complex.norm_real, Real.norm_of_nonneg hE.le]
    ring
  constructor
  · rw [blockHz_eq h.rounding, ← Finset.sum_congr rfl fun k _ => e2 k]
    refine rndC_sum (k := 6 * K + 125) h Finset.univ _ _ fun k _ => ?_
    have hz : ((EPSILON_0 * L0 : ℝ) : ℂ) * Spec.edge avg eps w k.divNat k.modNat ≠ 0 := mul_ne_zero (Complex.ofReal_ne_zero.2 hE.ne') (hK.2 w _ _).1
    have h1 := cinv_near h hz (vector_eps_near h hK hL w k) hs
    have h3 := h.cnear_mul (h.cnear_mul (deriv_near h w .f dl L0 omega NPML i k) h1) (deriv_near h w .b dl L0 omega NPML k j)
    exact h3.mono h.theta_nonneg (by omega)
  · exact (norm_sum_le _ _).trans (le_of_eq (Finset.sum_congr rfl fun k _ => e2 k))

theorem exact_A_Hz (omega dl L0 : ℝ) (eps : Grid Nx Ny ℂ) (NPML : ℕ × ℕ) (avg : Bool) (i j : Fin (Nx * Ny)) :
    (construct_A omega (0, Nx * dl) (0, Ny * dl) eps NPML .Hz L0 avg).1 i j =
      (∑ k, exactD .x .f dl L0 omega Nx Ny NPML i k * (1 / (((EPSILON_0 * L0 : ℝ) : ℂ) * Spec.edge avg eps .x k.divNat k.modNat)) * exactD .x .b dl L0 omega Nx Ny NPML k j)
      + (∑ k, exactD .y .f dl L0 omega Nx Ny NPML i k * (1 / (((EPSILON_0 * L0 : ℝ) : ℂ) * Spec.edge avg eps .y k.divNat k.modNat)) * exactD .y .b dl L0 omega Nx Ny NPML k j)
      + ((omega : ℂ) ^ 2 * ((MU_0 * L0 : ℝ) : ℂ)) * (1 : Mat (Nx * Ny) ℂ) i j := by
  have key : ∀ (w : Axis) (d : Vec (Nx * Ny) ℂ), (exactD w .f dl L0 omega Nx Ny NPML * spdiag d * exactD w .b dl L0 omega Nx Ny NPML) i j =
      ∑ k, exactD w .f dl L0 omega Nx Ny NPML i k * d k * exactD w .b dl L0 omega Nx Ny NPML k j := fun w d => by
    rw [Matrix.mul_apply]
    refine Finset.sum_congr rfl fun k _ => ?_
    unfold spdiag
    rw [Matrix.mul_diagonal]
  have e : (construct_A omega (0, Nx * dl) (0, Ny * dl) eps NPML .Hz L0 avg).1 i j =
      (exactD .x .f dl L0 omega Nx Ny NPML * spdiag (fun k => 1 / (if avg then flatten (grid_average (fun i j => ((EPSILON_0 * L0 : ℝ) : ℂ) * eps i j) .x) else fun k => ((EPSILON_0 * L0 : ℝ) : ℂ) * flatten eps k) k) * exactD .x .b dl L0 omega Nx Ny NPML) i j
      + (exactD .y .f dl L0 omega Nx Ny NPML * spdiag (fun k => 1 / (if avg then flatten (grid_average (fun i j => ((EPSILON_0 * L0 : ℝ) : ℂ) * eps i j) .y) else fun k => ((EPSILON_0 * L0 : ℝ) : ℂ) * flatten eps k) k) * exactD .y .b dl L0 omega Nx Ny NPML) i j
      + (((omega : ℂ) ^ 2 * ((MU_0 * L0 : ℝ) : ℂ)) • (1 : Mat (Nx * Ny) ℂ)) i j := rfl
  rw [e, key, key, Matrix.smul_apply, smul_eq_mul]
  simp only [exact_eps]

/-- **C111, accuracy.** Every entry of the computed Hz matrix is the entry of the exact matrix up to `6K+128` relative errors of the sum of the moduli of its terms, where `K` bounds the cancellation
in the averages. -/
theorem C111_entries (h : Spec.Library F u v θ) (omega dl L0 : ℝ) (hL : 0 < L0) (avg : Bool) (eps : Grid Nx Ny ℂ) (K : ℕ) (hK : Spec.Balanced avg eps K) (hs : (1 + θ) ^ (3 * K + 2) ≤ 3 / 2) (NPML : ℕ × ℕ) (i j : Fin (Nx * Ny)) :
    ‖F.construct_A_Hz omega dl eps NPML L0 avg i j - (construct_A omega (0, Nx * dl) (0, Ny * dl) eps NPML .Hz L0 avg).1 i j‖ ≤ ((1 + θ) ^ (6 * K + 128) - 1) * Spec.entryWeightHz omega dl avg eps NPML L0 i j := by
  have hθ := h.theta_nonneg
  have hM : 0 < MU_0 * L0 := mul_pos MU_0_pos hL
  obtain ⟨x1, x2⟩ := blockHz_near h hK hs .x dl L0 omega hL NPML i j
  obtain ⟨y1, y2⟩ := blockHz_near h hK hs .y dl L0 omega hL NPML i j
  have h1 := addC_near h x1 y1 x2 y2
  have h2 := (norm_add_le _ _).trans (add_le_add x2 y2)
  have t2 : Spec.CNear θ (6 * K + 127) (F.mulC ((F.mul (F.mul omega omega) (F.mul F.mu0 L0) : ℝ) : ℂ) ((1 : Mat (Nx * Ny) ℂ) i j)) (((omega : ℂ) ^ 2 * ((MU_0 * L0 : ℝ) : ℂ)) * (1 : Mat (Nx * Ny) ℂ) i j) := by
    have g1 := h.near_mul (h.near_mul (Spec.Near.refl θ omega) (Spec.Near.refl θ omega)) (h.near_mul (mu0_near h) (Spec.Near.refl θ L0))
    have g2 := h.cnear_mul (g1.toC hθ) (Spec.CNear.refl θ ((1 : Mat (Nx * Ny) ℂ) i j))
    rw [Complex.ofReal_mul (omega * omega), Complex.ofReal_mul omega omega, ← pow_two] at g2
    exact g2.mono hθ (by omega)
  have t3 : ‖((omega : ℂ) ^ 2 * ((MU_0 * L0 : ℝ) : ℂ)) * (1 : Mat (Nx * Ny) ℂ) i j‖ = if i = j then omega ^ 2 * (MU_0 * L0) else 0 := by
    rw [norm_mul, norm_mul, norm_pow, Complex.norm_real, Complex.norm_real, Real.norm_of_nonneg hM.le, Real.norm_eq_abs, sq_abs, Matrix.one_apply]
    split_ifs <;> simp
  have t2' : ‖_ - _‖ ≤ ((1 + θ) ^ (6 * K + 127) - 1) * ‖((omega : ℂ) ^ 2 * ((MU_0 * L0 : ℝ) : ℂ)) * (1 : Mat (Nx * Ny) ℂ) i j‖ := t2
  have h3 := addC_near h h1 t2' h2 le_rfl
  rw [t3] at h3
  rw [exact_A_Hz]
  exact h3

/-- A bound on the rows of the Hz matrix with edge permittivities of modulus at least `m`. -/
noncomputable def Spec.rowBoundHz (omega dl L0 m : ℝ) (Nx Ny : ℕ) : ℝ := 1 / (EPSILON_0 * L0 * m) * (4 / Spec.side dl Nx ^ 2 + 4 / Spec.side dl Ny ^ 2) + omega ^ 2 * (MU_0 * L0)

theorem weightHz_row {omega dl L0 m : ℝ} (ho : 0 < omega) (hd : 0 < dl) (hL : 0 < L0) (hm : 0 < m) (avg : Bool) (eps : Grid Nx Ny ℂ) (hE : ∀ w i j, m ≤ ‖Spec.edge avg eps w i j‖) (NPML : ℕ × ℕ) (i : Fin (Nx * Ny)) :
    ∑ j, Spec.entryWeightHz omega dl avg eps NPML L0 i j ≤ Spec.rowBoundHz omega dl L0 m Nx Ny := by
  have hE0 : 0 < EPSILON_0 * L0 := mul_pos EPSILON_0_pos hL
  have hb : ∀ w, ∑ j, ∑ k : Fin (Nx * Ny), ‖exactD w .f dl L0 omega Nx Ny NPML i k‖ * ‖exactD w .b dl L0 omega Nx Ny NPML k j‖ / (EPSILON_0 * L0 * ‖Spec.edge avg eps w k.divNat k.modNat‖) ≤ 1 / (EPSILON_0 * L0 * m) * (4 / Spec.side dl (Spec.cells w Nx Ny) ^ 2) := fun w => by
    have hpos := side_pos hd (Spec.cells w Nx Ny)
    rw [Finset.sum_comm]
    have h1 : ∀ k : Fin (Nx * Ny), ∑ j, ‖exactD w .f dl L0 omega Nx Ny NPML i k‖ * ‖exactD w .b dl L0 omega Nx Ny NPML k j‖ / (EPSILON_0 * L0 * ‖Spec.edge avg eps w k.divNat k.modNat‖) ≤ ‖exactD w .f dl L0 omega Nx Ny NPML i k‖ * (2 / Spec.side dl (Spec.cells w Nx Ny)) * (1 / (EPSILON_0 * L0 * m)) := fun k => by
      rw [← Finset.sum_div, ← Finset.mul_sum, div_eq_mul_one_div]
      refine mul_le_mul (mul_le_mul_of_nonneg_left (exactD_row w .b hd hL ho NPML k) (norm_nonneg _)) ?_ (by positivity) (by positivity)
      exact one_div_le_one_div_of_le (by positivity) (mul_le_mul_of_nonneg_left (hE w _ _) hE0.le)
    refine (Finset.sum_le_sum fun k _ => h1 k).trans ?_
    rw [← Finset.sum_mul, ← Finset.sum_mul, mul_comm]
    refine mul_le_mul_of_nonneg_left ?_ (by positivity)
    refine (mul_le_mul_of_nonneg_right (exactD_row w .f hd hL ho NPML i) (by positivity)).trans (le_of_eq ?_)
    field_simp
    norm_num
  unfold Spec.entryWeightHz Spec.rowBoundHz
  rw [Finset.sum_add_distrib, Finset.sum_add_distrib, Finset.sum_ite_eq, if_pos (Finset.mem_univ i), mul_add]
  exact add_le_add (add_le_add (hb .x) (hb .y)) le_rfl

theorem rowBoundHz_nonneg {omega dl L0 m : ℝ} (hd : 0 < dl) (hL : 0 < L0) (hm : 0 < m) : 0 ≤ Spec.rowBoundHz omega dl L0 m Nx Ny := by
  have hM : 0 < MU_0 * L0 := mul_pos MU_0_pos hL
  have hE : 0 < EPSILON_0 * L0 := mul_pos EPSILON_0_pos hL
  have := side_pos hd Nx
  have := side_pos hd Ny
  unfold Spec.rowBoundHz
  positivity

/-- **C111, residuals.** On every vector the computed and the exact Hz matrix agree up to `6K+128` relative errors of a bound on the matrix. -/
theorem C111_residual (h : Spec.Library F u v θ) {omega dl L0 m : ℝ} (ho : 0 < omega) (hd : 0 < dl) (hL : 0 < L0) (hm : 0 < m) (avg : Bool) (eps : Grid Nx Ny ℂ) (K : ℕ) (hK : Spec.Balanced avg eps K)
    (hs : (1 + θ) ^ (3 * K + 2) ≤ 3 / 2) (hE : ∀ w i j, m ≤ ‖Spec.edge avg eps w i j‖) (NPML : ℕ × ℕ) (x : Vec (Nx * Ny) ℂ) :
    ‖F.construct_A_Hz omega dl eps NPML L0 avg *ᵥ x - (construct_A omega (0, Nx * dl) (0, Ny * dl) eps NPML .Hz L0 avg).1 *ᵥ x‖ ≤ ((1 + θ) ^ (6 * K + 128) - 1) * Spec.rowBoundHz omega dl L0 m Nx Ny * ‖x‖ := by
  have hθ := h.theta_nonneg
  have hg : 0 ≤ (1 + θ) ^ (6 * K + 128) - 1 := sub_nonneg.2 (one_le_pow₀ (by linarith))
  have hR : 0 ≤ Spec.rowBoundHz omega dl L0 m Nx Ny := rowBoundHz_nonneg hd hL hm
  refine (pi_norm_le_iff_of_nonneg (by positivity)).2 fun i => ?_
  rw [← Matrix.sub_mulVec, mulVec_eq_sum']
  refine (norm_sum_le _ _).trans ?_
  have hent := fun j => C111_entries h omega dl L0 hL avg eps K hK hs NPML i j
  have h1 : ∀ j, ‖(F.construct_A_Hz omega dl eps NPML L0 avg - (construct_A omega (0, Nx * dl) (0, Ny * dl) eps NPML .Hz L0 avg).1) i j * x j‖ ≤ ((1 + θ) ^ (6 * K + 128) - 1) * Spec.entryWeightHz omega dl avg eps NPML L0 i j * ‖x‖ := fun j => by
    rw [norm_mul, Matrix.sub_apply]
    exact mul_le_mul (hent j) (norm_le_pi_norm x j) (norm_nonneg _) ((norm_nonneg _).trans (hent j))
  refine (Finset.sum_le_sum fun j _ => h1 j).trans ?_
  rw [← Finset.sum_mul, ← Finset.mul_sum]
  exact mul_le_mul_of_nonneg_right (mul_le_mul_of_nonneg_left (weightHz_row ho hd hL hm avg eps hE NPML i) hg) (norm_nonneg _)

/-- Nearby matrices have nearby solutions. -/
theorem solution_near {n : ℕ} (A A' : Mat n ℂ) {γ σ : ℝ} (hγ0 : 0 ≤ γ) (hr : ∀ x, ‖A' *ᵥ x - A *ᵥ x‖ ≤ γ * ‖x‖) (hm : ∀ x, σ * ‖x‖ ≤ ‖A *ᵥ x‖) (hσ : γ < σ) :
    A'.det ≠ 0 ∧ ∀ b e e' : Vec n ℂ, A *ᵥ e = b → A' *ᵥ e' = b → ‖e' - e‖ ≤ γ / (σ - γ) * ‖e‖ := by
  constructor
  · intro hdet
    obtain ⟨x, hx, h0⟩ := Matrix.exists_mulVec_eq_zero_iff.2 hdet
    have h1 := hr x
    rw [h0, zero_sub, norm_neg] at h1
    have h2 := hm x
    have h3 : 0 < ‖x‖ := norm_pos_iff.2 hx
    have h4 := mul_lt_mul_of_pos_right hσ h3
    linarith
  · intro b e e' he he'
    have h1 := hm (e' - e)
    have e1 : A *ᵥ (e' - e) = -(A' *ᵥ e' - A *ᵥ e') := by
      rw [Matrix.mulVec_sub, he, he']
      abel
    rw [e1, norm_neg] at h1
    have h2 := hr e'
    have h3 := norm_add_le (e' - e) e
    rw [sub_add_cancel] at h3
    have h4 := mul_le_mul_of_nonneg_left h3 hγ0
    rw [div_mul_eq_mul_div, le_div_iff₀ (by linarith)]
    linarith

/-- **C111, fields.** If the exact Hz matrix enlarges every vector by at least `σ` and the errors are below `σ`, the computed matrix is nonsingular and its field is the exact field up to the quotient of
the error and what is left of `σ`. -/
theorem C111_field (h : Spec.Library F u v θ) {omega dl L0 m : ℝ} (ho : 0 < omega) (hd : 0 < dl) (hL : 0 < L0) (hm : 0 < m) (avg : Bool) (eps : Grid Nx Ny ℂ) (K : ℕ) (hK : Spec.Balanced avg eps K)
    (hs : (1 + θ) ^ (3 * K + 2) ≤ 3 / 2) (hE : ∀ w i j, m ≤ ‖Spec.edge avg eps w i j‖) (NPML : ℕ × ℕ) (σ : ℝ)
    (hA : ∀ x, σ * ‖x‖ ≤ ‖(construct_A omega (0, Nx * dl) (0, Ny * dl) eps NPML .Hz L0 avg).1 *ᵥ x‖) (hσ : ((1 + θ) ^ (6 * K + 128) - 1) * Spec.rowBoundHz omega dl L0 m Nx Ny < σ) :
    (F.construct_A_Hz omega dl eps NPML L0 avg).det ≠ 0 ∧ ∀ b e e' : Vec (Nx * Ny) ℂ, (construct_A omega (0, Nx * dl) (0, Ny * dl) eps NPML .Hz L0 avg).1 *ᵥ e = b → F.construct_A_Hz omega dl eps NPML L0 avg *ᵥ e' = b →
      ‖e' - e‖ ≤ ((1 + θ) ^ (6 * K + 128) - 1) * Spec.rowBoundHz omega dl L0 m Nx Ny / (σ - ((1 + θ) ^ (6 * K + 128) - 1) * Spec.rowBoundHz omega dl L0 m Nx Ny) * ‖e‖ :=
  solution_near _ _ (mul_nonneg (sub_nonneg.2 (one_le_pow₀ (by linarith [h.theta_nonneg]))) (rowBoundHz_nonneg hd hL hm)) (fun x => C111_residual h ho hd hL hm avg eps K hK hs hE NPML x) hA hσ

/-- **C111, positive permittivities.** For real permittivities that are nowhere negative or zero nothing cancels: 134 relative errors, less than 1.2e-13 in double precision. -/
theorem C111_double : (∀ (Nx Ny : ℕ) (avg : Bool) (eps : Grid Nx Ny ℂ), (∀ i j, ∃ x : ℝ, 0 < x ∧ eps i j = x) → Spec.Balanced avg eps 1) ∧
    (1 + (1 / 2 : ℝ) ^ 50) ^ (3 * 1 + 2) ≤ 3 / 2 ∧ (1 + (1 / 2 : ℝ) ^ 50) ^ (6 * 1 + 128) - 1 ≤ 1.2e-13 := by
  refine ⟨fun Nx Ny avg eps he => ⟨le_rfl, fun w i j => ?_⟩, by norm_num, ?_⟩
  · obtain ⟨x, hx, ex⟩ := he (Spec.back w i j).1 (Spec.back w i j).2
    obtain ⟨y, hy, ey⟩ := he i j
    unfold Spec.edge
    rw [ex, ey, ← Complex.ofReal_add, Complex.norm_real, Complex.norm_real, Complex.norm_real, Real.norm_of_nonneg hx.le, Real.norm_of_nonneg hy.le, Real.norm_of_nonneg (by positivity)]
    constructor
    · split_ifs
      · exact div_ne_zero (Complex.ofReal_ne_zero.2 (by positivity)) two_ne_zero
      · exact Complex.ofReal_ne_zero.2 hy.ne'
    · intro _
      simp
  · have h1 : (1 + (1 / 2 : ℝ) ^ 50) ^ 15 ≤ 1 + 1.3325e-14 := by norm_num
    have h2 : ((1 + (1 / 2 : ℝ) ^ 50) ^ 15) ^ 9 ≤ (1 + 1.3325e-14) ^ 9 := pow_le_pow_left₀ (by positivity) h1 9
    rw [← pow_mul] at h2
    have h3 : (1 + 1.3325e-14 : ℝ) ^ 9 ≤ 1 + 1.2e-13 := by norm_num
    have h4 : (1 + (1 / 2 : ℝ) ^ 50) ^ 134 ≤ (1 + (1 / 2 : ℝ) ^ 50) ^ 135 := pow_le_pow_right₀ (le_add_of_nonneg_right (by positivity)) (by norm_num)
    have h5 : (1 + (1 / 2 : ℝ) ^ 50) ^ 135 ≤ 1 + 1.2e-13 := h2.trans h3
    have h6 : (1 + (1 / 2 : ℝ) ^ 50) ^ (6 * 1 + 128) = (1 + (1 / 2 : ℝ) ^ 50) ^ 134 := rfl
    rw [h6]
    linarith

/-- Finitely many sums that are not zero: some factor bounds all cancellations. -/
theorem balanced_exists (eps : Grid Nx Ny ℂ) (he : ∀ w i j, Spec.edge true eps w i j ≠ 0) : ∃ (K : ℕ) (m : ℝ), 0 < m ∧ Spec.Balanced true eps K ∧ ∀ w i j, m ≤ ‖Spec.edge true eps w i j‖ := by
  set R : Axis → Fin Nx → Fin Ny → ℝ := fun w i j => (‖eps (Spec.back w i j).1 (Spec.back w i j).2‖ + ‖eps i j‖ + 1) / ‖eps (Spec.back w i j).1 (Spec.back w i j).2 + eps i j‖ with hR
  have hs : ∀ w i j, 0 < ‖eps (Spec.back w i j).1 (Spec.back w i j).2 + eps i j‖ := fun w i j => norm_pos_iff.2 fun h0 => he w i j (by
    show (_ + _) / 2 = (0 : ℂ)
    rw [h0, zero_div])
  have hR0 : ∀ w i j, 0 ≤ R w i j := fun w i j => div_nonneg (by positivity) (norm_nonneg _)
  have hle : ∀ w i j, R w i j ≤ (∑ i, ∑ j, R .x i j) + ∑ i, ∑ j, R .y i j := fun w i j => by
    have h1 : ∀ w, R w i j ≤ ∑ i, ∑ j, R w i j := fun w =>
      (Finset.single_le_sum (f := fun j => R w i j) (fun j _ => hR0 w i j) (Finset.mem_univ j)).trans
        (Finset.single_le_sum (f := fun i => ∑ j, R w i j) (fun i _ => Finset.sum_nonneg fun j _ => hR0 w i j) (Finset.mem_univ i))
    have h2 : ∀ w, 0 ≤ ∑ i, ∑ j, R w i j := fun w => Finset.sum_nonneg fun i _ => Finset.sum_nonneg fun j _ => hR0 w i j
    cases w
    · linarith [h1 .x, h2 .y]
    · linarith [h1 .y, h2 .x]
  obtain ⟨K, hK⟩ := exists_nat_ge ((∑ i, ∑ j, R .x i j) + ∑ i, ∑ j, R .y i j)
  have hKR : ∀ w i j, R w i j ≤ ((K + 1 : ℕ) : ℝ) := fun w i j => by
    have := hle w i j
    push_cast
    linarith
  have hKe : ∀ w i j, ‖eps (Spec.back w i j).1 (Spec.back w i j).2‖ + ‖eps i j‖ + 1 ≤ ((K + 1 : ℕ) : ℝ) * ‖eps (Spec.back w i j).1 (Spec.back w i j).2 + eps i j‖ := fun w i j => (div_le_iff₀ (hs w i j)).1 (hKR w i j)
  refine ⟨K + 1, 1 / (2 * ((K + 1 : ℕ) : ℝ)), by positivity, ⟨by omega, fun w i j => ⟨he w i j, fun _ => by linarith [hKe w i j]⟩⟩, fun w i j => ?_⟩
  have h1 := hKe w i j
  have h2 := norm_nonneg (eps (Spec.back w i j).1 (Spec.back w i j).2)
  have h3 := norm_nonneg (eps i j)
  have e : ‖Spec.edge true eps w i j‖ = ‖eps (Spec.back w i j).1 (Spec.back w i j).2 + eps i j‖ / 2 := by
    show ‖(_ + _) / 2‖ = _
    rw [norm_div]
    norm_num
  have hK0 : (0 : ℝ) < ((K + 1 : ℕ) : ℝ) := by positivity
  rw [e, div_le_iff₀ (by positivity)]
  have e2 : ‖eps (Spec.back w i j).1 (Spec.back w i j).2 + eps i j‖ / 2 * (2 * ((K + 1 : ℕ) : ℝ)) = ((K + 1 : ℕ) : ℝ) * ‖eps (Spec.back w i j).1 (Spec.back w i j).2 + eps i j‖ := by ring
  linarith

/-- **C111, devices.** For every Hz simulation with a nonsingular matrix, and no zero among the averaged permittivities, the field is reached within every tolerance once the precision is high enough. -/
theorem C111_precision (s : Sim Nx Ny) (hv : s.Valid) (hp : s.pol = .Hz) (hd : 0 < s.dl) (he0 : ∀ w i j, Spec.edge true s.eps_r w i j ≠ 0) (hdet : s.A.det ≠ 0) (env : Env) (he : env.Exact) (avg : Bool) :
    ∃ P Q H, (s.solve_fields env false avg).1 = .ok (P, Q, H) ∧ ∀ δ, 0 < δ → ∃ θ0, 0 < θ0 ∧ ∀ (F : FlLib) (u v θ : ℝ), Spec.Library F u v θ → θ ≤ θ0 →
      (F.construct_A_Hz s.omega s.dl s.eps_r s.NPML s.L0).det ≠ 0 ∧ ∀ e' : Vec (Nx * Ny) ℂ, F.construct_A_Hz s.omega s.dl s.eps_r s.NPML s.L0 *ᵥ e' = s.rhs → ∀ i j, ‖unflatten e' i j - H i j‖ ≤ δ := by
  obtain ⟨P, Q, r1⟩ := solve_fields_third env s avg
  refine ⟨P, Q, _, r1, fun δ hδ => ?_⟩
  have hA : s.A = (construct_A s.omega (0, Nx * s.dl) (0, Ny * s.dl) s.eps_r s.NPML .Hz s.L0).1 := by
    rw [hv.A_eq, hp, hv.xr, hv.yr]
  obtain ⟨σ, hσ, hm⟩ := margin_exists s.A hdet
  obtain ⟨K, m, hm0, hK, hE⟩ := balanced_exists s.eps_r he0
  set e := solver_direct env s.A s.rhs with hed
  have hAe : s.A *ᵥ e = s.rhs := solver_direct_spec he (Or.inl hdet)
  set R := Spec.rowBoundHz s.omega s.dl s.L0 m Nx Ny with hRd
  have hR0 : 0 ≤ R := rowBoundHz_nonneg hd hv.L0_pos hm0
  have hlim : Filter.Tendsto (fun θ : ℝ => ((1 + θ) ^ (6 * K + 128) - 1) * R) (nhds 0) (nhds 0) := by
    have hc : Continuous fun θ : ℝ => ((1 + θ) ^ (6 * K + 128) - 1) * R := by fun_prop
    have := hc.tendsto 0
    simpa using this
  have hlim2 : Filter.Tendsto (fun θ : ℝ => (1 + θ) ^ (3 * K + 2)) (nhds 0) (nhds 1) := by
    have hc : Continuous fun θ : ℝ => (1 + θ) ^ (3 * K + 2) := by fun_prop
    have := hc.tendsto 0
    simpa using this
  have hpos : 0 < min (σ / 2) (δ * σ / (2 * (‖e‖ + 1))) := lt_min (by linarith) (by positivity)
  obtain ⟨r, hr, hball⟩ := Metric.eventually_nhds_iff.1 ((hlim.eventually (gt_mem_nhds hpos)).and (hlim2.eventually (gt_mem_nhds (show (1 : ℝ) < 3 / 2 by norm_num))))
  refine ⟨r / 2, by linarith, fun F u v θ hF hθ => ?_⟩
  have hθ0 := hF.theta_nonneg
  obtain ⟨h1, hs⟩ := hball (show dist θ 0 < r by rw [Real.dist_eq, sub_zero, abs_of_nonneg hθ0]; linarith)
  have h2 := lt_of_lt_of_le h1 (min_le_left _ _)
  have h3 := lt_of_lt_of_le h1 (min_le_right _ _)
  obtain ⟨f1, f2⟩ := C111_field hF hv.omega_pos hd hv.L0_pos hm0 true s.eps_r K hK hs.le hE s.NPML σ (by rw [← hA]; exact hm) (by linarith)
  refine ⟨f1, fun e' he' i j => ?_⟩
  have h4 := f2 s.rhs e e' (by rw [← hA]; exact hAe) he'
  have h5 : ‖unflatten e' i j - unflatten e i j‖ ≤ ‖e' - e‖ := norm_le_pi_norm (e' - e) _
  refine h5.trans (h4.trans ?_)
  rw [div_mul_eq_mul_div, div_le_iff₀ (by linarith)]
  rw [lt_div_iff₀ (by positivity)] at h3
  have h6 : δ * (σ / 2) ≤ δ * (σ - ((1 + θ) ^ (6 * K + 128) - 1) * R) := mul_le_mul_of_nonneg_left (by linarith) hδ.le
  have hg : 0 ≤ ((1 + θ) ^ (6 * K + 128) - 1) * R := mul_nonneg (sub_nonneg.2 (one_le_pow₀ (by linarith))) hR0
  have h7 : ((1 + θ) ^ (6 * K + 128) - 1) * R * ‖e‖ ≤ ((1 + θ) ^ (6 * K + 128) - 1) * R * (‖e‖ + 1) := mul_le_mul_of_nonneg_left (by linarith) hg
  linarith

/-! ## Cancelling averages -/

/-- An arithmetic that cannot tell the numbers between `c` and `d` apart, nor their opposites. -/
noncomputable def Spec.coarse (c d : ℝ) : FlLib where
  rnd := fun x => if c ≤ x ∧ x ≤ d then c else if c ≤ -x ∧ -x ≤ d then -c else x
  tanh := Real.tanh
  cinv := fun z => z⁻¹
  pow4 := fun x => x ^ 4

theorem coarse_library {c η θ : ℝ} (hc : 0 < c) (hη : 0 < η) (hη8 : η ≤ 1 / 8) (hηθ : η ≤ θ / 8) (hc1 : c * (1 + η) < 1) : Spec.Library (Spec.coarse c (c * (1 + η))) η 0 θ := by
  have hd : c < c * (1 + η) := by nlinarith
  set d := c * (1 + η) with hdd
  have hz : ∀ x : ℝ, Spec.Near θ 1 x x := fun x => (Spec.Near.refl θ x).mono (by linarith) (by norm_num)
  refine ⟨⟨hη.le, by linarith, le_rfl, one_pos, ?_, ?_, ?_, ?_, ?_, ?_, ?_, ?_⟩, ?_, ?_, inv_one, ?_, fun x => hz _⟩
  · intro x y hxy
    show (if c ≤ x ∧ x ≤ d then c else if c ≤ -x ∧ -x ≤ d then -c else x) ≤ (if c ≤ y ∧ y ≤ d then c else if c ≤ -y ∧ -y ≤ d then -c else y)
    split_ifs with h1 h2 h3 h4 h5 h6 h7 h8
    · exact le_rfl
    · linarith [h3.1]
    · by_contra hcon
      exact h2 ⟨by linarith, by linarith⟩
    · linarith
    · exact le_rfl
    · by_contra hcon
      exact h6 ⟨by linarith, by linarith⟩
    · by_contra hcon
      exact h1 ⟨by linarith, by linarith⟩
    · by_contra hcon
      exact h4 ⟨by linarith, by linarith⟩
    · exact hxy
  · intro x
    show (if c ≤ -x ∧ -x ≤ d then c else if c ≤ -(-x) ∧ -(-x) ≤ d then -c else -x) = -(if c ≤ x ∧ x ≤ d then c else if c ≤ -x ∧ -x ≤ d then -c else x)
    rw [neg_neg]
    split_ifs with h1 h2
    · linarith [h1.1, h2.1]
    · rw [neg_neg]
    · rfl
    · rfl
  · show (if c ≤ 1 ∧ 1 ≤ d then c else if c ≤ -1 ∧ -1 ≤ d then -c else (1 : ℝ)) = 1
    rw [if_neg (by intro h; linarith [h.2]), if_neg (by intro h; linarith [h.1])]
  · intro x
    have e : ∀ y : ℝ, (Spec.coarse c d).rnd y = if c ≤ y ∧ y ≤ d then c else if c ≤ -y ∧ -y ≤ d then -c else y := fun y => rfl
    rw [e x]
    by_cases h1 : c ≤ x ∧ x ≤ d
    · rw [if_pos h1, e, if_pos ⟨le_rfl, hd.le⟩]
    · rw [if_neg h1]
      by_cases h2 : c ≤ -x ∧ -x ≤ d
      · rw [if_pos h2, e, if_neg (by intro h; linarith [h.1]), if_pos ⟨by rw [neg_neg], by rw [neg_neg]; exact hd.le⟩]
      · rw [if_neg h2, e, if_neg h1, if_neg h2]
  · intro x
    show |(if c ≤ x ∧ x ≤ d then c else if c ≤ -x ∧ -x ≤ d then -c else x) - x| ≤ η * |x|
    have hcη : ∀ y, c ≤ y → y ≤ d → y - c ≤ η * y := fun y h1 h2 => by
      have := mul_le_mul_of_nonneg_left h1 hη.le
      have e : d = c + η * c := by rw [hdd]; ring
      linarith
    split_ifs with h1 h2
    · rw [abs_of_nonpos (by linarith [h1.1]), abs_of_nonneg (by linarith [h1.1])]
      linarith [hcη x h1.1 h1.2]
    · rw [abs_of_nonneg (by linarith [h2.1]), abs_of_nonpos (by linarith [h2.1])]
      linarith [hcη (-x) h2.1 h2.2]
    · rw [sub_self, abs_zero]
      positivity
  · exact tanh_strictMono.monotone
  · exact fun x => Real.tanh_neg x
  · intro x
    show |Real.tanh x - Real.tanh x| ≤ _
    rw [sub_self, abs_zero, zero_mul]
  · nlinarith
  · nlinarith
  · intro z _
    show ‖z⁻¹ - z⁻¹‖ ≤ _
    rw [sub_self, norm_zero]
    have : 0 ≤ θ := by linarith
    positivity

/-- **C111, cancellation.** The bound on cancellation is needed: however small the errors `θ`, there are an arithmetic with these errors and permittivities of metal and glass whose average is not zero
but is computed as zero, so that the code divides by zero. -/
theorem C111_cancel (θ : ℝ) (hθ : 0 < θ) : ∃ (F : FlLib) (u v : ℝ) (eps : Grid 2 1 ℂ), Spec.Library F u v θ ∧ (∀ w i j, Spec.edge true eps w i j ≠ 0) ∧ F.vector_eps true eps 1 .x 0 = 0 := by
  set η := min θ 1 / 8 with hη
  have hη0 : 0 < η := by positivity
  have hη8 : η ≤ 1 / 8 := by
    have := min_le_right θ 1
    rw [hη]
    linarith
  have hηθ : η ≤ θ / 8 := by
    have := min_le_left θ 1
    rw [hη]
    linarith
  have hE := EPSILON_0_pos
  have hE1 : EPSILON_0 < 1e-10 := by
    unfold EPSILON_0
    norm_num
  have hc1 : 2 * EPSILON_0 * (1 + η) < 1 := by nlinarith
  have hl := coarse_library (c := 2 * EPSILON_0) (θ := θ) (by positivity) hη0 hη8 hηθ hc1
  set d := 2 * EPSILON_0 * (1 + η) with hdd
  set F := Spec.coarse (2 * EPSILON_0) d with hF
  have e : ∀ y : ℝ, F.rnd y = if 2 * EPSILON_0 ≤ y ∧ y ≤ d then 2 * EPSILON_0 else if 2 * EPSILON_0 ≤ -y ∧ -y ≤ d then -(2 * EPSILON_0) else y := fun y => rfl
  refine ⟨F, η, 0, fun i _ => if i = 0 then 2 else ((-(2 * (1 + η)) : ℝ) : ℂ), hl, fun w i j => ?_, ?_⟩
  · have key : ∀ x y : ℝ, x + y ≠ 0 → ((x : ℂ) + y) / 2 ≠ 0 := fun x y hxy => div_ne_zero (by
      rw [← Complex.ofReal_add]
      exact Complex.ofReal_ne_zero.2 hxy) two_ne_zero
    have e2 : (2 : ℂ) = ((2 : ℝ) : ℂ) := by norm_num
    fin_cases i <;> cases w
    · show (((if Spec.prev (0 : Fin 2) = 0 then 2 else ((-(2 * (1 + η)) : ℝ) : ℂ))) + 2) / 2 ≠ 0
      rw [if_neg (by decide), e2]
      refine key _ _ ?_
      intro h
      linarith
    · show ((2 : ℂ) + 2) / 2 ≠ 0
      norm_num
    · show (((if Spec.prev (1 : Fin 2) = 0 then 2 else ((-(2 * (1 + η)) : ℝ) : ℂ))) + ((-(2 * (1 + η)) : ℝ) : ℂ)) / 2 ≠ 0
      rw [if_pos (by decide), e2]
      refine key _ _ ?_
      intro h
      linarith
    · show (((-(2 * (1 + η)) : ℝ) : ℂ) + ((-(2 * (1 + η)) : ℝ) : ℂ)) / 2 ≠ 0
      refine key _ _ ?_
      intro h
      linarith
  · have h0 : F.eps0 = EPSILON_0 := by
      show F.rnd EPSILON_0 = _
      rw [e, if_neg (by intro h; linarith [h.1]), if_neg (by intro h; linarith [h.1])]
    have h1 : F.mul F.eps0 1 = EPSILON_0 := by
      show F.rnd (F.eps0 * 1) = _
      rw [mul_one, h0]
      exact h0
    have h2 : F.mul EPSILON_0 2 = 2 * EPSILON_0 := by
      show F.rnd (EPSILON_0 * 2) = _
      have hle : 2 * EPSILON_0 ≤ d := by nlinarith
      rw [mul_comm, e, if_pos ⟨le_rfl, hle⟩]
    have h3 : F.mul EPSILON_0 (-(2 * (1 + η))) = -(2 * EPSILON_0) := by
      show F.rnd (EPSILON_0 * (-(2 * (1 + η)))) = _
      have e1 : EPSILON_0 * (-(2 * (1 + η))) = -d := by rw [hdd]; ring
      have hle : 2 * EPSILON_0 ≤ d := by nlinarith
      rw [e1, e, if_neg (by intro h; linarith [h.1]), if_pos ⟨by rw [neg_neg]; exact hle, by rw [neg_neg]⟩]
    show F.rndC (F.rndC (F.mulC ((F.mul F.eps0 1 : ℝ) : ℂ) (if Spec.prev (0 : Fin 2) = 0 then 2 else ((-(2 * (1 + η)) : ℝ) : ℂ)) + F.mulC ((F.mul F.eps0 1 : ℝ) : ℂ) 2) / 2) = 0
    have e2 : (2 : ℂ) = ((2 : ℝ) : ℂ) := by norm_num
    have e3 : F.mulC ((EPSILON_0 : ℝ) : ℂ) 2 = ((2 * EPSILON_0 : ℝ) : ℂ) := by
      rw [e2, hl.rounding.mulC_real, h2]
    rw [if_neg (by decide), h1, hl.rounding.mulC_real, h3, e3, ← Complex.ofReal_add, neg_add_cancel, Complex.ofReal_zero, hl.rounding.rndC_zero, zero_div, hl.rounding.rndC_zero]

/-! ## Examples -/

/-- A ring of glass on 60 by 40 cells in double precision: the Hz matrix is symmetric and real. -/
example (eps : Grid 60 40 ℂ) (he : ∀ i j, eps i j = 1 ∨ eps i j = 2.25) :
    (Spec.doubleLib.construct_A_Hz 1.2e15 0.05 eps (0, 0) 1e-6)ᵀ = Spec.doubleLib.construct_A_Hz 1.2e15 0.05 eps (0, 0) 1e-6 ∧ ∀ i j, (Spec.doubleLib.construct_A_Hz 1.2e15 0.05 eps (0, 0) 1e-6 true i j).im = 0 :=
  ⟨C111_symmetric C109_double.1.rounding C109_double.1.cinv_one _ _ _ _ true, fun i j => C111_real C109_double.1.rounding C109_double.1.cinv_one (fun x => by
      show Spec.double.rnd ((x : ℂ)⁻¹).im = 0
      rw [← Complex.ofReal_inv, Complex.ofReal_im]
      exact C107_double.rnd_zero) _ _ _ _ (fun i j => by
    rcases he i j with h | h <;> rw [h]
    · rfl
    · norm_num) true i j⟩

/-- Its entries with absorbing layers are accurate to twelve digits, relative to their terms. -/
example (eps : Grid 60 40 ℂ) (he : ∀ i j, eps i j = 1 ∨ eps i j = 2.25) (i j : Fin (60 * 40)) :
    ‖Spec.doubleLib.construct_A_Hz 1.2e15 0.05 eps (10, 10) 1e-6 true i j - (construct_A 1.2e15 (0, (60 : ℕ) * 0.05) (0, (40 : ℕ) * 0.05) eps (10, 10) .Hz 1e-6 true).1 i j‖ ≤
      ((1 + (1 / 2) ^ 50) ^ (6 * 1 + 128) - 1) * Spec.entryWeightHz 1.2e15 0.05 true eps (10, 10) 1e-6 i j :=
  C111_entries C109_double.1 _ _ _ (by norm_num) true eps 1 (C111_double.1 60 40 true eps fun i j => by
    rcases he i j with h | h
    · exact ⟨1, one_pos, by rw [h]; norm_num⟩
    · exact ⟨2.25, by norm_num, by rw [h]; norm_num⟩) C111_double.2.1 (10, 10) i j

/-- Free space with layers, any frequency and source. -/
example (omega : ℝ) (ho : 0 < omega) (src : Grid 100 80 ℂ) (env : Env) (he : env.Exact) :
    ∃ P Q H, ((anysim omega (1 / 20) (10, 10) .Hz (fun _ _ => 1) src).solve_fields env false false).1 = .ok (P, Q, H) ∧ ∀ δ, 0 < δ → ∃ θ0, 0 < θ0 ∧ ∀ (F : FlLib) (u v θ : ℝ), Spec.Library F u v θ → θ ≤ θ0 →
      (F.construct_A_Hz omega (1 / 20) (fun (_ : Fin 100) (_ : Fin 80) => 1) (10, 10) 1).det ≠ 0 ∧ ∀ e' : Vec (100 * 80) ℂ,
        F.construct_A_Hz omega (1 / 20) (fun (_ : Fin 100) (_ : Fin 80) => 1) (10, 10) 1 *ᵥ e' = (anysim omega (1 / 20) (10, 10) .Hz (fun _ _ => 1) src).rhs → ∀ i j, ‖unflatten e' i j - H i j‖ ≤ δ :=
  C111_precision (anysim omega (1 / 20) (10, 10) .Hz (fun _ _ => 1) src) (anysim_valid _ _ ho _ _ _ _) rfl (by norm_num [anysim]) (fun w i j => by
      show ((1 : ℂ) + 1) / 2 ≠ 0
      norm_num)
    (C97_uniform _ (anysim_valid _ _ ho _ _ _ _) (by norm_num [anysim]) (by norm_num) (by norm_num) (by norm_num [anysim]) (by norm_num [anysim]) 1 (fun _ _ => rfl) one_ne_zero (by simp)).1 env he false

end Angler
