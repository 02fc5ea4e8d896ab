import Verif.Lemmas.RoundMatrix
import Verif.Props.Inexact

/-! # The system matrix in floating point (C109) -/

namespace Angler

open Matrix

variable {Nx Ny : ℕ} {F : FlLib} {u v θ : ℝ}

/-- The reciprocal stretch factors along `w`, as computed. -/
noncomputable def FlLib.stretch (F : FlLib) (w : Axis) (s : Dir) (dl L0 omega : ℝ) (NPML : ℕ × ℕ) (k : Fin (Nx * Ny)) : ℂ :=
  match w with
  | .x => F.cinv (F.create_sfactor dl L0 s omega Nx NPML.1 k.divNat)
  | .y => F.cinv (F.create_sfactor dl L0 s omega Ny NPML.2 k.modNat)

/-- One over the spacing, as computed. -/
noncomputable def FlLib.slope (F : FlLib) (w : Axis) (dl : ℝ) (Nx Ny : ℕ) : ℝ := F.div 1 (stepLen w (F.spacing dl Nx) (F.spacing dl Ny) Nx Ny)

theorem deriv_entry (h : Spec.Rounding F.toFl u v) (w : Axis) (s : Dir) (dl L0 omega : ℝ) (NPML : ℕ × ℕ) (i j : Fin (Nx * Ny)) :
    F.deriv w s dl L0 omega Nx Ny NPML i j = ((pat w s Nx Ny i j : ℝ) : ℂ) * F.mulC (F.stretch w s dl L0 omega NPML i) ((F.slope w dl Nx Ny : ℝ) : ℂ) := by
  have h1 : ∀ d : Vec (Nx * Ny) ℂ, F.matMul (spdiag d) ((F.createDws w s (F.spacing dl Nx) (F.spacing dl Ny) Nx Ny).map Complex.ofReal) i j =
      ((pat w s Nx Ny i j : ℝ) : ℂ) * F.mulC (d i) ((F.slope w dl Nx Ny : ℝ) : ℂ) := fun d => by
    rw [h.matMul_spdiag, Matrix.map_apply, fl_createDws_pat h]
    have e : F.mul (F.div 1 (stepLen w (F.spacing dl Nx) (F.spacing dl Ny) Nx Ny)) (pat w s Nx Ny i j) = pat w s Nx Ny i j * F.slope w dl Nx Ny := by
      show F.rnd (F.slope w dl Nx Ny * pat w s Nx Ny i j) = _
      rw [mul_comm, h.rnd_sign (pat_values w s i j)]
      unfold FlLib.slope Fl.div
      rw [h.idem]
    rw [e, Complex.ofReal_mul, h.mulC_sign_right (pat_values w s i j)]
  cases w
  · exact h1 _
  · exact h1 _

theorem deriv_two (h : Spec.Rounding F.toFl u v) (w : Axis) (s : Dir) (dl L0 omega : ℝ) (NPML : ℕ × ℕ) : Spec.TwoEntries (F.deriv w s dl L0 omega Nx Ny NPML) := fun i => by
  obtain ⟨a, b, hab⟩ := pat_two w s i
  exact ⟨a, b, fun k h1 h2 => by rw [deriv_entry h, hab k h1 h2, Complex.ofReal_zero, zero_mul]⟩

/-- The number of cells along an axis. -/
def Spec.cells (w : Axis) (Nx Ny : ℕ) : ℕ :=
  match w with
  | .x => Nx
  | .y => Ny

/-- **C109, differences of constants.** The computed difference operators, with absorbing layers or without, map constants to exactly zero. -/
theorem C109_constants (h : Spec.Rounding F.toFl u v) (w : Axis) (s : Dir) (dl L0 omega : ℝ) (NPML : ℕ × ℕ) (hn : 1 < (Spec.cells w Nx Ny)) (c : ℂ) (i : Fin (Nx * Ny)) :
    F.mulVec (F.deriv w s dl L0 omega Nx Ny NPML) (fun _ => c) i = 0 := by
  rw [h.mulVec_eq _ _ (deriv_two h w s dl L0 omega NPML)]
  have e : ∀ k, F.mulC (F.deriv w s dl L0 omega Nx Ny NPML i k) c = ((pat w s Nx Ny i k : ℝ) : ℂ) * F.mulC (F.mulC (F.stretch w s dl L0 omega NPML i) ((F.slope w dl Nx Ny : ℝ) : ℂ)) c := fun k => by
    rw [deriv_entry h, h.mulC_sign_left (pat_values w s i k)]
  rw [Finset.sum_congr rfl fun k _ => e k, ← Finset.sum_mul, ← Complex.ofReal_sum, pat_sum w s (by cases w <;> exact hn), Complex.ofReal_zero, zero_mul, h.rndC_zero]

theorem stretch_none (h1 : F.cinv 1 = 1) (w : Axis) (s : Dir) (dl L0 omega : ℝ) (k : Fin (Nx * Ny)) : F.stretch w s dl L0 omega (0, 0) k = 1 := by
  cases w
  · show F.cinv (F.create_sfactor dl L0 s omega Nx 0 k.divNat) = 1
    unfold FlLib.create_sfactor
    rw [if_pos (by norm_num), h1]
  · show F.cinv (F.create_sfactor dl L0 s omega Ny 0 k.modNat) = 1
    unfold FlLib.create_sfactor
    rw [if_pos (by norm_num), h1]

/-- Without layers the second differences are multiples of one number. -/
theorem block_none (h : Spec.Rounding F.toFl u v) (h1 : F.cinv 1 = 1) (w : Axis) (dl L0 omega m : ℝ) (i j : Fin (Nx * Ny)) :
    F.matMul ((F.deriv w .f dl L0 omega Nx Ny (0, 0)).map fun z => F.mulC z (m : ℂ)) (F.deriv w .b dl L0 omega Nx Ny (0, 0)) i j =
      ((F.rnd ((∑ k, pat w .f Nx Ny i k * pat w .b Nx Ny k j) * F.mul (F.mul (F.slope w dl Nx Ny) m) (F.slope w dl Nx Ny)) : ℝ) : ℂ) := by
  have hd : ∀ s i j, F.deriv w s dl L0 omega Nx Ny (0, 0) i j = ((pat w s Nx Ny i j : ℝ) : ℂ) * ((F.slope w dl Nx Ny : ℝ) : ℂ) := fun s i j => by
    rw [deriv_entry h, stretch_none h1, h.mulC_one_left]
    refine Complex.ext ?_ ?_
    · show F.rnd (F.slope w dl Nx Ny) = F.slope w dl Nx Ny
      unfold FlLib.slope Fl.div
      rw [h.idem]
    · show F.rnd 0 = 0
      exact h.rnd_zero
  have htwo : Spec.TwoEntries ((F.deriv w .f dl L0 omega Nx Ny (0, 0)).map fun z => F.mulC z (m : ℂ)) := fun i => by
    obtain ⟨a, b, hab⟩ := deriv_two h w .f dl L0 omega (Nx := Nx) (Ny := Ny) (0, 0) i
    exact ⟨a, b, fun k g1 g2 => by rw [Matrix.map_apply, hab k g1 g2, h.mulC_zero_left]⟩
  rw [h.matMul_eq _ _ htwo]
  have e : ∀ k, F.mulC (((F.deriv w .f dl L0 omega Nx Ny (0, 0)).map fun z => F.mulC z (m : ℂ)) i k) (F.deriv w .b dl L0 omega Nx Ny (0, 0) k j) =
      (((pat w .f Nx Ny i k * pat w .b Nx Ny k j) * F.mul (F.mul (F.slope w dl Nx Ny) m) (F.slope w dl Nx Ny) : ℝ) : ℂ) := fun k => by
    rw [Matrix.map_apply, hd, hd, h.mulC_sign_left (pat_values w .f i k), h.mulC_sign_left (pat_values w .f i k), h.mulC_sign_right (pat_values w .b k j), h.mulC_real, h.mulC_real]
    push_cast
    ring
  rw [Finset.sum_congr rfl fun k _ => e k, ← Complex.ofReal_sum, ← Finset.sum_mul]
  refine Complex.ext rfl ?_
  show F.rnd 0 = 0
  exact h.rnd_zero

theorem pat_block_symm (w : Axis) (i j : Fin (Nx * Ny)) : ∑ k, pat w .f Nx Ny i k * pat w .b Nx Ny k j = ∑ k, pat w .f Nx Ny j k * pat w .b Nx Ny k i := by
  rcases pat_transpose (Nx := Nx) (Ny := Ny) w with h | ⟨h1, h2⟩
  · refine Finset.sum_congr rfl fun k _ => ?_
    rw [h, h]
    ring
  · have e : ∀ a b : Fin (Nx * Ny), ∑ k, pat w .f Nx Ny a k * pat w .b Nx Ny k b = (1 : Mat (Nx * Ny) ℝ) a b := fun a b => by
      rw [h1, h2, ← Matrix.mul_apply, one_mul]
    rw [e, e, Matrix.one_apply, Matrix.one_apply, if_congr (@eq_comm _ i j) rfl rfl]

/-- **C109, symmetry.** Without absorbing layers the computed matrix is exactly symmetric, so the forward and the adjoint problem have bit for bit the same matrix. -/
theorem C109_symmetric (h : Spec.Rounding F.toFl u v) (h1 : F.cinv 1 = 1) (omega dl L0 : ℝ) (eps : Grid Nx Ny ℂ) :
    (F.construct_A omega dl eps (0, 0) L0)ᵀ = F.construct_A omega dl eps (0, 0) L0 := by
  ext i j
  rw [Matrix.transpose_apply]
  unfold FlLib.construct_A
  dsimp only
  rw [Matrix.of_apply, Matrix.of_apply, block_none h h1, block_none h h1, block_none h h1, block_none h h1, pat_block_symm .x j i, pat_block_symm .y j i]
  congr 2
  unfold spdiag
  by_cases hij : i = j
  · rw [hij]
  · rw [Matrix.diagonal_apply_ne _ hij, Matrix.diagonal_apply_ne _ (Ne.symm hij)]

/-- **C109, lossless devices.** Without absorbing layers and with a real permittivity the computed matrix is exactly real. -/
theorem C109_real (h : Spec.Rounding F.toFl u v) (h1 : F.cinv 1 = 1) (omega dl L0 : ℝ) (eps : Grid Nx Ny ℂ) (he : ∀ i j, (eps i j).im = 0) (i j : Fin (Nx * Ny)) :
    (F.construct_A omega dl eps (0, 0) L0 i j).im = 0 := by
  unfold FlLib.construct_A
  dsimp only
  rw [Matrix.of_apply, block_none h h1, block_none h h1]
  have e : ∃ x : ℝ, F.mulC ((F.mul omega omega : ℝ) : ℂ) ((spdiag fun k => F.mulC ((F.mul F.eps0 L0 : ℝ) : ℂ) (flatten eps k)) i j) = (x : ℂ) := by
    unfold spdiag
    by_cases hij : i = j
    · rw [hij, Matrix.diagonal_apply_eq]
      have e2 : flatten eps j = (((flatten eps j).re : ℝ) : ℂ) := Complex.ext rfl (he _ _)
      rw [e2, h.mulC_real, h.mulC_real]
      exact ⟨_, rfl⟩
    · rw [Matrix.diagonal_apply_ne _ hij, h.mulC_zero_right]
      exact ⟨0, by simp⟩
  obtain ⟨x, hx⟩ := e
  rw [hx]
  show F.rnd (F.rnd (0 + 0) + 0) = 0
  rw [add_zero, add_zero, h.idem, h.rnd_zero]

/-! ## Accuracy -/

theorem eps0_near (h : Spec.Library F u v θ) : Spec.Near θ 1 F.eps0 EPSILON_0 := h.rnd_near _

theorem mu0_near (h : Spec.Library F u v θ) : Spec.Near θ 1 F.mu0 MU_0 := h.rnd_near _

theorem eta0_near (h : Spec.Library F u v θ) : Spec.Near θ 4 F.eta0 ETA_0 :=
  h.near_rnd ((h.near_div (mu0_near h) (eps0_near h)).sqrt h.theta_nonneg)

theorem spacing_near (h : Spec.Library F u v θ) (dl : ℝ) (N : ℕ) : Spec.Near θ 3 (F.spacing dl N) ((N * dl - 0) / N) := by
  have h1 := h.near_mul (Spec.Near.refl θ (N : ℝ)) (Spec.Near.refl θ dl)
  have h2 : Spec.Near θ 2 (F.sub (F.mul N dl) 0) (N * dl - 0) := by
    unfold Fl.sub
    rw [sub_zero, sub_zero]
    exact h.near_rnd h1
  exact h.near_div h2 (Spec.Near.refl θ (N : ℝ))

theorem sig_w_near (h : Spec.Library F u v θ) {l l' dw dw' : ℝ} (hl : Spec.Near θ 4 l' l) (hd : Spec.Near θ 4 dw' dw) : Spec.Near θ 49 (F.sig_w l' dw') (sig_w l dw) := by
  have h1 := h.near_mul (h.near_mul (Spec.Near.refl θ 2) (eta0_near h)) hd
  have h2 := h.near_div (Spec.Near.refl θ 60) h1
  have h3 := (h.near_div hl hd).pow h.theta_nonneg 4
  have h4 : Spec.Near θ 37 (F.pow4 (F.div l' dw')) ((l / dw) ^ 4) := by
    obtain ⟨r, a1, a2, a3⟩ := h.pow4_near (F.div l' dw')
    have h5 := (show Spec.Near θ 1 r 1 from ⟨r, by ring, a2, a3⟩).mul h.theta_nonneg h3
    rw [one_mul] at h5
    rw [a1]
    exact h5
  have h6 := h.near_mul h2 h4
  have e : sig_w l dw = 60 / (2 * ETA_0 * dw) * (l / dw) ^ 4 := by
    unfold sig_w
    norm_num
  rw [e]
  exact h6

theorem Sfac_near (h : Spec.Library F u v θ) {l l' dw dw' : ℝ} (hl : Spec.Near θ 4 l' l) (hd : Spec.Near θ 4 dw' dw) (omega L0 : ℝ) :
    Spec.CNear θ 54 (F.cinv (F.Sfac l' dw' omega L0)) (1 / Sfac l dw omega L0) := by
  have hθ := h.theta_nonneg
  have h1 := h.near_div (sig_w_near h hl hd) (h.near_mul (h.near_mul (Spec.Near.refl θ omega) (eps0_near h)) (Spec.Near.refl θ L0))
  have e : Sfac l dw omega L0 = ⟨1, -(sig_w l dw / (omega * EPSILON_0 * L0))⟩ := Sfac_eq l dw omega L0
  have e' : F.Sfac l' dw' omega L0 = ⟨1, -F.div (F.sig_w l' dw') (F.mul (F.mul omega F.eps0) L0)⟩ := rfl
  rw [e, e']
  generalize F.div (F.sig_w l' dw') (F.mul (F.mul omega F.eps0) L0) = x' at h1
  generalize sig_w l dw / (omega * EPSILON_0 * L0) = x at h1
  have hz : ∀ y : ℝ, (⟨1, y⟩ : ℂ) ≠ 0 := fun y hy => one_ne_zero (congrArg Complex.re hy)
  have h2 : Spec.CNear θ 53 (1 / (⟨1, -x'⟩ : ℂ)) (1 / (⟨1, -x⟩ : ℂ)) := by
    obtain ⟨r, a1, a2, a3⟩ := h1
    have a1' : x' = r * x := a1
    have hk := Spec.Near.pow_pos' hθ 53
    have hk1 : 1 ≤ (1 + θ) ^ 53 := one_le_pow₀ (by linarith)
    have hr : 0 < r := lt_of_lt_of_le (inv_pos.2 hk) a2
    have e1 : 1 / (⟨1, -x'⟩ : ℂ) - 1 / (⟨1, -x⟩ : ℂ) = ((⟨1, -x⟩ : ℂ) - ⟨1, -x'⟩) / ⟨1, -x'⟩ * (1 / (⟨1, -x⟩ : ℂ)) := by
      have g1 := hz (-x)
      have g2 := hz (-x')
      field_simp
    show ‖_ - _‖ ≤ _
    rw [e1, norm_mul, norm_div]
    refine mul_le_mul_of_nonneg_right ?_ (norm_nonneg _)
    have g1 : 0 < ‖(⟨1, -x'⟩ : ℂ)‖ := norm_pos_iff.2 (hz _)
    have g2 : r * |x| ≤ ‖(⟨1, -x'⟩ : ℂ)‖ := by
      have := Complex.abs_im_le_norm (⟨1, -x'⟩ : ℂ)
      have e3 : |(⟨1, -x'⟩ : ℂ).im| = r * |x| := by
        show |-x'| = _
        rw [abs_neg, a1', abs_mul, abs_of_pos hr]
      rwa [e3] at this
    have g3 : ‖(⟨1, -x⟩ : ℂ) - ⟨1, -x'⟩‖ = |r - 1| * |x| := by
      have e3 : (⟨1, -x⟩ : ℂ) - ⟨1, -x'⟩ = (((r - 1) * x : ℝ) : ℂ) * Complex.I := by
        apply Complex.ext
        · simp
        · simp [a1']
          ring
      rw [e3, norm_mul, Complex.norm_I, mul_one, Complex.norm_real, Real.norm_eq_abs, abs_mul]
    rw [div_le_iff₀ g1, g3]
    have g4 : |r - 1| ≤ ((1 + θ) ^ 53 - 1) * r := by
      have b1 : 1 ≤ (1 + θ) ^ 53 * r := by
        have := mul_le_mul_of_nonneg_left a2 hk.le
        rwa [mul_inv_cancel₀ hk.ne'] at this
      refine abs_le.2 ⟨by linarith, ?_⟩
      by_cases hr1 : 1 ≤ r
      · have := mul_le_mul_of_nonneg_left hr1 (sub_nonneg.2 hk1)
        have a3' : r ≤ (1 + θ) ^ 53 := a3
        linarith
      · have := mul_nonneg (sub_nonneg.2 hk1) hr.le
        linarith
    calc |r - 1| * |x| ≤ ((1 + θ) ^ 53 - 1) * r * |x| := mul_le_mul_of_nonneg_right g4 (abs_nonneg _)
      _ = ((1 + θ) ^ 53 - 1) * (r * |x|) := by ring
      _ ≤ _ := mul_le_mul_of_nonneg_left g2 (sub_nonneg.2 hk1)
  refine h2.step hθ ?_
  rw [one_div]
  exact h.cinv_err _ (hz _)

theorem sfactor_near (h : Spec.Library F u v θ) (dl L0 : ℝ) (s : Dir) (omega : ℝ) (N P : ℕ) (i : Fin N) :
    Spec.CNear θ 54 (F.cinv (F.create_sfactor dl L0 s omega N P i)) (1 / create_sfactor (0, N * dl) L0 s omega N P i) := by
  have hθ := h.theta_nonneg
  have h1 : Spec.CNear θ 54 (F.cinv 1) (1 / 1) := by
    rw [h.cinv_one, div_one]
    exact (Spec.CNear.refl θ 1).mono hθ (by norm_num)
  have hw := spacing_near h dl N
  have hd := h.near_mul (Spec.Near.refl θ (P : ℝ)) hw
  have hl := fun c : ℝ => h.near_mul hw (Spec.Near.refl θ c)
  unfold FlLib.create_sfactor create_sfactor
  split_ifs
  · exact h1
  · cases s
    · dsimp only
      split_ifs
      · exact Sfac_near h (hl _) hd omega L0
      · exact Sfac_near h (hl _) hd omega L0
      · exact h1
    · dsimp only
      split_ifs
      · exact Sfac_near h (hl _) hd omega L0
      · exact Sfac_near h (hl _) hd omega L0
      · exact h1

/-- The difference matrices of the exact model by axis and direction. -/
noncomputable def Derivs.get (D : Derivs Nx Ny) : Axis → Dir → Mat (Nx * Ny) ℂ
  | .x, .f => D.Dxf
  | .x, .b => D.Dxb
  | .y, .f => D.Dyf
  | .y, .b => D.Dyb

/-- The exact difference matrices of a simulation with spacing `dl`. -/
noncomputable def exactD (w : Axis) (s : Dir) (dl L0 omega : ℝ) (Nx Ny : ℕ) (NPML : ℕ × ℕ) : Mat (Nx * Ny) ℂ := (mkDerivs omega (0, Nx * dl) (0, Ny * dl) Nx Ny NPML L0).get w s

theorem slope_near (h : Spec.Library F u v θ) (w : Axis) (dl : ℝ) : Spec.Near θ 4 (F.slope w dl Nx Ny) (1 / stepLen w (dL Nx Ny (0, Nx * dl) (0, Ny * dl)).1 (dL Nx Ny (0, Nx * dl) (0, Ny * dl)).2 Nx Ny) := by
  have hθ := h.theta_nonneg
  have h1 : Spec.Near θ 3 (1 : ℝ) 1 := (Spec.Near.refl θ 1).mono hθ (by norm_num)
  have h2 : Spec.Near θ 3 (stepLen w (F.spacing dl Nx) (F.spacing dl Ny) Nx Ny) (stepLen w (dL Nx Ny (0, Nx * dl) (0, Ny * dl)).1 (dL Nx Ny (0, Nx * dl) (0, Ny * dl)).2 Nx Ny) := by
    unfold stepLen dL
    cases w <;> dsimp only <;> split_ifs
    · exact spacing_near h dl Nx
    · exact h1
    · exact spacing_near h dl Ny
    · exact h1
  exact h.near_div (Spec.Near.refl θ 1) h2

theorem deriv_near (h : Spec.Library F u v θ) (w : Axis) (s : Dir) (dl L0 omega : ℝ) (NPML : ℕ × ℕ) (i j : Fin (Nx * Ny)) :
    Spec.CNear θ 59 (F.deriv w s dl L0 omega Nx Ny NPML i j) (exactD w s dl L0 omega Nx Ny NPML i j) := by
  have hθ := h.theta_nonneg
  have h1 := (slope_near (Nx := Nx) (Ny := Ny) h w dl).toC hθ
  have h2 : ∀ σ : ℂ, Spec.CNear θ 54 (F.stretch w s dl L0 omega NPML i) σ → Spec.CNear θ 59 (F.deriv w s dl L0 omega Nx Ny NPML i j)
      (σ * createDws w s (dL Nx Ny (0, Nx * dl) (0, Ny * dl)).1 (dL Nx Ny (0, Nx * dl) (0, Ny * dl)).2 Nx Ny i j) := fun σ hσ => by
    rw [deriv_entry h.rounding, createDws_pat]
    have h3 := h.cnear_mul hσ h1
    have h4 := (Spec.CNear.refl θ ((pat w s Nx Ny i j : ℝ) : ℂ)).mul hθ h3
    rw [Complex.ofReal_div, Complex.ofReal_one] at h4
    have e : ∀ a b c : ℂ, a * (b * c) = b * (c * a) := fun a b c => by ring
    rw [e ((pat w s Nx Ny i j : ℝ) : ℂ) σ] at h4
    rw [zero_add] at h4
    exact h4
  have hS : ∀ (d : Vec (Nx * Ny) ℂ) (B : Mat (Nx * Ny) ℂ), (spdiag d * B) i j = d i * B i j := fun d B => by
    unfold spdiag
    rw [Matrix.diagonal_mul]
  cases w <;> cases s
  all_goals
    show Spec.CNear θ 59 _ ((spdiag _ * createDws _ _ _ _ Nx Ny : Mat (Nx * Ny) ℂ) i j)
    rw [hS]
    exact h2 _ (sfactor_near h dl L0 _ omega _ _ _)

/-- The sum of the moduli of the terms of one entry of the matrix. -/
noncomputable def Spec.entryWeight (omega dl : ℝ) (eps : Grid Nx Ny ℂ) (NPML : ℕ × ℕ) (L0 : ℝ) (i j : Fin (Nx * Ny)) : ℝ :=
  1 / (MU_0 * L0) * (∑ k, ‖exactD .x .f dl L0 omega Nx Ny NPML i k‖ * ‖exactD .x .b dl L0 omega Nx Ny NPML k j‖)
    + 1 / (MU_0 * L0) * (∑ k, ‖exactD .y .f dl L0 omega Nx Ny NPML i k‖ * ‖exactD .y .b dl L0 omega Nx Ny NPML k j‖)
    + if i = j then omega ^ 2 * (EPSILON_0 * L0) * ‖flatten eps i‖ else 0

/-- Sums with errors relative to the moduli of their terms. -/
theorem rndC_sum (h : Spec.Library F u v θ) {ι : Type*} (S : Finset ι) {k : ℕ} (t' t : ι → ℂ) (ht : ∀ a ∈ S, Spec.CNear θ k (t' a) (t a)) :
    ‖F.rndC (∑ a ∈ S, t' a) - ∑ a ∈ S, t a‖ ≤ ((1 + θ) ^ (k + 1) - 1) * ∑ a ∈ S, ‖t a‖ := by
  have hθ := h.theta_nonneg
  have h1 : ‖∑ a ∈ S, t' a - ∑ a ∈ S, t a‖ ≤ ((1 + θ) ^ k - 1) * ∑ a ∈ S, ‖t a‖ := by
    rw [← Finset.sum_sub_distrib, Finset.mul_sum]
    exact (norm_sum_le _ _).trans (Finset.sum_le_sum ht)
  have h2 : ‖∑ a ∈ S, t' a‖ ≤ (1 + θ) ^ k * ∑ a ∈ S, ‖t a‖ := by
    rw [Finset.mul_sum]
    exact (norm_sum_le _ _).trans (Finset.sum_le_sum fun a ha => (ht a ha).norm_le)
  have h3 := h.rndC_err (∑ a ∈ S, t' a)
  have h4 := mul_le_mul_of_nonneg_left h2 hθ
  have h5 := norm_add_le (F.rndC (∑ a ∈ S, t' a) - ∑ a ∈ S, t' a) (∑ a ∈ S, t' a - ∑ a ∈ S, t a)
  rw [sub_add_sub_cancel] at h5
  have e : ((1 + θ) ^ (k + 1) - 1) * ∑ a ∈ S, ‖t a‖ = θ * ((1 + θ) ^ k * ∑ a ∈ S, ‖t a‖) + ((1 + θ) ^ k - 1) * ∑ a ∈ S, ‖t a‖ := by ring
  linarith

/-- Sums of two numbers known relative to weights. -/
theorem addC_near (h : Spec.Library F u v θ) {k : ℕ} {a a' b b' : ℂ} {p q : ℝ} (ha : ‖a' - a‖ ≤ ((1 + θ) ^ k - 1) * p) (hb : ‖b' - b‖ ≤ ((1 + θ) ^ k - 1) * q) (hp : ‖a‖ ≤ p) (hq : ‖b‖ ≤ q) :
    ‖F.addC a' b' - (a + b)‖ ≤ ((1 + θ) ^ (k + 1) - 1) * (p + q) := by
  have hθ := h.theta_nonneg
  have h1 : ‖(a' + b') - (a + b)‖ ≤ ((1 + θ) ^ k - 1) * (p + q) := by
    rw [add_sub_add_comm]
    have := norm_add_le (a' - a) (b' - b)
    linarith
  have h2 : ‖a' + b'‖ ≤ (1 + θ) ^ k * (p + q) := by
    have g1 := norm_add_le ((a' + b') - (a + b)) (a + b)
    rw [sub_add_cancel] at g1
    have g2 := norm_add_le a b
    linarith
  have h3 := h.rndC_err (a' + b')
  have h4 := mul_le_mul_of_nonneg_left h2 hθ
  have h5 := norm_add_le (F.rndC (a' + b') - (a' + b')) ((a' + b') - (a + b))
  rw [sub_add_sub_cancel] at h5
  have e : ((1 + θ) ^ (k + 1) - 1) * (p + q) = θ * ((1 + θ) ^ k * (p + q)) + ((1 + θ) ^ k - 1) * (p + q) := by ring
  show ‖F.rndC (a' + b') - (a + b)‖ ≤ _
  linarith

theorem block_near (h : Spec.Library F u v θ) (w : Axis) (dl L0 omega : ℝ) (hL : 0 < L0) (NPML : ℕ × ℕ) (i j : Fin (Nx * Ny)) :
    ‖F.matMul ((F.deriv w .f dl L0 omega Nx Ny NPML).map fun z => F.mulC z ((F.div 1 (F.mul F.mu0 L0) : ℝ) : ℂ)) (F.deriv w .b dl L0 omega Nx Ny NPML) i j
        - ((1 / ((MU_0 * L0 : ℝ) : ℂ)) • (exactD w .f dl L0 omega Nx Ny NPML * exactD w .b dl L0 omega Nx Ny NPML)) i j‖
      ≤ ((1 + θ) ^ 124 - 1) * (1 / (MU_0 * L0) * ∑ k, ‖exactD w .f dl L0 omega Nx Ny NPML i k‖ * ‖exactD w .b dl L0 omega Nx Ny NPML k j‖) ∧
    ‖((1 / ((MU_0 * L0 : ℝ) : ℂ)) • (exactD w .f dl L0 omega Nx Ny NPML * exactD w .b dl L0 omega Nx Ny NPML)) i j‖
      ≤ 1 / (MU_0 * L0) * ∑ k, ‖exactD w .f dl L0 omega Nx Ny NPML i k‖ * ‖exactD w .b dl L0 omega Nx Ny NPML k j‖ := by
  have hθ := h.theta_nonneg
  have hM : 0 < MU_0 * L0 := mul_pos MU_0_pos hL
  have htwo : Spec.TwoEntries ((F.deriv w .f dl L0 omega Nx Ny NPML).map fun z => F.mulC z ((F.div 1 (F.mul F.mu0 L0) : ℝ) : ℂ)) := fun i => by
    obtain ⟨a, b, hab⟩ := deriv_two h.rounding w .f dl L0 omega NPML i
    exact ⟨a, b, fun k g1 g2 => by rw [Matrix.map_apply, hab k g1 g2, h.rounding.mulC_zero_left]⟩
  have e : ((1 / ((MU_0 * L0 : ℝ) : ℂ)) • (exactD w .f dl L0 omega Nx Ny NPML * exactD w .b dl L0 omega Nx Ny NPML)) i j =
      ∑ k, exactD w .f dl L0 omega Nx Ny NPML i k * (1 / ((MU_0 * L0 : ℝ) : ℂ)) * exactD w .b dl L0 omega Nx Ny NPML k j := by
    rw [Matrix.smul_apply, smul_eq_mul, Matrix.mul_apply, Finset.mul_sum]
    refine Finset.sum_congr rfl fun k _ => ?_
    ring
  have e2 : ∀ k, ‖exactD w .f dl L0 omega Nx Ny NPML i k * (1 / ((MU_0 * L0 : ℝ) : ℂ)) * exactD w .b dl L0 omega Nx Ny NPML k j‖ =
      1 / (MU_0 * L0) * (‖exactD w .f dl L0 omega Nx Ny NPML i k‖ * ‖exactD w .b dl L0 omega Nx Ny NPML k j‖) := fun k => by
    rw [norm_mul, norm_mul, norm_div, norm_one, Complex.norm_real, Real.norm_of_nonneg hM.le]
    ring
  rw [e]
  constructor
  · rw [h.rounding.matMul_eq _ _ htwo, Finset.mul_sum, ← Finset.sum_congr rfl fun k _ => e2 k]
    refine rndC_sum (k := 123) h Finset.univ _ _ fun k _ => ?_
    have h1 := (h.near_div (Spec.Near.refl θ 1) (h.near_mul (mu0_near h) (Spec.Near.refl θ L0))).toC hθ
    have h2 := h.cnear_mul (deriv_near h w .f dl L0 omega NPML i k) h1
    have h3 := h.cnear_mul h2 (deriv_near h w .b dl L0 omega NPML k j)
    rw [Matrix.map_apply]
    rw [Complex.ofReal_div, Complex.ofReal_one] at h3
    exact h3
  · refine (norm_sum_le _ _).trans (le_of_eq ?_)
    rw [Finset.mul_sum]
    exact Finset.sum_congr rfl fun k _ => e2 k

/-- **C109, accuracy.** Every entry of the computed matrix is the entry of the exact matrix up to 126 relative errors of the sum of the moduli of its terms. -/
theorem C109_entries (h : Spec.Library F u v θ) (omega dl L0 : ℝ) (hL : 0 < L0) (eps : Grid Nx Ny ℂ) (NPML : ℕ × ℕ) (i j : Fin (Nx * Ny)) :
    ‖F.construct_A omega dl eps NPML L0 i j - (construct_A omega (0, Nx * dl) (0, Ny * dl) eps NPML .Ez L0).1 i j‖ ≤ ((1 + θ) ^ 126 - 1) * Spec.entryWeight omega dl eps NPML L0 i j := by
  have hθ := h.theta_nonneg
  have hE : 0 < EPSILON_0 * L0 := mul_pos EPSILON_0_pos hL
  obtain ⟨x1, x2⟩ := block_near (Nx := Nx) (Ny := Ny) h .x dl L0 omega hL NPML i j
  obtain ⟨y1, y2⟩ := block_near (Nx := Nx) (Ny := Ny) h .y dl L0 omega hL NPML i j
  have h1 := addC_near h x1 y1 x2 y2
  have h2 := (norm_add_le _ _).trans (add_le_add x2 y2)
  have hz : ∃ t : ℂ, (((omega : ℂ) ^ 2) • spdiag fun k => ((EPSILON_0 * L0 : ℝ) : ℂ) * flatten eps k) i j = t ∧
      Spec.CNear θ 125 (F.mulC ((F.mul omega omega : ℝ) : ℂ) ((spdiag fun k => F.mulC ((F.mul F.eps0 L0 : ℝ) : ℂ) (flatten eps k)) i j)) t ∧
      ‖t‖ = if i = j then omega ^ 2 * (EPSILON_0 * L0) * ‖flatten eps i‖ else 0 := by
    rw [Matrix.smul_apply, smul_eq_mul]
    unfold spdiag
    by_cases hij : i = j
    · subst hij
      rw [if_pos rfl, Matrix.diagonal_apply_eq, Matrix.diagonal_apply_eq]
      refine ⟨_, rfl, ?_, ?_⟩
      · have g1 := (h.near_mul (Spec.Near.refl θ omega) (Spec.Near.refl θ omega)).toC hθ
        have g2 := (h.near_mul (eps0_near h) (Spec.Near.refl θ L0)).toC hθ
        have g3 := h.cnear_mul g1 (h.cnear_mul g2 (Spec.CNear.refl θ (flatten eps i)))
        rw [Complex.ofReal_mul omega omega, ← pow_two] at g3
        exact g3.mono hθ (by norm_num)
      · rw [norm_mul, norm_mul, norm_pow, Complex.norm_real, Complex.norm_real, Real.norm_of_nonneg hE.le, Real.norm_eq_abs, sq_abs]
        ring
    · rw [if_neg hij, Matrix.diagonal_apply_ne _ hij, Matrix.diagonal_apply_ne _ hij, mul_zero]
      refine ⟨0, rfl, ?_, norm_zero⟩
      rw [h.rounding.mulC_zero_right]
      exact (Spec.CNear.refl θ 0).mono hθ (by norm_num)
  obtain ⟨t, t1, t2, t3⟩ := hz
  have t2' : ‖_ - t‖ ≤ ((1 + θ) ^ 125 - 1) * ‖t‖ := t2
  have h3 := addC_near h h1 t2' h2 le_rfl
  rw [t3] at h3
  have e : (construct_A omega (0, Nx * dl) (0, Ny * dl) eps NPML .Ez L0).1 i j =
      ((1 / ((MU_0 * L0 : ℝ) : ℂ)) • (exactD .x .f dl L0 omega Nx Ny NPML * exactD .x .b dl L0 omega Nx Ny NPML)) i j
      + ((1 / ((MU_0 * L0 : ℝ) : ℂ)) • (exactD .y .f dl L0 omega Nx Ny NPML * exactD .y .b dl L0 omega Nx Ny NPML)) i j + t := by
    rw [← t1]
    rfl
  rw [e]
  exact h3

/-- The side of a cell, or one where there is a single cell. -/
noncomputable def Spec.side (dl : ℝ) (N : ℕ) : ℝ := if 1 < N then dl else 1

/-- A bound on the rows of the matrix. -/
noncomputable def Spec.rowBound (omega dl L0 S : ℝ) (Nx Ny : ℕ) : ℝ := 1 / (MU_0 * L0) * (4 / Spec.side dl Nx ^ 2 + 4 / Spec.side dl Ny ^ 2) + omega ^ 2 * (EPSILON_0 * L0) * S

theorem side_pos {dl : ℝ} (hd : 0 < dl) (N : ℕ) : 0 < Spec.side dl N := by
  unfold Spec.side
  split_ifs
  · exact hd
  · exact one_pos

theorem exactD_row (w : Axis) (s : Dir) {dl L0 omega : ℝ} (hd : 0 < dl) (hL : 0 < L0) (ho : 0 < omega) (NPML : ℕ × ℕ) (i : Fin (Nx * Ny)) :
    ∑ k, ‖exactD w s dl L0 omega Nx Ny NPML i k‖ ≤ 2 / Spec.side dl (Spec.cells w Nx Ny) := by
  have hxy : 0 < Nx ∧ 0 < Ny := by
    have hi := i.2
    exact ⟨Nat.pos_of_ne_zero fun h => by simp [h] at hi, Nat.pos_of_ne_zero fun h => by simp [h] at hi⟩
  have hx : (0 : ℝ) < Nx := by exact_mod_cast hxy.1
  have hy : (0 : ℝ) < Ny := by exact_mod_cast hxy.2
  have hS : ∀ (d : Vec (Nx * Ny) ℂ) (B : Mat (Nx * Ny) ℂ) (k : Fin (Nx * Ny)), (spdiag d * B) i k = d i * B i k := fun d B k => by
    unfold spdiag
    rw [Matrix.diagonal_mul]
  have hlen : stepLen w (dL Nx Ny (0, Nx * dl) (0, Ny * dl)).1 (dL Nx Ny (0, Nx * dl) (0, Ny * dl)).2 Nx Ny = Spec.side dl (Spec.cells w Nx Ny) := by
    unfold stepLen Spec.side dL Spec.cells
    cases w <;> dsimp only <;> split_ifs
    · field_simp
      ring
    · rfl
    · field_simp
      ring
    · rfl
  have hpos := side_pos hd (Spec.cells w Nx Ny)
  have key : ∀ σ : ℂ, ‖σ‖ ≤ 1 → ∑ k, ‖σ * createDws w s (dL Nx Ny (0, Nx * dl) (0, Ny * dl)).1 (dL Nx Ny (0, Nx * dl) (0, Ny * dl)).2 Nx Ny i k‖ ≤ 2 / Spec.side dl (Spec.cells w Nx Ny) := fun σ hσ => by
    have e : ∀ k, ‖σ * createDws w s (dL Nx Ny (0, Nx * dl) (0, Ny * dl)).1 (dL Nx Ny (0, Nx * dl) (0, Ny * dl)).2 Nx Ny i k‖ ≤ 1 / Spec.side dl (Spec.cells w Nx Ny) * |pat w s Nx Ny i k| := fun k => by
      rw [createDws_pat, hlen, norm_mul, norm_mul, norm_div, norm_one, Complex.norm_real, Complex.norm_real, Real.norm_of_nonneg hpos.le, Real.norm_eq_abs]
      exact mul_le_of_le_one_left (by positivity) hσ
    refine (Finset.sum_le_sum fun k _ => e k).trans ?_
    rw [← Finset.mul_sum]
    have := mul_le_mul_of_nonneg_left (pat_abs_sum w s i) (one_div_pos.2 hpos).le
    refine this.trans (le_of_eq ?_)
    ring
  have rx : ((0 : ℝ), (Nx : ℝ) * dl).1 < ((0 : ℝ), (Nx : ℝ) * dl).2 := mul_pos hx hd
  have ry : ((0 : ℝ), (Ny : ℝ) * dl).1 < ((0 : ℝ), (Ny : ℝ) * dl).2 := mul_pos hy hd
  cases w <;> cases s
  · refine le_trans (le_of_eq (Finset.sum_congr rfl fun k _ => congrArg norm (hS _ _ k))) (key _ ?_)
    exact (C10_pml_factors _ rx L0 omega hL ho .f Nx NPML.1 _).2.2.2.1
  · refine le_trans (le_of_eq (Finset.sum_congr rfl fun k _ => congrArg norm (hS _ _ k))) (key _ ?_)
    exact (C10_pml_factors _ rx L0 omega hL ho .b Nx NPML.1 _).2.2.2.1
  · refine le_trans (le_of_eq (Finset.sum_congr rfl fun k _ => congrArg norm (hS _ _ k))) (key _ ?_)
    exact (C10_pml_factors _ ry L0 omega hL ho .f Ny NPML.2 _).2.2.2.1
  · refine le_trans (le_of_eq (Finset.sum_congr rfl fun k _ => congrArg norm (hS _ _ k))) (key _ ?_)
    exact (C10_pml_factors _ ry L0 omega hL ho .b Ny NPML.2 _).2.2.2.1

theorem weight_row {omega dl L0 S : ℝ} (ho : 0 < omega) (hd : 0 < dl) (hL : 0 < L0) (eps : Grid Nx Ny ℂ) (hS : ∀ i j, ‖eps i j‖ ≤ S) (NPML : ℕ × ℕ) (i : Fin (Nx * Ny)) :
    ∑ j, Spec.entryWeight omega dl eps NPML L0 i j ≤ Spec.rowBound omega dl L0 S Nx Ny := by
  have hM : 0 < MU_0 * L0 := mul_pos MU_0_pos hL
  have hE : 0 < EPSILON_0 * L0 := mul_pos EPSILON_0_pos hL
  have hb : ∀ w, ∑ j, ∑ k, ‖exactD w .f dl L0 omega Nx Ny NPML i k‖ * ‖exactD w .b dl L0 omega Nx Ny NPML k j‖ ≤ 4 / Spec.side dl (Spec.cells w Nx Ny) ^ 2 := fun w => by
    have hpos := side_pos hd (Spec.cells w Nx Ny)
    rw [Finset.sum_comm]
    have h1 : ∀ k, ∑ j, ‖exactD w .f dl L0 omega Nx Ny NPML i k‖ * ‖exactD w .b dl L0 omega Nx Ny NPML k j‖ ≤ ‖exactD w .f dl L0 omega Nx Ny NPML i k‖ * (2 / Spec.side dl (Spec.cells w Nx Ny)) := fun k => by
      rw [← Finset.mul_sum]
      exact mul_le_mul_of_nonneg_left (exactD_row w .b hd hL ho NPML k) (norm_nonneg _)
    refine (Finset.sum_le_sum fun k _ => h1 k).trans ?_
    rw [← Finset.sum_mul]
    refine (mul_le_mul_of_nonneg_right (exactD_row w .f hd hL ho NPML i) (by positivity)).trans (le_of_eq ?_)
    field_simp
    norm_num
  unfold Spec.entryWeight Spec.rowBound
  rw [Finset.sum_add_distrib, Finset.sum_add_distrib, ← Finset.mul_sum, ← Finset.mul_sum, Finset.sum_ite_eq, if_pos (Finset.mem_univ i), mul_add]
  have h1 := mul_le_mul_of_nonneg_left (hb .x) (one_div_pos.2 hM).le
  have h2 := mul_le_mul_of_nonneg_left (hb .y) (one_div_pos.2 hM).le
  have h3 : omega ^ 2 * (EPSILON_0 * L0) * ‖flatten eps i‖ ≤ omega ^ 2 * (EPSILON_0 * L0) * S := mul_le_mul_of_nonneg_left (hS _ _) (by positivity)
  exact add_le_add (add_le_add h1 h2) h3

/-- **C109, residuals.** On every vector the computed and the exact matrix agree up to 126 relative errors of a bound on the matrix. -/
theorem C109_residual (h : Spec.Library F u v θ) {omega dl L0 S : ℝ} (ho : 0 < omega) (hd : 0 < dl) (hL : 0 < L0) (eps : Grid Nx Ny ℂ) (hS0 : 0 ≤ S) (hS : ∀ i j, ‖eps i j‖ ≤ S) (NPML : ℕ × ℕ) (x : Vec (Nx * Ny) ℂ) :
    ‖F.construct_A omega dl eps NPML L0 *ᵥ x - (construct_A omega (0, Nx * dl) (0, Ny * dl) eps NPML .Ez L0).1 *ᵥ x‖ ≤ ((1 + θ) ^ 126 - 1) * Spec.rowBound omega dl L0 S Nx Ny * ‖x‖ := by
  have hθ := h.theta_nonneg
  have hg : 0 ≤ (1 + θ) ^ 126 - 1 := sub_nonneg.2 (one_le_pow₀ (by linarith))
  have hM : 0 < MU_0 * L0 := mul_pos MU_0_pos hL
  have hE : 0 < EPSILON_0 * L0 := mul_pos EPSILON_0_pos hL
  have hR : 0 ≤ Spec.rowBound omega dl L0 S Nx Ny := by
    have := side_pos hd Nx
    have := side_pos hd Ny
    unfold Spec.rowBound
    positivity
  refine (pi_norm_le_iff_of_nonneg (by positivity)).2 fun i => ?_
  rw [← Matrix.sub_mulVec, mulVec_eq_sum']
  refine (norm_sum_le _ _).trans ?_
  have h1 : ∀ j, ‖(F.construct_A omega dl eps NPML L0 - (construct_A omega (0, Nx * dl) (0, Ny * dl) eps NPML .Ez L0).1) i j * x j‖ ≤ ((1 + θ) ^ 126 - 1) * Spec.entryWeight omega dl eps NPML L0 i j * ‖x‖ := fun j => by
    rw [norm_mul, Matrix.sub_apply]
    exact mul_le_mul (C109_entries h omega dl L0 hL eps NPML i j) (norm_le_pi_norm x j) (norm_nonneg _) ((norm_nonneg _).trans (C109_entries h omega dl L0 hL eps NPML i j))
  refine (Finset.sum_le_sum fun j _ => h1 j).trans ?_
  rw [← Finset.sum_mul, ← Finset.mul_sum]
  exact mul_le_mul_of_nonneg_right (mul_le_mul_of_nonneg_left (weight_row ho hd hL eps hS NPML i) hg) (norm_nonneg _)

/-- **C109, fields.** If the exact matrix enlarges every vector by at least `σ` and the errors are below `σ`, the computed matrix is nonsingular and its field is the exact field up to the quotient of the
error and what is left of `σ`. -/
theorem C109_field (h : Spec.Library F u v θ) {omega dl L0 S : ℝ} (ho : 0 < omega) (hd : 0 < dl) (hL : 0 < L0) (eps : Grid Nx Ny ℂ) (hS0 : 0 ≤ S) (hS : ∀ i j, ‖eps i j‖ ≤ S) (NPML : ℕ × ℕ) (σ : ℝ)
    (hm : ∀ x, σ * ‖x‖ ≤ ‖(construct_A omega (0, Nx * dl) (0, Ny * dl) eps NPML .Ez L0).1 *ᵥ x‖) (hσ : ((1 + θ) ^ 126 - 1) * Spec.rowBound omega dl L0 S Nx Ny < σ) :
    (F.construct_A omega dl eps NPML L0).det ≠ 0 ∧ ∀ b e e' : Vec (Nx * Ny) ℂ, (construct_A omega (0, Nx * dl) (0, Ny * dl) eps NPML .Ez L0).1 *ᵥ e = b → F.construct_A omega dl eps NPML L0 *ᵥ e' = b →
      ‖e' - e‖ ≤ ((1 + θ) ^ 126 - 1) * Spec.rowBound omega dl L0 S Nx Ny / (σ - ((1 + θ) ^ 126 - 1) * Spec.rowBound omega dl L0 S Nx Ny) * ‖e‖ := by
  set γ := ((1 + θ) ^ 126 - 1) * Spec.rowBound omega dl L0 S Nx Ny with hγ
  set A := (construct_A omega (0, Nx * dl) (0, Ny * dl) eps NPML .Ez L0).1 with hA
  set A' := F.construct_A omega dl eps NPML L0 with hA'
  have hr : ∀ x, ‖A' *ᵥ x - A *ᵥ x‖ ≤ γ * ‖x‖ := fun x => C109_residual h ho hd hL eps hS0 hS NPML x
  constructor
  · intro hdet
    obtain ⟨x, hx, h0⟩ := Matrix.exists_mulVec_eq_zero_iff.2 hdet
    have h1 := hr x
    rw [h0, zero_sub, norm_neg] at h1
    have h2 := hm x
    have h3 : 0 < ‖x‖ := norm_pos_iff.2 hx
    have h4 := mul_lt_mul_of_pos_right hσ h3
    linarith
  · intro b e e' he he'
    have h1 := hm (e' - e)
    have e1 : A *ᵥ (e' - e) = -(A' *ᵥ e' - A *ᵥ e') := by
      rw [Matrix.mulVec_sub, he, he']
      abel
    rw [e1, norm_neg] at h1
    have h2 := hr e'
    have h3 := norm_add_le (e' - e) e
    rw [sub_add_cancel] at h3
    have hγ0 : 0 ≤ γ := by
      by_contra hc
      have h5 := hr (fun _ => 0)
      by_cases hn : Nonempty (Fin (Nx * Ny))
      · have h6 := hr (fun _ => 1)
        have h7 : 0 < ‖(fun _ => 1 : Vec (Nx * Ny) ℂ)‖ := norm_pos_iff.2 fun hz => one_ne_zero (congrFun hz hn.some)
        have h8 := norm_nonneg (A' *ᵥ (fun _ => 1) - A *ᵥ (fun _ => 1))
        have h9 := mul_neg_of_neg_of_pos (not_le.1 hc) h7
        linarith
      · exact hc (by
          have hθ := h.theta_nonneg
          have hg : 0 ≤ (1 + θ) ^ 126 - 1 := sub_nonneg.2 (one_le_pow₀ (by linarith))
          have hM : 0 < MU_0 * L0 := mul_pos MU_0_pos hL
          have hE : 0 < EPSILON_0 * L0 := mul_pos EPSILON_0_pos hL
          have := side_pos hd Nx
          have := side_pos hd Ny
          rw [hγ]
          unfold Spec.rowBound
          positivity)
    have h4 := mul_le_mul_of_nonneg_left h3 hγ0
    rw [div_mul_eq_mul_div, le_div_iff₀ (by linarith)]
    linarith

/-- Double precision with a correctly rounded reciprocal and fourth power. -/
noncomputable def Spec.doubleLib : FlLib where
  toFl := Spec.double
  cinv := fun z => Spec.double.rndC z⁻¹
  pow4 := fun x => Spec.rn 53 (x ^ 4)

/-- **C109, double precision.** Double precision is such an arithmetic with `θ = 2⁻⁵⁰`, and 126 of these errors are less than 1.2e-13. -/
theorem C109_double : Spec.Library Spec.doubleLib ((1 / 2) ^ 53) ((1 / 2) ^ 53) ((1 / 2) ^ 50) ∧ (1 + (1 / 2 : ℝ) ^ 50) ^ 126 - 1 ≤ 1.2e-13 := by
  have hr : Spec.Rounding Spec.doubleLib.toFl ((1 / 2) ^ 53) ((1 / 2) ^ 53) := C107_double
  refine ⟨⟨hr, by norm_num, by norm_num, ?_, fun z _ => ?_, fun x => ?_⟩, ?_⟩
  rotate_right
  · have h1 : (1 + (1 / 2 : ℝ) ^ 50) ^ 14 ≤ 1 + 1.244e-14 := by norm_num
    have h2 : ((1 + (1 / 2 : ℝ) ^ 50) ^ 14) ^ 9 ≤ (1 + 1.244e-14) ^ 9 := pow_le_pow_left₀ (by positivity) h1 9
    rw [← pow_mul] at h2
    have h3 : (1 + 1.244e-14 : ℝ) ^ 9 ≤ 1 + 1.2e-13 := by norm_num
    have h4 : (1 + (1 / 2 : ℝ) ^ 50) ^ 126 ≤ 1 + 1.2e-13 := h2.trans h3
    linarith
  · show Spec.double.rndC 1⁻¹ = 1
    rw [inv_one]
    exact Complex.ext hr.one hr.rnd_zero
  · show ‖Spec.double.rndC z⁻¹ - z⁻¹‖ ≤ _
    generalize z⁻¹ = y
    have h1 := hr.err y.re
    have h2 := hr.err y.im
    have h3 := Complex.norm_le_abs_re_add_abs_im (Spec.double.rndC y - y)
    have e1 : (Spec.double.rndC y - y).re = Spec.double.rnd y.re - y.re := rfl
    have e2 : (Spec.double.rndC y - y).im = Spec.double.rnd y.im - y.im := rfl
    rw [e1, e2] at h3
    have h4 := Complex.abs_re_le_norm y
    have h5 := Complex.abs_im_le_norm y
    have h1' : |Spec.double.rnd y.re - y.re| ≤ (1 / 2) ^ 53 * |y.re| := h1
    have h2' : |Spec.double.rnd y.im - y.im| ≤ (1 / 2) ^ 53 * |y.im| := h2
    have g1 := mul_le_mul_of_nonneg_left h4 (by positivity : (0 : ℝ) ≤ (1 / 2) ^ 53)
    have g2 := mul_le_mul_of_nonneg_left h5 (by positivity : (0 : ℝ) ≤ (1 / 2) ^ 53)
    have g3 : (1 / 2 : ℝ) ^ 50 * ‖y‖ = 8 * ((1 / 2) ^ 53 * ‖y‖) := by ring
    have g4 : 0 ≤ (1 / 2 : ℝ) ^ 53 * ‖y‖ := mul_nonneg (pow_nonneg (by norm_num) 53) (norm_nonneg y)
    linarith
  · show Spec.Near _ 1 (Spec.rn 53 (x ^ 4)) (x ^ 4)
    generalize x ^ 4 = y
    by_cases hy : y = 0
    · refine ⟨1, by rw [hy, rn_zero]; ring, by norm_num, by norm_num⟩
    · have h1 := rn_error 53 y
      have h2 : |Spec.rn 53 y / y - 1| ≤ (1 / 2) ^ 53 := by
        have e : Spec.rn 53 y / y - 1 = (Spec.rn 53 y - y) / y := by field_simp
        rw [e, abs_div, div_le_iff₀ (abs_pos.2 hy)]
        exact h1
      have h3 := abs_le.1 h2
      refine ⟨Spec.rn 53 y / y, by field_simp, ?_, ?_⟩
      · refine le_trans ?_ (show 1 - (1 / 2 : ℝ) ^ 53 ≤ _ by linarith)
        norm_num
      · refine le_trans (show _ ≤ 1 + (1 / 2 : ℝ) ^ 53 by linarith) ?_
        norm_num

theorem margin_exists {n : ℕ} (A : Mat n ℂ) (hA : A.det ≠ 0) : ∃ σ, 0 < σ ∧ ∀ x : Vec n ℂ, σ * ‖x‖ ≤ ‖A *ᵥ x‖ := by
  set C := ∑ i, ∑ j, ‖A⁻¹ i j‖ with hC
  have hC0 : 0 ≤ C := Finset.sum_nonneg fun i _ => Finset.sum_nonneg fun j _ => norm_nonneg _
  refine ⟨1 / (C + 1), by positivity, fun x => ?_⟩
  have h1 : x = A⁻¹ *ᵥ (A *ᵥ x) := by
    rw [Matrix.mulVec_mulVec, Matrix.nonsing_inv_mul A (isUnit_iff_ne_zero.2 hA), Matrix.one_mulVec]
  have h2 : ‖x‖ ≤ C * ‖A *ᵥ x‖ := by
    refine (pi_norm_le_iff_of_nonneg (by positivity)).2 fun i => ?_
    have h3 : x i = ∑ j, A⁻¹ i j * (A *ᵥ x) j := (congrFun h1 i).trans (by rw [mulVec_eq_sum'])
    rw [h3]
    refine (norm_sum_le _ _).trans ?_
    have h4 : ∑ j, ‖A⁻¹ i j * (A *ᵥ x) j‖ ≤ (∑ j, ‖A⁻¹ i j‖) * ‖A *ᵥ x‖ := by
      rw [Finset.sum_mul]
      refine Finset.sum_le_sum fun j _ => ?_
      rw [norm_mul]
      exact mul_le_mul_of_nonneg_left (norm_le_pi_norm _ j) (norm_nonneg _)
    refine h4.trans (mul_le_mul_of_nonneg_right ?_ (norm_nonneg _))
    exact Finset.single_le_sum (f := fun i => ∑ j, ‖A⁻¹ i j‖) (fun i _ => Finset.sum_nonneg fun j _ => norm_nonneg _) (Finset.mem_univ i)
  rw [div_mul_eq_mul_div, one_mul, div_le_iff₀ (by positivity)]
  have h5 := norm_nonneg (A *ᵥ x)
  linarith

/-- **C109, devices.** For every Ez simulation with a nonsingular matrix the field is reached within every tolerance once the precision is high enough: the computed matrix is nonsingular and its
solution is within the tolerance of the field that `solve_fields` returns in exact arithmetic. -/
theorem C109_precision (s : Sim Nx Ny) (hv : s.Valid) (hp : s.pol = .Ez) (hd : 0 < s.dl) (hdet : s.A.det ≠ 0) (env : Env) (he : env.Exact) (avg : Bool) :
    ∃ P Q E, (s.solve_fields env false avg).1 = .ok (P, Q, E) ∧ ∀ δ, 0 < δ → ∃ θ0, 0 < θ0 ∧ ∀ (F : FlLib) (u v θ : ℝ), Spec.Library F u v θ → θ ≤ θ0 →
      (F.construct_A s.omega s.dl s.eps_r s.NPML s.L0).det ≠ 0 ∧ ∀ e' : Vec (Nx * Ny) ℂ, F.construct_A s.omega s.dl s.eps_r s.NPML s.L0 *ᵥ e' = s.rhs → ∀ i j, ‖unflatten e' i j - E i j‖ ≤ δ := by
  obtain ⟨P, Q, r1⟩ := solve_fields_third env s avg
  refine ⟨P, Q, _, r1, fun δ hδ => ?_⟩
  have hA : s.A = (construct_A s.omega (0, Nx * s.dl) (0, Ny * s.dl) s.eps_r s.NPML .Ez s.L0).1 := by
    rw [hv.A_eq, hp, hv.xr, hv.yr]
  obtain ⟨σ, hσ, hm⟩ := margin_exists s.A hdet
  set S := ∑ i, ∑ j, ‖s.eps_r i j‖ with hSd
  have hS0 : 0 ≤ S := Finset.sum_nonneg fun i _ => Finset.sum_nonneg fun j _ => norm_nonneg _
  have hS : ∀ i j, ‖s.eps_r i j‖ ≤ S := fun i j =>
    (Finset.single_le_sum (f := fun j => ‖s.eps_r i j‖) (fun j _ => norm_nonneg _) (Finset.mem_univ j)).trans
      (Finset.single_le_sum (f := fun i => ∑ j, ‖s.eps_r i j‖) (fun i _ => Finset.sum_nonneg fun j _ => norm_nonneg _) (Finset.mem_univ i))
  set e := solver_direct env s.A s.rhs with hed
  have hAe : s.A *ᵥ e = s.rhs := solver_direct_spec he (Or.inl hdet)
  set R := Spec.rowBound s.omega s.dl s.L0 S Nx Ny with hRd
  have hlim : Filter.Tendsto (fun θ : ℝ => ((1 + θ) ^ 126 - 1) * R) (nhds 0) (nhds 0) := by
    have hc : Continuous fun θ : ℝ => ((1 + θ) ^ 126 - 1) * R := by fun_prop
    have := hc.tendsto 0
    simpa using this
  have hpos : 0 < min (σ / 2) (δ * σ / (2 * (‖e‖ + 1))) := lt_min (by linarith) (by positivity)
  obtain ⟨r, hr, hball⟩ := Metric.eventually_nhds_iff.1 (hlim.eventually (gt_mem_nhds hpos))
  refine ⟨r / 2, by linarith, fun F u v θ hF hθ => ?_⟩
  have hθ0 := hF.theta_nonneg
  have h1 : ((1 + θ) ^ 126 - 1) * R < min (σ / 2) (δ * σ / (2 * (‖e‖ + 1))) := hball (by rw [Real.dist_eq, sub_zero, abs_of_nonneg hθ0]; linarith)
  have h2 := lt_of_lt_of_le h1 (min_le_left _ _)
  have h3 := lt_of_lt_of_le h1 (min_le_right _ _)
  obtain ⟨f1, f2⟩ := C109_field hF hv.omega_pos hd hv.L0_pos s.eps_r hS0 hS s.NPML σ (by rw [← hA]; exact hm) (by linarith)
  refine ⟨f1, fun e' he' i j => ?_⟩
  have h4 := f2 s.rhs e e' (by rw [← hA]; exact hAe) he'
  have h5 : ‖unflatten e' i j - unflatten e i j‖ ≤ ‖e' - e‖ := norm_le_pi_norm (e' - e) _
  refine h5.trans (h4.trans ?_)
  rw [div_mul_eq_mul_div, div_le_iff₀ (by linarith)]
  rw [lt_div_iff₀ (by positivity)] at h3
  have h6 : δ * (σ / 2) ≤ δ * (σ - ((1 + θ) ^ 126 - 1) * R) := mul_le_mul_of_nonneg_left (by linarith) hδ.le
  have hg : 0 ≤ ((1 + θ) ^ 126 - 1) * R := by
    have g1 : 0 ≤ (1 + θ) ^ 126 - 1 := sub_nonneg.2 (one_le_pow₀ (by linarith))
    have hM : 0 < MU_0 * s.L0 := mul_pos MU_0_pos hv.L0_pos
    have hE : 0 < EPSILON_0 * s.L0 := mul_pos EPSILON_0_pos hv.L0_pos
    have := side_pos hd Nx
    have := side_pos hd Ny
    rw [hRd]
    unfold Spec.rowBound
    positivity
  have h7 : ((1 + θ) ^ 126 - 1) * R * ‖e‖ ≤ ((1 + θ) ^ 126 - 1) * R * (‖e‖ + 1) := mul_le_mul_of_nonneg_left (by linarith) hg
  linarith

/-! ## Examples -/

/-- A ring of glass on 60 by 40 cells in double precision: the matrix is symmetric and real. -/
example (eps : Grid 60 40 ℂ) (he : ∀ i j, eps i j = 1 ∨ eps i j = 2.25) :
    (Spec.doubleLib.construct_A 1.2e15 0.05 eps (0, 0) 1e-6)ᵀ = Spec.doubleLib.construct_A 1.2e15 0.05 eps (0, 0) 1e-6 ∧ ∀ i j, (Spec.doubleLib.construct_A 1.2e15 0.05 eps (0, 0) 1e-6 i j).im = 0 :=
  ⟨C109_symmetric C109_double.1.rounding C109_double.1.cinv_one _ _ _ _, fun i j => C109_real C109_double.1.rounding C109_double.1.cinv_one _ _ _ _ (fun i j => by
    rcases he i j with h | h <;> rw [h]
    · rfl
    · norm_num) i j⟩

/-- With layers on both axes: no difference of a constant in double precision. -/
example (c : ℂ) (i : Fin (60 * 40)) : Spec.doubleLib.mulVec (Spec.doubleLib.deriv .x .f 0.05 1e-6 1.2e15 60 40 (10, 10)) (fun _ => c) i = 0 :=
  C109_constants C109_double.1.rounding .x .f _ _ _ _ (by norm_num [Spec.cells]) c i

/-- A metal block in double precision, 19 cells per wavelength: the matrix is nonsingular and the field accurate to eleven digits. -/
example : (Spec.doubleLib.construct_A 1 1e8 (fun (_ : Fin 40) (_ : Fin 30) => (-10 : ℂ)) (0, 0) 1).det ≠ 0 ∧ ∀ b e e' : Vec (40 * 30) ℂ, (anysim 1 1e8 (0, 0) .Ez (fun (_ : Fin 40) (_ : Fin 30) => -10) 0).A *ᵥ e = b →
    Spec.doubleLib.construct_A 1 1e8 (fun (_ : Fin 40) (_ : Fin 30) => (-10 : ℂ)) (0, 0) 1 *ᵥ e' = b → ‖e' - e‖ ≤ 2e-12 * ‖e‖ := by
  have hv := anysim_valid (Nx := 40) (Ny := 30) 1 1e8 one_pos (0, 0) .Ez (fun _ _ => -10) 0
  have hA : (anysim 1 1e8 (0, 0) .Ez (fun (_ : Fin 40) (_ : Fin 30) => -10) 0).A = (construct_A 1 (0, (40 : ℕ) * 1e8) (0, (30 : ℕ) * 1e8) (fun (_ : Fin 40) (_ : Fin 30) => (-10 : ℂ)) (0, 0) .Ez 1).1 := by
    rw [hv.A_eq, hv.xr, hv.yr]
    rfl
  have hm := metal_margin (anysim 1 1e8 (0, 0) .Ez (fun (_ : Fin 40) (_ : Fin 30) => -10) 0) hv rfl (by norm_num [anysim]) (by norm_num) (by norm_num) 10 (by norm_num)
    (fun i j => ⟨⟨Or.inl rfl, Or.inl rfl⟩, ⟨Or.inl rfl, Or.inl rfl⟩, by simp [anysim], fun _ p _ => by simp [anysim]⟩)
  rw [hA] at hm ⊢
  have hR : Spec.rowBound 1 1e8 1 10 40 30 ≤ 7.3e-10 := by
    unfold Spec.rowBound Spec.side MU_0 EPSILON_0
    norm_num
  have hR0 : 0 ≤ Spec.rowBound 1 1e8 1 10 40 30 := by
    unfold Spec.rowBound Spec.side MU_0 EPSILON_0
    norm_num
  have hg : ((1 + (1 / 2 : ℝ) ^ 50) ^ 126 - 1) * Spec.rowBound 1 1e8 1 10 40 30 ≤ 1.2e-13 * 7.3e-10 := mul_le_mul C109_double.2 hR hR0 (by norm_num)
  have hσ : (8.8e-11 : ℝ) ≤ 1 ^ 2 * (EPSILON_0 * 1) * 10 := by
    unfold EPSILON_0
    norm_num
  have hm' : ∀ x, (8.8e-11 : ℝ) * ‖x‖ ≤ ‖(construct_A 1 (0, (40 : ℕ) * 1e8) (0, (30 : ℕ) * 1e8) (fun (_ : Fin 40) (_ : Fin 30) => (-10 : ℂ)) (0, 0) .Ez 1).1 *ᵥ x‖ := fun x =>
    (mul_le_mul_of_nonneg_right hσ (norm_nonneg x)).trans (hm x)
  obtain ⟨f1, f2⟩ := C109_field C109_double.1 one_pos (by norm_num) one_pos (fun (_ : Fin 40) (_ : Fin 30) => (-10 : ℂ)) (by norm_num) (fun _ _ => by simp) (0, 0) 8.8e-11 hm' (lt_of_le_of_lt hg (by norm_num))
  refine ⟨f1, fun b e e' h1 h2 => (f2 b e e' h1 h2).trans (mul_le_mul_of_nonneg_right ?_ (norm_nonneg e))⟩
  have h3 : (8.7e-11 : ℝ) ≤ 8.8e-11 - ((1 + (1 / 2 : ℝ) ^ 50) ^ 126 - 1) * Spec.rowBound 1 1e8 1 10 40 30 := by
    refine le_trans ?_ (sub_le_sub_left hg _)
    norm_num
  rw [div_le_iff₀ (lt_of_lt_of_le (by norm_num) h3)]
  refine hg.trans (le_trans ?_ (mul_le_mul_of_nonneg_left h3 (by norm_num)))
  norm_num

/-- Free space with layers, any frequency and source. -/
example (omega : ℝ) (ho : 0 < omega) (src : Grid 100 80 ℂ) (env : Env) (he : env.Exact) :
    ∃ P Q E, ((anysim omega (1 / 20) (10, 10) .Ez (fun _ _ => 1) src).solve_fields env false false).1 = .ok (P, Q, E) ∧ ∀ δ, 0 < δ → ∃ θ0, 0 < θ0 ∧ ∀ (F : FlLib) (u v θ : ℝ), Spec.Library F u v θ → θ ≤ θ0 →
      (F.construct_A omega (1 / 20) (fun (_ : Fin 100) (_ : Fin 80) => 1) (10, 10) 1).det ≠ 0 ∧ ∀ e' : Vec (100 * 80) ℂ,
        F.construct_A omega (1 / 20) (fun (_ : Fin 100) (_ : Fin 80) => 1) (10, 10) 1 *ᵥ e' = (anysim omega (1 / 20) (10, 10) .Ez (fun _ _ => 1) src).rhs → ∀ i j, ‖unflatten e' i j - E i j‖ ≤ δ :=
  C109_precision (anysim omega (1 / 20) (10, 10) .Ez (fun _ _ => 1) src) (anysim_valid _ _ ho _ _ _ _) rfl (by norm_num [anysim])
    (C97_uniform _ (anysim_valid _ _ ho _ _ _ _) (by norm_num [anysim]) (by norm_num) (by norm_num) (by norm_num [anysim]) (by norm_num [anysim]) 1 (fun _ _ => rfl) one_ne_zero (by simp)).1 env he false

end Angler
