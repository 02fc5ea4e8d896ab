import Verif.Lemmas.Ring
import Mathlib.Algebra.Polynomial.Roots
import Mathlib.LinearAlgebra.Matrix.Polynomial

/-! # The determinant of the system as a polynomial of the frequency -/

namespace Angler

open Matrix Polynomial

variable {Nx Ny n : ℕ}

/-- The strength of the layer at a cell, independent of the frequency. -/
noncomputable def layerRate (wr : ℝ × ℝ) (L0 : ℝ) (d : Dir) (N P : ℕ) (i : Fin N) : ℝ := -(create_sfactor wr L0 d 1 N P i).im

theorem Sfac_freq (l dw L0 omega : ℝ) (ho : 0 < omega) : Sfac l dw omega L0 = ((omega : ℂ) - Complex.I * ((-(Sfac l dw 1 L0).im : ℝ) : ℂ)) / (omega : ℂ) := by
  have ho' : (omega : ℂ) ≠ 0 := by exact_mod_cast ho.ne'
  rw [eq_div_iff ho', Sfac_eq, Sfac_eq]
  apply Complex.ext
  · simp only [Complex.mul_re, Complex.ofReal_re, Complex.ofReal_im, Complex.sub_re, Complex.I_re, Complex.I_im]
    ring
  · simp only [Complex.mul_im, Complex.ofReal_re, Complex.ofReal_im, Complex.sub_im, Complex.I_re, Complex.I_im]
    field_simp
    ring

theorem sfactor_freq (wr : ℝ × ℝ) (L0 omega : ℝ) (ho : 0 < omega) (d : Dir) (N P : ℕ) (i : Fin N) :
    create_sfactor wr L0 d omega N P i = ((omega : ℂ) - Complex.I * (layerRate wr L0 d N P i : ℂ)) / (omega : ℂ) := by
  have ho' : (omega : ℂ) ≠ 0 := by exact_mod_cast ho.ne'
  have h1 : (1 : ℂ) = ((omega : ℂ) - Complex.I * ((-(1 : ℂ).im : ℝ) : ℂ)) / (omega : ℂ) := by
    rw [Complex.one_im, neg_zero, Complex.ofReal_zero, mul_zero, sub_zero, div_self ho']
  unfold layerRate
  by_cases h : P < 1
  · simp only [create_sfactor, if_pos h]
    exact h1
  · cases d <;> simp only [create_sfactor, if_neg h] <;> split_ifs <;>
      first
        | exact h1
        | exact Sfac_freq _ _ _ _ ho

/-- `ω − iτ` as a polynomial in `ω`. -/
noncomputable def linPoly (t : ℝ) : ℂ[X] := X - C (Complex.I * (t : ℂ))

theorem linPoly_eval (t omega : ℝ) : (linPoly t).eval (omega : ℂ) = (omega : ℂ) - Complex.I * (t : ℂ) := by simp [linPoly]

theorem linPoly_ne (t omega : ℝ) (ho : 0 < omega) : (omega : ℂ) - Complex.I * (t : ℂ) ≠ 0 := by
  intro h
  have := congrArg Complex.re h
  simp at this
  exact ho.ne' this

theorem linPoly_degree (t : ℝ) : (linPoly t).natDegree ≤ 1 := natDegree_X_sub_C_le _

/-- The stencil with the denominators of one cell cleared. -/
noncomputable def cellPoly (α β γ δ m : ℂ) (a0 a1 a2 b0 b1 b2 : ℝ) : ℂ[X] :=
  C α * X ^ 2 * (linPoly a1 * (linPoly b0 * linPoly b1 * linPoly b2)) - C β * X ^ 2 * (linPoly a2 * (linPoly b0 * linPoly b1 * linPoly b2))
    + (C γ * X ^ 2 * (linPoly b1 * (linPoly a0 * linPoly a1 * linPoly a2)) - C δ * X ^ 2 * (linPoly b2 * (linPoly a0 * linPoly a1 * linPoly a2)))
    + C m * X ^ 2 * ((linPoly a0 * linPoly a1 * linPoly a2) * (linPoly b0 * linPoly b1 * linPoly b2))

theorem cellPoly_degree (α β γ δ m : ℂ) (a0 a1 a2 b0 b1 b2 : ℝ) : (cellPoly α β γ δ m a0 a1 a2 b0 b1 b2).natDegree ≤ 8 := by
  have hmul : ∀ (p q : ℂ[X]) (k l : ℕ), p.natDegree ≤ k → q.natDegree ≤ l → (p * q).natDegree ≤ k + l := fun p q k l hp hq => natDegree_mul_le.trans (add_le_add hp hq)
  have h3 : ∀ a b c : ℝ, (linPoly a * linPoly b * linPoly c).natDegree ≤ 3 := fun a b c =>
    hmul _ _ 2 1 (hmul _ _ 1 1 (linPoly_degree _) (linPoly_degree _)) (linPoly_degree _)
  have h2 : ∀ c : ℂ, (C c * X ^ 2 : ℂ[X]).natDegree ≤ 2 := fun c => natDegree_C_mul_X_pow_le _ _
  have h4 : ∀ (c : ℂ) (a b d e : ℝ), (C c * X ^ 2 * (linPoly a * (linPoly b * linPoly d * linPoly e))).natDegree ≤ 8 := fun c a b d e =>
    (hmul _ _ 2 4 (h2 c) (hmul _ _ 1 3 (linPoly_degree _) (h3 _ _ _))).trans (by norm_num)
  unfold cellPoly
  refine natDegree_add_le_of_degree_le (natDegree_add_le_of_degree_le (natDegree_sub_le_of_le (h4 _ _ _ _ _) (h4 _ _ _ _ _)) (natDegree_sub_le_of_le (h4 _ _ _ _ _) (h4 _ _ _ _ _))) ?_
  exact hmul _ _ 2 6 (h2 m) (hmul _ _ 3 3 (h3 _ _ _) (h3 _ _ _))

theorem cellPoly_eval (α β γ δ m : ℂ) (a0 a1 a2 b0 b1 b2 omega : ℝ) (ho : 0 < omega) (A0 A1 A2 B0 B1 B2 : ℂ)
    (hA0 : A0 = ((omega : ℂ) - Complex.I * a0) / omega) (hA1 : A1 = ((omega : ℂ) - Complex.I * a1) / omega) (hA2 : A2 = ((omega : ℂ) - Complex.I * a2) / omega)
    (hB0 : B0 = ((omega : ℂ) - Complex.I * b0) / omega) (hB1 : B1 = ((omega : ℂ) - Complex.I * b1) / omega) (hB2 : B2 = ((omega : ℂ) - Complex.I * b2) / omega) :
    (cellPoly α β γ δ m a0 a1 a2 b0 b1 b2).eval (omega : ℂ) =
      (((omega : ℂ) - Complex.I * a0) * ((omega : ℂ) - Complex.I * a1) * ((omega : ℂ) - Complex.I * a2) * (((omega : ℂ) - Complex.I * b0) * ((omega : ℂ) - Complex.I * b1) * ((omega : ℂ) - Complex.I * b2))) *
      ((α / A2 - β / A1) / A0 + (γ / B2 - δ / B1) / B0 + (omega : ℂ) ^ 2 * m) := by
  have ho' : (omega : ℂ) ≠ 0 := by exact_mod_cast ho.ne'
  have n0 := linPoly_ne a0 omega ho
  have n1 := linPoly_ne a1 omega ho
  have n2 := linPoly_ne a2 omega ho
  have m0 := linPoly_ne b0 omega ho
  have m1 := linPoly_ne b1 omega ho
  have m2 := linPoly_ne b2 omega ho
  simp only [cellPoly, eval_add, eval_sub, eval_mul, eval_C, eval_pow, eval_X, linPoly_eval]
  rw [hA0, hA1, hA2, hB0, hB1, hB2]
  generalize (omega : ℂ) - Complex.I * a0 = x0 at *
  generalize (omega : ℂ) - Complex.I * a1 = x1 at *
  generalize (omega : ℂ) - Complex.I * a2 = x2 at *
  generalize (omega : ℂ) - Complex.I * b0 = y0 at *
  generalize (omega : ℂ) - Complex.I * b1 = y1 at *
  generalize (omega : ℂ) - Complex.I * b2 = y2 at *
  field_simp

/-- A determinant whose entries are, up to a nonzero factor for each row, polynomials of degree at most `d`, vanishes at most `d·n` times or always. -/
theorem det_roots (d : ℕ) (A : ℝ → Mat n ℂ) (q : ℝ → Fin n → ℂ) (hq : ∀ omega : ℝ, 0 < omega → ∀ k, q omega k ≠ 0) (P : Fin n → Fin n → ℂ[X]) (hP : ∀ k l, (P k l).natDegree ≤ d)
    (h : ∀ omega : ℝ, 0 < omega → ∀ k l, (P k l).eval (omega : ℂ) = q omega k * A omega k l) (w : ℝ) (hw : 0 < w) (hA : (A w).det ≠ 0) :
    ∃ B : Finset ℝ, B.card ≤ d * n ∧ ∀ omega, 0 < omega → omega ∉ B → (A omega).det ≠ 0 := by
  classical
  let PM : Matrix (Fin n) (Fin n) ℂ[X] := fun k l => P k l
  have hev : ∀ omega : ℝ, 0 < omega → PM.det.eval (omega : ℂ) = (∏ k, q omega k) * (A omega).det := by
    intro omega ho
    have h1 : PM.det.eval (omega : ℂ) = ((Polynomial.evalRingHom (omega : ℂ)).mapMatrix PM).det := by
      rw [← RingHom.map_det]
      rfl
    have h2 : (Polynomial.evalRingHom (omega : ℂ)).mapMatrix PM = Matrix.of fun k l => q omega k * A omega k l := by
      ext k l
      exact h omega ho k l
    rw [h1, h2, Matrix.det_mul_column]
  have hne : PM.det ≠ 0 := by
    intro h0
    have h1 := hev w hw
    rw [h0, eval_zero] at h1
    exact mul_ne_zero (Finset.prod_ne_zero_iff.2 fun k _ => hq w hw k) hA h1.symm
  have hdeg : PM.det.natDegree ≤ d * n := by
    rw [Matrix.det_apply]
    refine natDegree_sum_le_of_forall_le _ _ fun σ _ => ?_
    refine (natDegree_smul_le _ _).trans ((natDegree_prod_le _ _).trans ((Finset.sum_le_sum fun k _ => hP (σ k) k).trans ?_))
    rw [Finset.sum_const, Finset.card_univ, Fintype.card_fin, smul_eq_mul, mul_comm]
  refine ⟨PM.det.roots.toFinset.image Complex.re, (Finset.card_image_le.trans (Multiset.toFinset_card_le _)).trans ((card_roots' _).trans hdeg), fun omega ho hB h0 => hB ?_⟩
  refine Finset.mem_image.2 ⟨(omega : ℂ), Multiset.mem_toFinset.2 ((mem_roots hne).2 ?_), Complex.ofReal_re _⟩
  rw [IsRoot.def, hev omega ho, h0, mul_zero]

end Angler
