import Verif.Model.RoundedMatrix
import Verif.Props.Rounded
import Verif.Lemmas.Linalg
import Verif.Lemmas.Pml
import Mathlib.Analysis.SpecialFunctions.Pow.Real

/-! # Rounding errors of products, quotients and short sums -/

namespace Angler

/-- `x'` equals `x` up to `k` relative errors of size `θ`. -/
def Spec.Near (θ : ℝ) (k : ℕ) (x' x : ℝ) : Prop := ∃ r : ℝ, x' = r * x ∧ ((1 + θ) ^ k)⁻¹ ≤ r ∧ r ≤ (1 + θ) ^ k

/-- `z'` is within `k` relative errors of size `θ` of the complex number `z`. -/
def Spec.CNear (θ : ℝ) (k : ℕ) (z' z : ℂ) : Prop := ‖z' - z‖ ≤ ((1 + θ) ^ k - 1) * ‖z‖

namespace Spec.Near

variable {θ : ℝ} {k l : ℕ} {x x' y y' : ℝ}

theorem refl (θ x : ℝ) : Spec.Near θ 0 x x := ⟨1, by ring, by simp, by simp⟩

theorem pow_pos' (hθ : 0 ≤ θ) (k : ℕ) : 0 < (1 + θ) ^ k := by positivity

theorem mono (hθ : 0 ≤ θ) (hkl : k ≤ l) (h : Spec.Near θ k x' x) : Spec.Near θ l x' x := by
  obtain ⟨r, h1, h2, h3⟩ := h
  have hp : (1 + θ) ^ k ≤ (1 + θ) ^ l := pow_le_pow_right₀ (by linarith) hkl
  exact ⟨r, h1, (inv_anti₀ (pow_pos' hθ k) hp).trans h2, h3.trans hp⟩

theorem mul (hθ : 0 ≤ θ) (h : Spec.Near θ k x' x) (h' : Spec.Near θ l y' y) : Spec.Near θ (k + l) (x' * y') (x * y) := by
  obtain ⟨r, h1, h2, h3⟩ := h
  obtain ⟨q, g1, g2, g3⟩ := h'
  have hk := pow_pos' hθ k
  have hl := pow_pos' hθ l
  have hr : 0 < r := lt_of_lt_of_le (inv_pos.2 hk) h2
  have hq : 0 < q := lt_of_lt_of_le (inv_pos.2 hl) g2
  refine ⟨r * q, by rw [h1, g1]; ring, ?_, ?_⟩
  · rw [pow_add, mul_inv]
    exact mul_le_mul h2 g2 (inv_pos.2 hl).le hr.le
  · rw [pow_add]
    exact mul_le_mul h3 g3 hq.le hk.le

theorem inv (hθ : 0 ≤ θ) (h : Spec.Near θ k x' x) : Spec.Near θ k x'⁻¹ x⁻¹ := by
  obtain ⟨r, h1, h2, h3⟩ := h
  have hk := pow_pos' hθ k
  have hr : 0 < r := lt_of_lt_of_le (inv_pos.2 hk) h2
  refine ⟨r⁻¹, by rw [h1, mul_inv], inv_anti₀ hr h3, ?_⟩
  rw [inv_le_comm₀ hr hk]
  exact h2

theorem div (hθ : 0 ≤ θ) (h : Spec.Near θ k x' x) (h' : Spec.Near θ l y' y) : Spec.Near θ (k + l) (x' / y') (x / y) := by
  rw [div_eq_mul_inv, div_eq_mul_inv]
  exact h.mul hθ (h'.inv hθ)

theorem pow (hθ : 0 ≤ θ) (h : Spec.Near θ k x' x) : ∀ n : ℕ, Spec.Near θ (k * n) (x' ^ n) (x ^ n)
  | 0 => by simpa using refl θ 1
  | n + 1 => by
    rw [pow_succ, pow_succ, Nat.mul_succ]
    exact (pow hθ h n).mul hθ h

theorem sqrt (hθ : 0 ≤ θ) (h : Spec.Near θ k x' x) : Spec.Near θ k (Real.sqrt x') (Real.sqrt x) := by
  obtain ⟨r, h1, h2, h3⟩ := h
  have hk := pow_pos' hθ k
  have hk1 : 1 ≤ (1 + θ) ^ k := one_le_pow₀ (by linarith)
  have hr : 0 < r := lt_of_lt_of_le (inv_pos.2 hk) h2
  refine ⟨Real.sqrt r, by rw [h1, Real.sqrt_mul hr.le], ?_, ?_⟩
  · refine Real.le_sqrt_of_sq_le (le_trans ?_ h2)
    have : ((1 + θ) ^ k)⁻¹ ≤ 1 := inv_le_one_of_one_le₀ hk1
    rw [pow_two]
    exact mul_le_of_le_one_left (inv_pos.2 hk).le this
  · rw [Real.sqrt_le_left hk.le]
    refine h3.trans ?_
    rw [pow_two]
    exact le_mul_of_one_le_left hk.le hk1

theorem neg (h : Spec.Near θ k x' x) : Spec.Near θ k (-x') (-x) := by
  obtain ⟨r, h1, h2, h3⟩ := h
  exact ⟨r, by rw [h1]; ring, h2, h3⟩

/-- The factor differs from one by at most `(1+θ)^k - 1`. -/
theorem abs_sub (hθ : 0 ≤ θ) (h : Spec.Near θ k x' x) : |x' - x| ≤ ((1 + θ) ^ k - 1) * |x| := by
  obtain ⟨r, h1, h2, h3⟩ := h
  have hk := pow_pos' hθ k
  have hk1 : 1 ≤ (1 + θ) ^ k := one_le_pow₀ (by linarith)
  have e : x' - x = (r - 1) * x := by rw [h1]; ring
  rw [e, abs_mul]
  refine mul_le_mul_of_nonneg_right (abs_le.2 ⟨?_, by linarith⟩) (abs_nonneg _)
  have h4 : 2 - (1 + θ) ^ k ≤ ((1 + θ) ^ k)⁻¹ := by
    rw [← one_div, le_div_iff₀ hk]
    nlinarith [sq_nonneg ((1 + θ) ^ k - 1)]
  linarith

theorem toC (hθ : 0 ≤ θ) (h : Spec.Near θ k x' x) : Spec.CNear θ k (x' : ℂ) (x : ℂ) := by
  unfold Spec.CNear
  rw [← Complex.ofReal_sub, Complex.norm_real, Complex.norm_real, Real.norm_eq_abs, Real.norm_eq_abs]
  exact h.abs_sub hθ

end Spec.Near

/-- What is assumed of the arithmetic: a rounding as in C107, an accurate reciprocal and fourth power, all within `θ`. -/
structure Spec.Library (F : FlLib) (u v θ : ℝ) : Prop where
  rounding : Spec.Rounding F.toFl u v
  theta : 2 * (2 * u + u ^ 2) ≤ θ
  low : 1 ≤ (1 - u) * (1 + θ)
  cinv_one : F.cinv 1 = 1
  cinv_err : ∀ z : ℂ, z ≠ 0 → ‖F.cinv z - z⁻¹‖ ≤ θ * ‖z⁻¹‖
  pow4_near : ∀ x : ℝ, Spec.Near θ 1 (F.pow4 x) (x ^ 4)

namespace Spec.Library

variable {F : FlLib} {u v θ : ℝ} {k l : ℕ} {x x' y y' : ℝ}

theorem theta_nonneg (h : Spec.Library F u v θ) : 0 ≤ θ := by
  have := h.rounding.u0
  have := h.theta
  nlinarith [sq_nonneg u]

theorem u_le (h : Spec.Library F u v θ) : u ≤ θ := by
  have := h.rounding.u0
  have := h.theta
  nlinarith [sq_nonneg u]

theorem rnd_near (h : Spec.Library F u v θ) (x : ℝ) : Spec.Near θ 1 (F.rnd x) x := by
  have hθ := h.theta_nonneg
  by_cases hx : x = 0
  · refine ⟨1, ?_, ?_, ?_⟩
    · rw [hx, h.rounding.rnd_zero]
      ring
    · rw [pow_one]
      exact inv_le_one_of_one_le₀ (by linarith)
    · rw [pow_one]
      linarith
  have h1 := h.rounding.err x
  have h2 : |F.rnd x / x - 1| ≤ u := by
    have e : F.rnd x / x - 1 = (F.rnd x - x) / x := by field_simp
    rw [e, abs_div, div_le_iff₀ (abs_pos.2 hx)]
    exact h1
  have h3 := abs_le.1 h2
  refine ⟨F.rnd x / x, by field_simp, ?_, ?_⟩
  · rw [pow_one, inv_le_iff_one_le_mul₀ (by linarith)]
    refine h.low.trans (mul_le_mul_of_nonneg_right (by linarith) (by linarith))
  · rw [pow_one]
    have := h.u_le
    linarith

theorem near_rnd (h : Spec.Library F u v θ) (hx : Spec.Near θ k x' x) : Spec.Near θ (k + 1) (F.rnd x') x := by
  have hθ := h.theta_nonneg
  obtain ⟨r, h1, h2, h3⟩ := h.rnd_near x'
  obtain ⟨q, g1, g2, g3⟩ := hx
  have hk := Spec.Near.pow_pos' hθ k
  have hk' := Spec.Near.pow_pos' hθ 1
  have hr : 0 < r := lt_of_lt_of_le (inv_pos.2 hk') h2
  have hq : 0 < q := lt_of_lt_of_le (inv_pos.2 hk) g2
  refine ⟨q * r, by rw [h1, g1]; ring, ?_, ?_⟩
  · rw [pow_add, mul_inv]
    exact mul_le_mul g2 h2 (inv_pos.2 hk').le hq.le
  · rw [pow_add]
    exact mul_le_mul g3 h3 hr.le hk.le

theorem near_mul (h : Spec.Library F u v θ) (hx : Spec.Near θ k x' x) (hy : Spec.Near θ l y' y) : Spec.Near θ (k + l + 1) (F.mul x' y') (x * y) :=
  h.near_rnd (hx.mul h.theta_nonneg hy)

theorem near_div (h : Spec.Library F u v θ) (hx : Spec.Near θ k x' x) (hy : Spec.Near θ l y' y) : Spec.Near θ (k + l + 1) (F.div x' y') (x / y) :=
  h.near_rnd (hx.div h.theta_nonneg hy)

end Spec.Library

namespace Spec.CNear

variable {θ : ℝ} {k l : ℕ} {a a' b b' : ℂ}

theorem refl (θ : ℝ) (a : ℂ) : Spec.CNear θ 0 a a := by simp [Spec.CNear]

theorem mono (hθ : 0 ≤ θ) (hkl : k ≤ l) (h : Spec.CNear θ k a' a) : Spec.CNear θ l a' a := by
  have hp : (1 + θ) ^ k ≤ (1 + θ) ^ l := pow_le_pow_right₀ (by linarith) hkl
  exact h.trans (mul_le_mul_of_nonneg_right (by linarith) (norm_nonneg _))

theorem norm_le (h : Spec.CNear θ k a' a) : ‖a'‖ ≤ (1 + θ) ^ k * ‖a‖ := by
  have h1 : ‖a' - a‖ ≤ ((1 + θ) ^ k - 1) * ‖a‖ := h
  have h2 := norm_add_le (a' - a) a
  rw [sub_add_cancel] at h2
  linarith

/-- One more relative error. -/
theorem step (hθ : 0 ≤ θ) (h : Spec.CNear θ k a' a) (hb : ‖b - a'‖ ≤ θ * ‖a'‖) : Spec.CNear θ (k + 1) b a := by
  have h1 : ‖a' - a‖ ≤ ((1 + θ) ^ k - 1) * ‖a‖ := h
  have h2 := norm_add_le (b - a') (a' - a)
  rw [sub_add_sub_cancel] at h2
  have h3 := mul_le_mul_of_nonneg_left h.norm_le hθ
  show ‖b - a‖ ≤ ((1 + θ) ^ (k + 1) - 1) * ‖a‖
  have e : ((1 + θ) ^ (k + 1) - 1) * ‖a‖ = θ * ((1 + θ) ^ k * ‖a‖) + ((1 + θ) ^ k - 1) * ‖a‖ := by ring
  linarith

theorem mul (hθ : 0 ≤ θ) (ha : Spec.CNear θ k a' a) (hb : Spec.CNear θ l b' b) : Spec.CNear θ (k + l) (a' * b') (a * b) := by
  have h1 : ‖a' - a‖ ≤ ((1 + θ) ^ k - 1) * ‖a‖ := ha
  have h2 : ‖b' - b‖ ≤ ((1 + θ) ^ l - 1) * ‖b‖ := hb
  have h3 := ha.norm_le
  have hk : 1 ≤ (1 + θ) ^ k := one_le_pow₀ (by linarith)
  have e : a' * b' - a * b = a' * (b' - b) + (a' - a) * b := by ring
  show ‖a' * b' - a * b‖ ≤ ((1 + θ) ^ (k + l) - 1) * ‖a * b‖
  rw [e]
  refine (norm_add_le _ _).trans ?_
  rw [norm_mul, norm_mul, norm_mul]
  have g1 : ‖a'‖ * ‖b' - b‖ ≤ ((1 + θ) ^ k * ‖a‖) * (((1 + θ) ^ l - 1) * ‖b‖) := mul_le_mul h3 h2 (norm_nonneg _) (by positivity)
  have g2 : ‖a' - a‖ * ‖b‖ ≤ (((1 + θ) ^ k - 1) * ‖a‖) * ‖b‖ := mul_le_mul_of_nonneg_right h1 (norm_nonneg _)
  have e2 : ((1 + θ) ^ (k + l) - 1) * (‖a‖ * ‖b‖) = ((1 + θ) ^ k * ‖a‖) * (((1 + θ) ^ l - 1) * ‖b‖) + (((1 + θ) ^ k - 1) * ‖a‖) * ‖b‖ := by
    rw [pow_add]
    ring
  linarith

end Spec.CNear

namespace Spec.Library

variable {F : FlLib} {u v θ : ℝ} {k l : ℕ} {a a' b b' : ℂ}

theorem rndC_err (h : Spec.Library F u v θ) (z : ℂ) : ‖F.rndC z - z‖ ≤ θ * ‖z‖ := by
  have h1 := h.rounding.err z.re
  have h2 := h.rounding.err z.im
  have h3 := Complex.norm_le_abs_re_add_abs_im (F.rndC z - z)
  have e1 : (F.rndC z - z).re = F.rnd z.re - z.re := rfl
  have e2 : (F.rndC z - z).im = F.rnd z.im - z.im := rfl
  rw [e1, e2] at h3
  have h4 := Complex.abs_re_le_norm z
  have h5 := Complex.abs_im_le_norm z
  have hu := h.rounding.u0
  have g1 := mul_le_mul_of_nonneg_left h4 hu
  have g2 := mul_le_mul_of_nonneg_left h5 hu
  have hθ := h.theta
  have g3 : 2 * u ≤ θ := by nlinarith [sq_nonneg u]
  have g4 := mul_le_mul_of_nonneg_right g3 (norm_nonneg z)
  linarith

theorem sub_err (h : Spec.Library F u v θ) (p q : ℝ) : |F.rnd (F.rnd p + F.rnd q) - (p + q)| ≤ (2 * u + u ^ 2) * (|p| + |q|) := by
  have hu := h.rounding.u0
  have h1 := h.rounding.err p
  have h2 := h.rounding.err q
  have h3 := h.rounding.err (F.rnd p + F.rnd q)
  have h4 := h.rounding.rnd_abs_le p
  have h5 := h.rounding.rnd_abs_le q
  have h6 := mul_le_mul_of_nonneg_left ((abs_add_le (F.rnd p) (F.rnd q)).trans (add_le_add h4 h5)) hu
  have e : F.rnd (F.rnd p + F.rnd q) - (p + q) = (F.rnd (F.rnd p + F.rnd q) - (F.rnd p + F.rnd q)) + ((F.rnd p - p) + (F.rnd q - q)) := by ring
  rw [e]
  have h7 := abs_add_le (F.rnd (F.rnd p + F.rnd q) - (F.rnd p + F.rnd q)) ((F.rnd p - p) + (F.rnd q - q))
  have h8 := abs_add_le (F.rnd p - p) (F.rnd q - q)
  have e2 : (2 * u + u ^ 2) * (|p| + |q|) = u * ((1 + u) * |p| + (1 + u) * |q|) + (u * |p| + u * |q|) := by ring
  linarith

theorem cauchy (a b c d : ℝ) : |a * c| + |b * d| ≤ Real.sqrt (a ^ 2 + b ^ 2) * Real.sqrt (c ^ 2 + d ^ 2) := by
  rw [← Real.sqrt_mul (by positivity), abs_mul, abs_mul]
  refine Real.le_sqrt_of_sq_le ?_
  have := sq_nonneg (|a| * |d| - |b| * |c|)
  have e1 := sq_abs a
  have e2 := sq_abs b
  have e3 := sq_abs c
  have e4 := sq_abs d
  rw [← e1, ← e2, ← e3, ← e4]
  nlinarith

theorem mulC_err (h : Spec.Library F u v θ) (a b : ℂ) : ‖F.mulC a b - a * b‖ ≤ θ * ‖a * b‖ := by
  have hu := h.rounding.u0
  have e1 : (F.mulC a b - a * b).re = F.rnd (F.rnd (a.re * b.re) + F.rnd (-(a.im * b.im))) - (a.re * b.re + -(a.im * b.im)) := by
    rw [h.rounding.neg, Complex.sub_re, Complex.mul_re, ← sub_eq_add_neg, ← sub_eq_add_neg]
    rfl
  have e2 : (F.mulC a b - a * b).im = F.rnd (F.rnd (a.re * b.im) + F.rnd (a.im * b.re)) - (a.re * b.im + a.im * b.re) := by
    rw [Complex.sub_im, Complex.mul_im]
    rfl
  have h1 := h.sub_err (a.re * b.re) (-(a.im * b.im))
  have h2 := h.sub_err (a.re * b.im) (a.im * b.re)
  rw [abs_neg] at h1
  have n1 : ∀ z : ℂ, Real.sqrt (z.re ^ 2 + z.im ^ 2) = ‖z‖ := fun z => (Complex.norm_eq_sqrt_sq_add_sq z).symm
  have c1 := cauchy a.re a.im b.re b.im
  have c2 := cauchy a.re a.im b.im b.re
  rw [n1] at c1 c2
  rw [add_comm (b.im ^ 2), n1] at c2
  rw [n1] at c1
  rw [← e1] at h1
  rw [← e2] at h2
  have h3 := Complex.norm_le_abs_re_add_abs_im (F.mulC a b - a * b)
  have hc : 0 ≤ 2 * u + u ^ 2 := by positivity
  have g1 := mul_le_mul_of_nonneg_left c1 hc
  have g2 := mul_le_mul_of_nonneg_left c2 hc
  have g3 := mul_le_mul_of_nonneg_right h.theta (norm_nonneg (a * b))
  rw [norm_mul] at g3 ⊢
  have e3 : 2 * (2 * u + u ^ 2) * (‖a‖ * ‖b‖) = (2 * u + u ^ 2) * (‖a‖ * ‖b‖) + (2 * u + u ^ 2) * (‖a‖ * ‖b‖) := by ring
  linarith

theorem cnear_mul (h : Spec.Library F u v θ) (ha : Spec.CNear θ k a' a) (hb : Spec.CNear θ l b' b) : Spec.CNear θ (k + l + 1) (F.mulC a' b') (a * b) :=
  (ha.mul h.theta_nonneg hb).step h.theta_nonneg (h.mulC_err a' b')

end Spec.Library

/-! ## Short sums -/

namespace Spec.Rounding

variable {F : Fl} {u v : ℝ}

theorem rndC_idem (h : Spec.Rounding F u v) (z : ℂ) : F.rndC (F.rndC z) = F.rndC z := Complex.ext (h.idem _) (h.idem _)

theorem rndC_zero (h : Spec.Rounding F u v) : F.rndC 0 = 0 := Complex.ext h.rnd_zero h.rnd_zero

theorem rndC_mulC (h : Spec.Rounding F u v) (a b : ℂ) : F.rndC (F.mulC a b) = F.mulC a b := Complex.ext (h.idem _) (h.idem _)

/-- Signs pass through roundings. -/
theorem rnd_sign (h : Spec.Rounding F u v) {e : ℝ} (he : e = -1 ∨ e = 0 ∨ e = 1) (x : ℝ) : F.rnd (e * x) = e * F.rnd x := by
  rcases he with rfl | rfl | rfl
  · rw [neg_one_mul, neg_one_mul, h.neg]
  · rw [zero_mul, zero_mul, h.rnd_zero]
  · rw [one_mul, one_mul]

theorem mulC_sign_left (h : Spec.Rounding F u v) {e : ℝ} (he : e = -1 ∨ e = 0 ∨ e = 1) (a b : ℂ) : F.mulC ((e : ℂ) * a) b = (e : ℂ) * F.mulC a b := by
  apply Complex.ext
  · rw [Complex.re_ofReal_mul]
    show F.rnd (F.rnd (((e : ℂ) * a).re * b.re) - F.rnd (((e : ℂ) * a).im * b.im)) = e * F.rnd (F.rnd (a.re * b.re) - F.rnd (a.im * b.im))
    rw [Complex.re_ofReal_mul, Complex.im_ofReal_mul, mul_assoc, mul_assoc, h.rnd_sign he, h.rnd_sign he, ← mul_sub, h.rnd_sign he]
  · rw [Complex.im_ofReal_mul]
    show F.rnd (F.rnd (((e : ℂ) * a).re * b.im) + F.rnd (((e : ℂ) * a).im * b.re)) = e * F.rnd (F.rnd (a.re * b.im) + F.rnd (a.im * b.re))
    rw [Complex.re_ofReal_mul, Complex.im_ofReal_mul, mul_assoc, mul_assoc, h.rnd_sign he, h.rnd_sign he, ← mul_add, h.rnd_sign he]

theorem mulC_sign_right (h : Spec.Rounding F u v) {e : ℝ} (he : e = -1 ∨ e = 0 ∨ e = 1) (a b : ℂ) : F.mulC a ((e : ℂ) * b) = (e : ℂ) * F.mulC a b := by
  apply Complex.ext
  · rw [Complex.re_ofReal_mul]
    show F.rnd (F.rnd (a.re * ((e : ℂ) * b).re) - F.rnd (a.im * ((e : ℂ) * b).im)) = e * F.rnd (F.rnd (a.re * b.re) - F.rnd (a.im * b.im))
    rw [Complex.re_ofReal_mul, Complex.im_ofReal_mul, mul_left_comm, mul_left_comm a.im, h.rnd_sign he, h.rnd_sign he, ← mul_sub, h.rnd_sign he]
  · rw [Complex.im_ofReal_mul]
    show F.rnd (F.rnd (a.re * ((e : ℂ) * b).im) + F.rnd (a.im * ((e : ℂ) * b).re)) = e * F.rnd (F.rnd (a.re * b.im) + F.rnd (a.im * b.re))
    rw [Complex.re_ofReal_mul, Complex.im_ofReal_mul, mul_left_comm, mul_left_comm a.im, h.rnd_sign he, h.rnd_sign he, ← mul_add, h.rnd_sign he]

theorem mulC_zero_left (h : Spec.Rounding F u v) (b : ℂ) : F.mulC 0 b = 0 := by
  have := h.mulC_sign_left (e := 0) (Or.inr (Or.inl rfl)) 0 b
  simpa using this

theorem mulC_zero_right (h : Spec.Rounding F u v) (a : ℂ) : F.mulC a 0 = 0 := by
  have := h.mulC_sign_right (e := 0) (Or.inr (Or.inl rfl)) a 0
  simpa using this

/-- Products of real numbers. -/
theorem mulC_real (h : Spec.Rounding F u v) (a b : ℝ) : F.mulC (a : ℂ) (b : ℂ) = ((F.mul a b : ℝ) : ℂ) := by
  apply Complex.ext
  · show F.rnd (F.rnd (a * b) - F.rnd (0 * 0)) = F.rnd (a * b)
    rw [zero_mul, h.rnd_zero, sub_zero, h.idem]
  · show F.rnd (F.rnd (a * 0) + F.rnd (0 * b)) = 0
    rw [zero_mul, mul_zero, h.rnd_zero, add_zero, h.rnd_zero]

theorem mulC_one_left (h : Spec.Rounding F u v) {b : ℂ} (hb : F.rndC b = b) : F.mulC 1 b = b := by
  apply Complex.ext
  · show F.rnd (F.rnd (1 * b.re) - F.rnd (0 * b.im)) = b.re
    rw [zero_mul, one_mul, h.rnd_zero, sub_zero, h.idem]
    exact congrArg Complex.re hb
  · show F.rnd (F.rnd (1 * b.im) + F.rnd (0 * b.re)) = b.im
    rw [zero_mul, one_mul, h.rnd_zero, add_zero, h.idem]
    exact congrArg Complex.im hb

open Classical in
theorem fold_filter (h : Spec.Rounding F u v) {ι : Type*} (t : ι → ℂ) : ∀ (l : List ι) (acc : ℂ), F.rndC acc = acc →
    l.foldl (fun sum k => F.addC sum (t k)) acc = (l.filter fun k => decide (t k ≠ 0)).foldl (fun sum k => F.addC sum (t k)) acc
  | [], _, _ => rfl
  | a :: l, acc, hacc => by
    rw [List.foldl_cons]
    by_cases ha : t a = 0
    · rw [List.filter_cons_of_neg (by simpa using ha)]
      have e : F.addC acc (t a) = acc := by
        unfold Fl.addC
        rw [ha, add_zero, hacc]
      rw [e]
      exact fold_filter h t l acc hacc
    · rw [List.filter_cons_of_pos (by simpa using ha), List.foldl_cons]
      exact fold_filter h t l _ (h.rndC_idem _)

/-- A running sum with at most two terms that are not zero is the rounded sum, in whatever order. -/
theorem fold_two (h : Spec.Rounding F u v) {n : ℕ} (t : Fin n → ℂ) (ht : ∀ k, F.rndC (t k) = t k) (a b : Fin n) (hab : ∀ k, k ≠ a → k ≠ b → t k = 0) :
    (List.finRange n).foldl (fun sum k => F.addC sum (t k)) 0 = F.rndC (∑ k, t k) := by
  classical
  rw [h.fold_filter t _ 0 h.rndC_zero]
  have hs : ∑ k, t k = (((List.finRange n).filter fun k => decide (t k ≠ 0)).map t).sum := by
    have h1 : ∑ k, t k = ∑ k ∈ Finset.univ.filter (fun k => t k ≠ 0), t k := (Finset.sum_filter_ne_zero _).symm
    rw [h1, Finset.sum_eq_multiset_sum]
    rfl
  rw [hs]
  have hnd : ((List.finRange n).filter fun k => decide (t k ≠ 0)).Nodup := (List.nodup_finRange n).filter _
  have hsub : ((List.finRange n).filter fun k => decide (t k ≠ 0)) ⊆ [a, b] := by
    intro k hk
    have h1 := (List.mem_filter.1 hk).2
    have h2 : t k ≠ 0 := by simpa using h1
    by_contra hc
    simp only [List.mem_cons, List.not_mem_nil, or_false, not_or] at hc
    exact h2 (hab k hc.1 hc.2)
  have hlen := (List.subperm_of_subset hnd hsub).length_le
  generalize ((List.finRange n).filter fun k => decide (t k ≠ 0)) = L at hlen
  match L, hlen with
  | [], _ => simp [h.rndC_zero]
  | [x], _ => simp [Fl.addC]
  | [x, y], _ =>
    show F.rndC (F.rndC (0 + t x) + t y) = F.rndC ([t x, t y].sum)
    rw [zero_add, ht, List.sum_cons, List.sum_cons, List.sum_nil, add_zero]
  | _ :: _ :: _ :: _, hl => simp at hl

end Spec.Rounding

/-- At most two entries per row. -/
def Spec.TwoEntries {n : ℕ} (A : Mat n ℂ) : Prop := ∀ i, ∃ a b, ∀ k, k ≠ a → k ≠ b → A i k = 0

namespace Spec.Rounding

variable {F : Fl} {u v : ℝ}

theorem matMul_eq (h : Spec.Rounding F u v) {n : ℕ} (A B : Mat n ℂ) (hA : Spec.TwoEntries A) (i j : Fin n) : F.matMul A B i j = F.rndC (∑ k, F.mulC (A i k) (B k j)) := by
  obtain ⟨a, b, hab⟩ := hA i
  exact h.fold_two (fun k => F.mulC (A i k) (B k j)) (fun k => h.rndC_mulC _ _) a b fun k h1 h2 => by
    rw [hab k h1 h2, h.mulC_zero_left]

theorem mulVec_eq (h : Spec.Rounding F u v) {n : ℕ} (A : Mat n ℂ) (x : Vec n ℂ) (hA : Spec.TwoEntries A) (i : Fin n) : F.mulVec A x i = F.rndC (∑ k, F.mulC (A i k) (x k)) := by
  obtain ⟨a, b, hab⟩ := hA i
  exact h.fold_two (fun k => F.mulC (A i k) (x k)) (fun k => h.rndC_mulC _ _) a b fun k h1 h2 => by
    rw [hab k h1 h2, h.mulC_zero_left]

theorem twoEntries_spdiag {n : ℕ} (d : Vec n ℂ) : Spec.TwoEntries (spdiag d) := fun i => ⟨i, i, fun k h1 _ => by
  show Matrix.diagonal d i k = 0
  rw [Matrix.diagonal_apply_ne _ (Ne.symm h1)]⟩

/-- The product with a diagonal matrix. -/
theorem matMul_spdiag (h : Spec.Rounding F u v) {n : ℕ} (d : Vec n ℂ) (B : Mat n ℂ) (i j : Fin n) : F.matMul (spdiag d) B i j = F.mulC (d i) (B i j) := by
  rw [h.matMul_eq _ _ (twoEntries_spdiag d), Finset.sum_eq_single i]
  · show F.rndC (F.mulC (Matrix.diagonal d i i) (B i j)) = _
    rw [Matrix.diagonal_apply_eq, h.rndC_mulC]
  · intro k _ hk
    show F.mulC (Matrix.diagonal d i k) (B k j) = 0
    rw [Matrix.diagonal_apply_ne _ (Ne.symm hk), h.mulC_zero_left]
  · intro hi
    exact absurd (Finset.mem_univ i) hi

end Spec.Rounding

/-! ## The difference matrices -/

section pattern
variable {Nx Ny : ℕ}

/-- The entries `0, ±1` of the difference matrices. -/
def pat (w : Axis) (s : Dir) (Nx Ny : ℕ) : Mat (Nx * Ny) ℝ :=
  match w with
  | .x =>
    if 1 < Nx then
      match s with
      | .f => kron (diags Nx [-1, 1, 1] [0, 1, -(Nx : ℤ) + 1]) (1 : Mat Ny ℝ)
      | .b => kron (diags Nx [1, -1, -1] [0, -1, (Nx : ℤ) - 1]) (1 : Mat Ny ℝ)
    else 1
  | .y =>
    if 1 < Ny then
      match s with
      | .f => kron (1 : Mat Nx ℝ) (diags Ny [-1, 1, 1] [0, 1, -(Ny : ℤ) + 1])
      | .b => kron (1 : Mat Nx ℝ) (diags Ny [1, -1, -1] [0, -1, (Ny : ℤ) - 1])
    else 1

/-- The length by which the entries are divided. -/
noncomputable def stepLen (w : Axis) (dx dy : ℝ) (Nx Ny : ℕ) : ℝ :=
  match w with
  | .x => if 1 < Nx then dx else 1
  | .y => if 1 < Ny then dy else 1

theorem diags_cast {n : ℕ} (a b c : ℝ) (p q o : ℤ) (r k : Fin n) : ((diags n [a, b, c] [p, q, o] r k : ℝ) : ℂ) = diags n [(a : ℂ), (b : ℂ), (c : ℂ)] [p, q, o] r k := by
  simp only [diags, List.zip_cons_cons, List.zip_nil_right, List.map_cons, List.map_nil, List.sum_cons, List.sum_nil]
  rw [Complex.ofReal_add, Complex.ofReal_add, Complex.ofReal_add, apply_ite Complex.ofReal, apply_ite Complex.ofReal, apply_ite Complex.ofReal]
  simp only [Complex.ofReal_zero]

theorem one_cast {n : ℕ} (r k : Fin n) : (((1 : Mat n ℝ) r k : ℝ) : ℂ) = (1 : Mat n ℂ) r k := by
  rw [Matrix.one_apply, Matrix.one_apply]
  split_ifs <;> simp

theorem createDws_pat (w : Axis) (s : Dir) (dx dy : ℝ) (r c : Fin (Nx * Ny)) : createDws w s dx dy Nx Ny r c = 1 / ((stepLen w dx dy Nx Ny : ℝ) : ℂ) * ((pat w s Nx Ny r c : ℝ) : ℂ) := by
  cases w <;> cases s <;> unfold createDws stepLen pat <;> dsimp only <;> split_ifs
  all_goals first
    | (rw [Matrix.smul_apply, smul_eq_mul]
       congr 1
       unfold kron
       rw [Complex.ofReal_mul, diags_cast, one_cast]
       norm_num)
    | (rw [one_cast]; simp)

theorem fl_createDws_pat {F : Fl} {u v : ℝ} (h : Spec.Rounding F u v) (w : Axis) (s : Dir) (dx dy : ℝ) (r c : Fin (Nx * Ny)) :
    F.createDws w s dx dy Nx Ny r c = F.mul (F.div 1 (stepLen w dx dy Nx Ny)) (pat w s Nx Ny r c) := by
  have h1 : ∀ (n : ℕ) (i j : Fin n), (1 : Mat n ℝ) i j = F.mul (F.div 1 1) ((1 : Mat n ℝ) i j) := fun n i j => by
    unfold Fl.mul Fl.div
    rw [div_one, h.one, one_mul, Matrix.one_apply]
    split_ifs
    · rw [h.one]
    · rw [h.rnd_zero]
  cases w
  · by_cases hn : 1 < Nx
    · cases s <;> simp only [Fl.createDws, stepLen, pat, if_pos hn] <;> rfl
    · simp only [Fl.createDws, stepLen, pat, if_neg hn]
      exact h1 _ _ _
  · by_cases hn : 1 < Ny
    · cases s <;> simp only [Fl.createDws, stepLen, pat, if_pos hn] <;> rfl
    · simp only [Fl.createDws, stepLen, pat, if_neg hn]
      exact h1 _ _ _

theorem fwd_entry {n : ℕ} (hn : 1 < n) (r c : Fin n) : diags (R := ℝ) n [-1, 1, 1] [0, 1, -(n : ℤ) + 1] r c = (if c = Spec.next r then 1 else 0) - (if c = r then 1 else 0) := by
  have h1 := diags_cast (-1) 1 1 0 1 (-(n : ℤ) + 1) r c
  rw [Complex.ofReal_neg, Complex.ofReal_one, diags_fwd_entry hn] at h1
  apply Complex.ofReal_injective
  rw [h1]
  split_ifs <;> norm_num

theorem bwd_entry {n : ℕ} (hn : 1 < n) (r c : Fin n) : diags (R := ℝ) n [1, -1, -1] [0, -1, (n : ℤ) - 1] r c = (if c = r then 1 else 0) - (if c = Spec.prev r then 1 else 0) := by
  have h1 := diags_cast 1 (-1) (-1) 0 (-1) ((n : ℤ) - 1) r c
  rw [Complex.ofReal_neg, Complex.ofReal_one, diags_bwd_entry hn] at h1
  apply Complex.ofReal_injective
  rw [h1]
  split_ifs <;> norm_num

/-- Per row there are two columns `a` and `b` such that the row is the difference of the unit rows (more than one cell), or the unit row (one cell). -/
theorem pat_row (w : Axis) (s : Dir) (r : Fin (Nx * Ny)) :
    (∃ a b, ∀ c, pat w s Nx Ny r c = (if c = a then 1 else 0) - (if c = b then 1 else 0)) ∨ ((match w with | .x => Nx | .y => Ny) ≤ 1 ∧ ∀ c, pat w s Nx Ny r c = if c = r then 1 else 0) := by
  have ex : ∀ (g : Fin Nx) (c : Fin (Nx * Ny)), (if c.divNat = g then (1 : ℝ) else 0) * (if r.modNat = c.modNat then 1 else 0) = if c = finProdFinEquiv (g, r.modNat) then 1 else 0 := fun g c => by
    have e : (c = finProdFinEquiv (g, r.modNat)) ↔ (c.divNat = g ∧ r.modNat = c.modNat) := by
      constructor
      · intro hc
        rw [hc, divNat_pair, modNat_pair]
        exact ⟨rfl, rfl⟩
      · intro hc
        rw [← hc.1, hc.2, pair_div_mod]
    rw [if_congr e rfl rfl, ite_and]
    split_ifs <;> simp
  have ey : ∀ (g : Fin Ny) (c : Fin (Nx * Ny)), (if r.divNat = c.divNat then (1 : ℝ) else 0) * (if c.modNat = g then 1 else 0) = if c = finProdFinEquiv (r.divNat, g) then 1 else 0 := fun g c => by
    have e : (c = finProdFinEquiv (r.divNat, g)) ↔ (r.divNat = c.divNat ∧ c.modNat = g) := by
      constructor
      · intro hc
        rw [hc, divNat_pair, modNat_pair]
        exact ⟨rfl, rfl⟩
      · intro hc
        rw [← hc.2, hc.1, pair_div_mod]
    rw [if_congr e rfl rfl, ite_and]
    split_ifs <;> simp
  have e1 : ∀ c : Fin (Nx * Ny), (1 : Mat (Nx * Ny) ℝ) r c = if c = r then 1 else 0 := fun c => by
    rw [Matrix.one_apply, if_congr (@eq_comm _ r c) rfl rfl]
  cases w
  · by_cases hn : 1 < Nx
    · left
      cases s <;> unfold pat <;> dsimp only <;> rw [if_pos hn]
      · refine ⟨finProdFinEquiv (Spec.next r.divNat, r.modNat), finProdFinEquiv (r.divNat, r.modNat), fun c => ?_⟩
        unfold kron
        rw [fwd_entry hn, Matrix.one_apply, sub_mul, ex, ex]
      · refine ⟨finProdFinEquiv (r.divNat, r.modNat), finProdFinEquiv (Spec.prev r.divNat, r.modNat), fun c => ?_⟩
        unfold kron
        rw [bwd_entry hn, Matrix.one_apply, sub_mul, ex, ex]
    · right
      refine ⟨not_lt.1 hn, fun c => ?_⟩
      cases s <;> unfold pat <;> dsimp only <;> rw [if_neg hn, e1]
  · by_cases hn : 1 < Ny
    · left
      cases s <;> unfold pat <;> dsimp only <;> rw [if_pos hn]
      · refine ⟨finProdFinEquiv (r.divNat, Spec.next r.modNat), finProdFinEquiv (r.divNat, r.modNat), fun c => ?_⟩
        unfold kron
        rw [fwd_entry hn, Matrix.one_apply, mul_sub, ey, ey]
      · refine ⟨finProdFinEquiv (r.divNat, r.modNat), finProdFinEquiv (r.divNat, Spec.prev r.modNat), fun c => ?_⟩
        unfold kron
        rw [bwd_entry hn, Matrix.one_apply, mul_sub, ey, ey]
    · right
      refine ⟨not_lt.1 hn, fun c => ?_⟩
      cases s <;> unfold pat <;> dsimp only <;> rw [if_neg hn, e1]

theorem pat_values (w : Axis) (s : Dir) (r c : Fin (Nx * Ny)) : pat w s Nx Ny r c = -1 ∨ pat w s Nx Ny r c = 0 ∨ pat w s Nx Ny r c = 1 := by
  rcases pat_row w s r with ⟨a, b, h⟩ | ⟨_, h⟩
  · rw [h]
    split_ifs <;> simp
  · rw [h]
    split_ifs <;> simp

theorem pat_two (w : Axis) (s : Dir) (r : Fin (Nx * Ny)) : ∃ a b, ∀ c, c ≠ a → c ≠ b → pat w s Nx Ny r c = 0 := by
  rcases pat_row w s r with ⟨a, b, h⟩ | ⟨_, h⟩
  · exact ⟨a, b, fun c h1 h2 => by rw [h, if_neg h1, if_neg h2, sub_zero]⟩
  · exact ⟨r, r, fun c h1 _ => by rw [h, if_neg h1]⟩

theorem pat_sum (w : Axis) (s : Dir) (hn : 1 < (match w with | .x => Nx | .y => Ny)) (r : Fin (Nx * Ny)) : ∑ c, pat w s Nx Ny r c = 0 := by
  rcases pat_row w s r with ⟨a, b, h⟩ | ⟨h1, _⟩
  · simp only [h, Finset.sum_sub_distrib, Finset.sum_ite_eq', Finset.mem_univ, if_true, sub_self]
  · omega

theorem pat_abs_sum (w : Axis) (s : Dir) (r : Fin (Nx * Ny)) : ∑ c, |pat w s Nx Ny r c| ≤ 2 := by
  rcases pat_row w s r with ⟨a, b, h⟩ | ⟨_, h⟩
  · refine (Finset.sum_le_sum fun c _ => show |pat w s Nx Ny r c| ≤ (if c = a then 1 else 0) + (if c = b then 1 else 0) from ?_).trans ?_
    · rw [h]
      split_ifs <;> norm_num
    · rw [Finset.sum_add_distrib, Finset.sum_ite_eq', Finset.sum_ite_eq', if_pos (Finset.mem_univ _), if_pos (Finset.mem_univ _)]
      norm_num
  · simp only [h]
    refine (Finset.sum_le_sum fun c _ => show |if c = r then (1 : ℝ) else 0| ≤ if c = r then 1 else 0 from ?_).trans ?_
    · split_ifs <;> simp
    · rw [Finset.sum_ite_eq', if_pos (Finset.mem_univ _)]
      norm_num

/-- Forward and backward: minus the transpose, or both the identity. -/
theorem pat_transpose (w : Axis) : (∀ r c, pat w .b Nx Ny r c = -pat w .f Nx Ny c r) ∨ (pat w .f Nx Ny = 1 ∧ pat w .b Nx Ny = 1) := by
  have key : ∀ (n : ℕ) (r c : Fin n), diags (R := ℝ) n [1, -1, -1] [0, -1, (n : ℤ) - 1] r c = -diags (R := ℝ) n [-1, 1, 1] [0, 1, -(n : ℤ) + 1] c r := fun n r c => by
    have h1 := diags_cast 1 (-1) (-1) 0 (-1) ((n : ℤ) - 1) r c
    have h2 := diags_cast (-1) 1 1 0 1 (-(n : ℤ) + 1) c r
    rw [Complex.ofReal_neg, Complex.ofReal_one] at h1 h2
    apply Complex.ofReal_injective
    rw [h1, Complex.ofReal_neg, h2, diags_bwd_transpose]
  have hone : ∀ (n : ℕ) (r c : Fin n), (1 : Mat n ℝ) r c = (1 : Mat n ℝ) c r := fun n r c => by
    rw [Matrix.one_apply, Matrix.one_apply, if_congr (@eq_comm _ r c) rfl rfl]
  cases w
  · by_cases hn : 1 < Nx
    · left
      intro r c
      unfold pat
      dsimp only
      rw [if_pos hn, if_pos hn]
      unfold kron
      rw [key, hone, neg_mul]
    · right
      unfold pat
      dsimp only
      exact ⟨if_neg hn, if_neg hn⟩
  · by_cases hn : 1 < Ny
    · left
      intro r c
      unfold pat
      dsimp only
      rw [if_pos hn, if_pos hn]
      unfold kron
      rw [key, hone, mul_neg]
    · right
      unfold pat
      dsimp only
      exact ⟨if_neg hn, if_neg hn⟩

end pattern

end Angler
