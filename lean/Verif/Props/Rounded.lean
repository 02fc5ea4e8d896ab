import Verif.Model.Rounded
import Verif.Lemmas.RoundBits
import Verif.Lemmas.Tanh
import Mathlib.Analysis.Calculus.MeanValue
import Mathlib.Analysis.Complex.ExponentialBounds

/-! # Floating-point evaluation of the density maps (C107) -/

namespace Angler

/-- What is assumed of an arithmetic: a monotone odd rounding to a set of numbers containing one, with relative error `u`, and a monotone odd `tanh` with relative error `v`. -/
structure Spec.Rounding (F : Fl) (u v : ℝ) : Prop where
  u0 : 0 ≤ u
  u1 : u < 1
  v0 : 0 ≤ v
  v1 : v < 1
  mono : Monotone F.rnd
  neg : ∀ x, F.rnd (-x) = -F.rnd x
  one : F.rnd 1 = 1
  idem : ∀ x, F.rnd (F.rnd x) = F.rnd x
  err : ∀ x, |F.rnd x - x| ≤ u * |x|
  tmono : Monotone F.tanh
  tneg : ∀ x, F.tanh (-x) = -F.tanh x
  terr : ∀ x, |F.tanh x - Real.tanh x| ≤ v * |Real.tanh x|

/-- Double precision: 53 digits, ties to even, and a correctly rounded `tanh`. -/
noncomputable def Spec.double : Fl where
  rnd := Spec.rn 53
  tanh := fun x => Spec.rn 53 (Real.tanh x)

/-- Double precision is such an arithmetic, with `u = v = 2⁻⁵³`. -/
theorem C107_double : Spec.Rounding Spec.double ((1 / 2) ^ 53) ((1 / 2) ^ 53) where
  u0 := by positivity
  u1 := by norm_num
  v0 := by positivity
  v1 := by norm_num
  mono := rn_mono (by norm_num)
  neg := rn_neg 53
  one := rn_one_of_near (by norm_num) (by norm_num) le_rfl
  idem := fun x => rn_fix (by norm_num) (rn_representable (by norm_num) x)
  err := rn_error 53
  tmono := fun x y h => rn_mono (by norm_num) (tanh_strictMono.monotone h)
  tneg := fun x => by
    show Spec.rn 53 (Real.tanh (-x)) = -Spec.rn 53 (Real.tanh x)
    rw [Real.tanh_neg, rn_neg]
  terr := fun x => rn_error 53 _

namespace Spec.Rounding

variable {F : Fl} {u v : ℝ}

theorem rnd_zero (h : Spec.Rounding F u v) : F.rnd 0 = 0 := by
  have := h.err 0
  simpa using this

theorem rnd_pos (h : Spec.Rounding F u v) {x : ℝ} (hx : 0 < x) : 0 < F.rnd x := by
  have h1 := (abs_le.mp (h.err x)).1
  rw [abs_of_pos hx] at h1
  have h2 : u * x < 1 * x := mul_lt_mul_of_pos_right h.u1 hx
  linarith

theorem rnd_nonneg (h : Spec.Rounding F u v) {x : ℝ} (hx : 0 ≤ x) : 0 ≤ F.rnd x := by
  have := h.mono hx
  rwa [h.rnd_zero] at this

theorem tanh_pos (h : Spec.Rounding F u v) {x : ℝ} (hx : 0 < x) : 0 < F.tanh x := by
  have h0 := Angler.tanh_pos hx
  have h1 := (abs_le.mp (h.terr x)).1
  rw [abs_of_pos h0] at h1
  have h2 : v * Real.tanh x < 1 * Real.tanh x := mul_lt_mul_of_pos_right h.v1 h0
  linarith

theorem rnd_abs_le (h : Spec.Rounding F u v) (x : ℝ) : |F.rnd x| ≤ (1 + u) * |x| := by
  have h1 := h.err x
  have h2 := abs_sub_abs_le_abs_sub (F.rnd x) x
  linarith

theorem den_pos (h : Spec.Rounding F u v) {eta beta : ℝ} (hb : 0 < beta) (h0 : 0 < eta) (h1 : eta < 1) : 0 < F.add (F.tanh (F.mul beta eta)) (F.tanh (F.mul beta (F.sub 1 eta))) := by
  unfold Fl.add Fl.mul Fl.sub
  have a1 := h.tanh_pos (h.rnd_pos (mul_pos hb h0))
  have a2 := h.tanh_pos (h.rnd_pos (mul_pos hb (h.rnd_pos (sub_pos.mpr h1))))
  exact h.rnd_pos (add_pos a1 a2)

end Spec.Rounding

variable {F : Fl} {u v : ℝ}

/-- The rounded projection never decreases when the filtered density grows. -/
theorem C107_mono (h : Spec.Rounding F u v) {eta beta : ℝ} (hb : 0 < beta) (h0 : 0 < eta) (h1 : eta < 1) : Monotone fun rhot => rhot2rhobFl F rhot eta beta := by
  intro x y hxy
  have hd := h.den_pos hb h0 h1
  refine h.mono (div_le_div_of_nonneg_right (h.mono (add_le_add_right (h.tmono (h.mono (mul_le_mul_of_nonneg_left (h.mono ?_) hb.le))) _)) hd.le)
  exact sub_le_sub_right hxy eta

/-- The ends are exact: an empty pixel gives exactly 0 and a full one exactly 1. -/
theorem C107_ends (h : Spec.Rounding F u v) {eta beta : ℝ} (hb : 0 < beta) (h0 : 0 < eta) (h1 : eta < 1) (hr : F.rnd eta = eta) : rhot2rhobFl F 0 eta beta = 0 ∧ rhot2rhobFl F 1 eta beta = 1 := by
  have hd := h.den_pos hb h0 h1
  constructor
  · show F.rnd (F.rnd (F.tanh (F.rnd (beta * eta)) + F.tanh (F.rnd (beta * F.rnd (0 - eta)))) / _) = 0
    rw [zero_sub, h.neg, hr, mul_neg, h.neg, h.tneg, add_neg_cancel, h.rnd_zero, zero_div, h.rnd_zero]
  · show F.rnd (_ / _) = 1
    rw [div_self hd.ne', h.one]

/-- The rounded projection of a density between 0 and 1 lies between 0 and 1, not only up to rounding errors. -/
theorem C107_range (h : Spec.Rounding F u v) {rhot eta beta : ℝ} (hb : 0 < beta) (h0 : 0 < eta) (h1 : eta < 1) (hr : F.rnd eta = eta) (hx : 0 ≤ rhot) (hx' : rhot ≤ 1) : 0 ≤ rhot2rhobFl F rhot eta beta ∧ rhot2rhobFl F rhot eta beta ≤ 1 := by
  have e := C107_ends h hb h0 h1 hr
  have a := C107_mono h hb h0 h1 hx
  have b := C107_mono h hb h0 h1 hx'
  simp only [e.1, e.2] at a b
  exact ⟨a, b⟩

/-- The rounded permittivity lies between that of the background and that of the material; both ends are met exactly, and the map from permittivities to densities takes them back exactly. -/
theorem C107_eps (h : Spec.Rounding F u v) {rhob eps_m : ℝ} (hm : 1 < eps_m) (hr : F.rnd eps_m = eps_m) (hr1 : F.rnd (eps_m - 1) = eps_m - 1) (hx : 0 ≤ rhob) (hx' : rhob ≤ 1) :
    1 ≤ rhob2epsFl F rhob eps_m ∧ rhob2epsFl F rhob eps_m ≤ eps_m ∧ rhob2epsFl F 0 eps_m = 1 ∧ rhob2epsFl F 1 eps_m = eps_m ∧ eps2rhoFl F 1 eps_m = 0 ∧ eps2rhoFl F eps_m eps_m = 1 := by
  have hM : 0 ≤ eps_m - 1 := by linarith
  unfold rhob2epsFl eps2rhoFl Fl.add Fl.mul Fl.sub Fl.div
  rw [hr1]
  refine ⟨?_, ?_, ?_, ?_, ?_, ?_⟩
  · have := h.mono (show (1 : ℝ) ≤ 1 + F.rnd (rhob * (eps_m - 1)) by linarith [h.rnd_nonneg (mul_nonneg hx hM)])
    rwa [h.one] at this
  · have h2 : F.rnd (rhob * (eps_m - 1)) ≤ eps_m - 1 := by
      have := h.mono (mul_le_of_le_one_left hM hx')
      rwa [hr1] at this
    have := h.mono (show 1 + F.rnd (rhob * (eps_m - 1)) ≤ eps_m by linarith)
    rwa [hr] at this
  · rw [zero_mul, h.rnd_zero, add_zero, h.one]
  · rw [one_mul, hr1, add_sub_cancel, hr]
  · rw [sub_self, h.rnd_zero, zero_div, h.rnd_zero]
  · rw [div_self (by linarith), h.one]

/-- In double precision the hypothesis on `eps_m - 1` holds of every double between 1 and `2^53`. -/
theorem C107_double_eps {eps_m : ℝ} (h1 : 1 ≤ eps_m) (h2 : eps_m ≤ 2 ^ 53) (hr : Spec.double.rnd eps_m = eps_m) : Spec.double.rnd (eps_m - 1) = eps_m - 1 := by
  refine rn_fix (by norm_num) (representable_sub_one ?_ h1 h2)
  have := rn_representable (p := 53) (by norm_num) eps_m
  rwa [show Spec.rn 53 eps_m = eps_m from hr] at this

theorem tanh_lipschitz (x y : ℝ) : |Real.tanh x - Real.tanh y| ≤ |x - y| := by
  have h := Convex.norm_image_sub_le_of_norm_hasDerivWithin_le (f := Real.tanh) (f' := fun t => 1 - Real.tanh t ^ 2) (C := 1) (s := Set.univ) (x := y) (y := x)
    (fun t _ => (hasDerivAt_tanh t).hasDerivWithinAt) (fun t _ => ?_) convex_univ (Set.mem_univ _) (Set.mem_univ _)
  · simpa [Real.norm_eq_abs] using h
  · have h1 : Real.tanh t ^ 2 < 1 := by
      rw [Real.tanh_eq_sinh_div_cosh, div_pow, div_lt_one (by have := Real.cosh_pos t; positivity), Real.cosh_sq]
      linarith
    rw [Real.norm_eq_abs, abs_le]
    constructor <;> nlinarith [sq_nonneg (Real.tanh t)]

theorem tanh_abs_le_one (x : ℝ) : |Real.tanh x| ≤ 1 := by
  have h1 : Real.tanh x ^ 2 < 1 := by
    rw [Real.tanh_eq_sinh_div_cosh, div_pow, div_lt_one (by have := Real.cosh_pos x; positivity), Real.cosh_sq]
    linarith
  exact (abs_le_one_iff_mul_self_le_one).mpr (by nlinarith)

/-- A `tanh` of a slightly wrong argument. -/
theorem Spec.Rounding.tanh_near (h : Spec.Rounding F u v) {x y d : ℝ} (hd : |x - y| ≤ d) : |F.tanh x - Real.tanh y| ≤ v + d := by
  have h1 := h.terr x
  have h2 : v * |Real.tanh x| ≤ v * 1 := mul_le_mul_of_nonneg_left (tanh_abs_le_one x) h.v0
  have h3 := tanh_lipschitz x y
  have h4 := abs_add_le (F.tanh x - Real.tanh x) (Real.tanh x - Real.tanh y)
  rw [sub_add_sub_cancel] at h4
  linarith

/-- The argument `beta*(x - eta)` with two roundings. -/
theorem Spec.Rounding.arg_near (h : Spec.Rounding F u v) {x eta beta : ℝ} (hb : 0 < beta) (hx : |x - eta| ≤ 1) : |F.mul beta (F.sub x eta) - beta * (x - eta)| ≤ ((1 + u) ^ 2 - 1) * beta := by
  unfold Fl.mul Fl.sub
  have h1 := h.err (x - eta)
  have h2 := h.err (beta * F.rnd (x - eta))
  have h3 := h.rnd_abs_le (x - eta)
  have hu := h.u0
  rw [abs_mul, abs_of_pos hb] at h2
  have h4 : |beta * F.rnd (x - eta) - beta * (x - eta)| ≤ beta * u := by
    rw [← mul_sub, abs_mul, abs_of_pos hb]
    exact mul_le_mul_of_nonneg_left (h1.trans (mul_le_of_le_one_right hu hx)) hb.le
  have h5 : |F.rnd (x - eta)| ≤ 1 + u := h3.trans (mul_le_of_le_one_right (by linarith) hx)
  have h6 : u * (beta * |F.rnd (x - eta)|) ≤ u * (beta * (1 + u)) := mul_le_mul_of_nonneg_left (mul_le_mul_of_nonneg_left h5 hb.le) hu
  have h7 := abs_add_le (F.rnd (beta * F.rnd (x - eta)) - beta * F.rnd (x - eta)) (beta * F.rnd (x - eta) - beta * (x - eta))
  rw [sub_add_sub_cancel] at h7
  nlinarith

/-- The argument `beta*eta` with one rounding. -/
theorem Spec.Rounding.arg_eta (h : Spec.Rounding F u v) {eta beta : ℝ} (hb : 0 < beta) (h0 : 0 < eta) (h1 : eta < 1) : |F.mul beta eta - beta * eta| ≤ ((1 + u) ^ 2 - 1) * beta := by
  unfold Fl.mul
  have h2 := h.err (beta * eta)
  have hu := h.u0
  rw [abs_of_pos (mul_pos hb h0)] at h2
  have h3 : u * (beta * eta) ≤ u * (beta * 1) := mul_le_mul_of_nonneg_left (mul_le_mul_of_nonneg_left h1.le hb.le) hu
  nlinarith [mul_nonneg (mul_nonneg hu hu) hb.le, mul_nonneg hu hb.le]

/-- A rounded sum of two `tanh`s. -/
theorem Spec.Rounding.sum_near (h : Spec.Rounding F u v) {a b a' b' E : ℝ} (ha : |a' - a| ≤ E) (hb : |b' - b| ≤ E) (h1 : |a| ≤ 1) (h2 : |b| ≤ 1) : |F.add a' b' - (a + b)| ≤ 2 * ((1 + u) * E + u) := by
  unfold Fl.add
  have h3 := h.err (a' + b')
  have hs : |a' + b' - (a + b)| ≤ 2 * E := by
    have := abs_add_le (a' - a) (b' - b)
    rw [show a' - a + (b' - b) = a' + b' - (a + b) by ring] at this
    linarith
  have h4 : |a' + b'| ≤ 2 + 2 * E := by
    have e1 := abs_add_le (a' + b' - (a + b)) (a + b)
    rw [sub_add_cancel] at e1
    have e2 := abs_add_le a b
    linarith
  have h5 : u * |a' + b'| ≤ u * (2 + 2 * E) := mul_le_mul_of_nonneg_left h4 h.u0
  have h6 := abs_add_le (F.rnd (a' + b') - (a' + b')) (a' + b' - (a + b))
  rw [sub_add_sub_cancel] at h6
  linarith

/-- How far the rounded projection is from the exact one. -/
theorem C107_accuracy (h : Spec.Rounding F u v) {rhot eta beta : ℝ} (hb : 0 < beta) (h0 : 0 < eta) (h1 : eta < 1) (hr : F.rnd eta = eta) (hx : 0 ≤ rhot) (hx' : rhot ≤ 1) :
    |rhot2rhobFl F rhot eta beta - rhot2rhob rhot eta beta| ≤ u + 4 * ((1 + u) * (v + ((1 + u) ^ 2 - 1) * beta) + u) / (Real.tanh (beta * eta) + Real.tanh (beta * (1 - eta))) := by
  have hrange := C107_range h hb h0 h1 hr hx hx'
  have hends := C107_ends h hb h0 h1 hr
  have hd' := h.den_pos hb h0 h1
  set E := v + ((1 + u) ^ 2 - 1) * beta with hE
  have ea := h.tanh_near (h.arg_eta hb h0 h1)
  have ec := h.tanh_near (h.arg_near (x := rhot) (eta := eta) hb (abs_le.mpr ⟨by linarith, by linarith⟩))
  have e1 := h.tanh_near (h.arg_near (x := 1) (eta := eta) hb (abs_le.mpr ⟨by linarith, by linarith⟩))
  rw [← hE] at ea ec e1
  have n1 := h.sum_near ea ec (tanh_abs_le_one _) (tanh_abs_le_one _)
  have d1 := h.sum_near ea e1 (tanh_abs_le_one _) (tanh_abs_le_one _)
  have hd : 0 < Real.tanh (beta * eta) + Real.tanh (beta * (1 - eta)) := add_pos (tanh_pos (mul_pos hb h0)) (tanh_pos (mul_pos hb (by linarith)))
  have hnn : 0 ≤ F.add (F.tanh (F.mul beta eta)) (F.tanh (F.mul beta (F.sub rhot eta))) ∧ F.add (F.tanh (F.mul beta eta)) (F.tanh (F.mul beta (F.sub rhot eta))) ≤ F.add (F.tanh (F.mul beta eta)) (F.tanh (F.mul beta (F.sub 1 eta))) := by
    unfold Fl.add Fl.mul Fl.sub
    constructor
    · have : F.rnd (F.tanh (F.rnd (beta * eta)) + F.tanh (F.rnd (beta * F.rnd (0 - eta)))) = 0 := by rw [zero_sub, h.neg, hr, mul_neg, h.neg, h.tneg, add_neg_cancel, h.rnd_zero]
      rw [← this]
      exact h.mono (add_le_add_right (h.tmono (h.mono (mul_le_mul_of_nonneg_left (h.mono (by linarith)) hb.le))) _)
    · exact h.mono (add_le_add_right (h.tmono (h.mono (mul_le_mul_of_nonneg_left (h.mono (by linarith)) hb.le))) _)
  show |F.rnd (F.add (F.tanh (F.mul beta eta)) (F.tanh (F.mul beta (F.sub rhot eta))) / F.add (F.tanh (F.mul beta eta)) (F.tanh (F.mul beta (F.sub 1 eta)))) - (Real.tanh (beta * eta) + Real.tanh (beta * (rhot - eta))) / (Real.tanh (beta * eta) + Real.tanh (beta * (1 - eta)))| ≤ _
  generalize F.add (F.tanh (F.mul beta eta)) (F.tanh (F.mul beta (F.sub rhot eta))) = n' at *
  generalize F.add (F.tanh (F.mul beta eta)) (F.tanh (F.mul beta (F.sub 1 eta))) = d' at *
  generalize Real.tanh (beta * eta) + Real.tanh (beta * (rhot - eta)) = n at *
  generalize Real.tanh (beta * eta) + Real.tanh (beta * (1 - eta)) = d at *
  have q0 : 0 ≤ n' / d' := div_nonneg hnn.1 hd'.le
  have q1 : n' / d' ≤ 1 := (div_le_one hd').mpr hnn.2
  have r1 := h.err (n' / d')
  rw [abs_of_nonneg q0] at r1
  have r2 : u * (n' / d') ≤ u := mul_le_of_le_one_right h.u0 q1
  have key : n' / d' - n / d = ((n' - n) - n' / d' * (d' - d)) / d := by
    field_simp
    ring
  have r3 : |n' / d' - n / d| ≤ 4 * ((1 + u) * E + u) / d := by
    rw [key, abs_div, abs_of_pos hd]
    refine div_le_div_of_nonneg_right ?_ hd.le
    have s1 := abs_sub (n' - n) (n' / d' * (d' - d))
    rw [abs_mul, abs_of_nonneg q0] at s1
    have s2 : n' / d' * |d' - d| ≤ |d' - d| := mul_le_of_le_one_left (abs_nonneg _) q1
    linarith
  have r4 := abs_add_le (F.rnd (n' / d') - n' / d') (n' / d' - n / d)
  rw [sub_add_sub_cancel] at r4
  linarith

/-- How far the rounded permittivity of a density is from the exact one. -/
theorem C107_eps_accuracy (h : Spec.Rounding F u v) {rhob rhob' eps_m d : ℝ} (hm : 1 < eps_m) (hr1 : F.rnd (eps_m - 1) = eps_m - 1) (hx : 0 ≤ rhob') (hx' : rhob' ≤ 1) (hd : |rhob' - rhob| ≤ d) :
    |rhob2epsFl F rhob' eps_m - rhob2eps rhob eps_m| ≤ (d + u) * (eps_m - 1) + u * eps_m := by
  have hM : 0 < eps_m - 1 := by linarith
  unfold rhob2epsFl rhob2eps Fl.add Fl.mul Fl.sub
  rw [hr1]
  have a0 := h.rnd_nonneg (mul_nonneg hx hM.le)
  have a1 : F.rnd (rhob' * (eps_m - 1)) ≤ eps_m - 1 := by
    have := h.mono (mul_le_of_le_one_left hM.le hx')
    rwa [hr1] at this
  have a2 := h.err (rhob' * (eps_m - 1))
  rw [abs_of_nonneg (mul_nonneg hx hM.le)] at a2
  have a3 : u * (rhob' * (eps_m - 1)) ≤ u * (eps_m - 1) := mul_le_mul_of_nonneg_left (mul_le_of_le_one_left hM.le hx') h.u0
  have a4 : |rhob' * (eps_m - 1) - rhob * (eps_m - 1)| ≤ d * (eps_m - 1) := by
    rw [← sub_mul, abs_mul, abs_of_pos hM]
    exact mul_le_mul_of_nonneg_right hd hM.le
  have a5 := h.err (1 + F.rnd (rhob' * (eps_m - 1)))
  rw [abs_of_nonneg (show 0 ≤ 1 + F.rnd (rhob' * (eps_m - 1)) by linarith)] at a5
  have a6 : u * (1 + F.rnd (rhob' * (eps_m - 1))) ≤ u * eps_m := mul_le_mul_of_nonneg_left (by linarith) h.u0
  rw [abs_le] at *
  constructor <;> linarith [a2.1, a2.2, a4.1, a4.2, a5.1, a5.2]

theorem tanh_ge (x : ℝ) : 1 - 2 * Real.exp (-(2 * x)) ≤ Real.tanh x := by
  have hc := Real.cosh_pos x
  have e : Real.tanh x = 1 - Real.exp (-x) / Real.cosh x := by
    rw [Real.tanh_eq_sinh_div_cosh, Real.sinh_eq, Real.cosh_eq] at *
    field_simp
    ring
  have h2 : Real.exp (-x) / Real.cosh x ≤ 2 * Real.exp (-(2 * x)) := by
    rw [div_le_iff₀ hc, Real.cosh_eq]
    have e1 : Real.exp (-(2 * x)) * Real.exp x = Real.exp (-x) := by
      rw [← Real.exp_add]
      congr 1
      ring
    have e2 : 0 < Real.exp (-(2 * x)) * Real.exp (-x) := by positivity
    nlinarith
  linarith

theorem exp_neg_le {x : ℝ} (n : ℕ) (hx : (n : ℝ) ≤ x) : Real.exp (-x) ≤ (1 / 2.7) ^ n := by
  have h1 : (2.7 : ℝ) ^ n ≤ Real.exp x := by
    calc (2.7 : ℝ) ^ n ≤ Real.exp 1 ^ n := pow_le_pow_left₀ (by norm_num) (by linarith [Real.exp_one_gt_d9]) n
      _ = Real.exp n := by rw [← Real.exp_nat_mul, mul_one]
      _ ≤ Real.exp x := Real.exp_le_exp.mpr hx
  rw [Real.exp_neg, one_div, inv_pow]
  exact inv_anti₀ (by positivity) h1

/-- With the defaults `eta = 0.5` and `beta = 100`, in double precision, the projection is accurate to `1e-13`. -/
theorem C107_default {rhot : ℝ} (hx : 0 ≤ rhot) (hx' : rhot ≤ 1) : |rhot2rhobFl Spec.double rhot (1 / 2) 100 - rhot2rhob rhot (1 / 2) 100| ≤ 1 / 10 ^ 13 := by
  have hr : Spec.double.rnd (1 / 2) = 1 / 2 := rn_fix (by norm_num) ⟨1, -1, by norm_num, by norm_num⟩
  refine (C107_accuracy C107_double (by norm_num) (by norm_num) (by norm_num) hr hx hx').trans ?_
  have ht : 1 / 2 ≤ Real.tanh (100 * (1 / 2)) := by
    have h1 := tanh_ge (100 * (1 / 2))
    have h2 := exp_neg_le (x := 2 * (100 * (1 / 2))) 2 (by norm_num)
    have h3 : (1 / 2.7 : ℝ) ^ 2 ≤ 1 / 4 := by norm_num
    linarith
  have hd : 1 ≤ Real.tanh (100 * (1 / 2)) + Real.tanh (100 * (1 - 1 / 2)) := by
    rw [show (1 : ℝ) - 1 / 2 = 1 / 2 by norm_num]
    linarith
  refine (add_le_add_right (div_le_self (by positivity) hd) _).trans ?_
  norm_num

/-- In double precision the default projection saturates: filtered densities from 0.7 on give exactly 1, though the exact projection is below 1 before 1. -/
theorem C107_saturates {rhot : ℝ} (hx : 7 / 10 ≤ rhot) : rhot2rhobFl Spec.double rhot (1 / 2) 100 = 1 ∧ (rhot < 1 → rhot2rhob rhot (1 / 2) 100 < 1) := by
  have h := C107_double
  have hr : Spec.double.rnd (1 / 2) = 1 / 2 := rn_fix (by norm_num) ⟨1, -1, by norm_num, by norm_num⟩
  have sat : ∀ x : ℝ, 39 / 2 ≤ x → Spec.double.tanh x = 1 := by
    intro x hx
    refine rn_one_of_near (by norm_num) ?_ (abs_le.mp (tanh_abs_le_one x)).2
    have h1 := tanh_ge x
    have h2 := exp_neg_le (x := 2 * x) 39 (by push_cast; linarith)
    have h3 : 2 * (1 / 2.7 : ℝ) ^ 39 < (1 / 2) ^ 54 := by norm_num
    linarith
  constructor
  · have arg : ∀ y : ℝ, 7 / 10 ≤ y → 39 / 2 ≤ Spec.double.mul 100 (Spec.double.sub y (1 / 2)) := by
      intro y hy
      unfold Fl.mul Fl.sub
      have a1 := (abs_le.mp (h.err (y - 1 / 2))).1
      rw [abs_of_pos (by linarith)] at a1
      have a2 := (abs_le.mp (h.err (100 * Spec.double.rnd (y - 1 / 2)))).1
      have hu : ((1 : ℝ) / 2) ^ 53 ≤ 1 / 1000 := by norm_num
      have a3 : ((1 : ℝ) / 2) ^ 53 * (y - 1 / 2) ≤ 1 / 1000 * (y - 1 / 2) := mul_le_mul_of_nonneg_right hu (by linarith)
      have a4 : 199 / 1000 ≤ Spec.double.rnd (y - 1 / 2) := by linarith
      rw [abs_of_pos (by linarith)] at a2
      have a5 : ((1 : ℝ) / 2) ^ 53 * (100 * Spec.double.rnd (y - 1 / 2)) ≤ 1 / 1000 * (100 * Spec.double.rnd (y - 1 / 2)) := mul_le_mul_of_nonneg_right hu (by linarith)
      linarith
    unfold rhot2rhobFl
    rw [sat _ (arg rhot hx), sat _ (arg 1 (by norm_num))]
    show Spec.double.rnd (_ / _) = 1
    have hp : 0 < Spec.double.add (Spec.double.tanh (Spec.double.mul 100 (1 / 2))) 1 := by
      refine h.rnd_pos (add_pos_of_nonneg_of_pos (h.tanh_pos (h.rnd_pos (by norm_num))).le one_pos)
    rw [div_self hp.ne', h.one]
  · intro hx'
    have hd : 0 < Real.tanh (100 * (1 / 2)) + Real.tanh (100 * (1 - 1 / 2)) := add_pos (tanh_pos (by norm_num)) (tanh_pos (by norm_num))
    have : Real.tanh (100 * (rhot - 1 / 2)) < Real.tanh (100 * (1 - 1 / 2)) := tanh_strictMono (by linarith)
    show (_ : ℝ) / _ < 1
    rw [div_lt_one hd]
    linarith

/-- An order of additions: numpy adds in blocks, by halves, or one by one. -/
inductive Spec.SumTree where
  | leaf (x : ℝ)
  | node (l r : Spec.SumTree)

namespace Spec.SumTree

/-- The sum with every addition rounded. -/
def fl (F : Fl) : Spec.SumTree → ℝ
  | leaf x => x
  | node l r => F.add (fl F l) (fl F r)

/-- The exact sum. -/
def exact : Spec.SumTree → ℝ
  | leaf x => x
  | node l r => exact l + exact r

/-- The sum of the absolute values. -/
def size : Spec.SumTree → ℝ
  | leaf x => |x|
  | node l r => size l + size r

/-- The largest number of additions a term goes through. -/
def depth : Spec.SumTree → ℕ
  | leaf _ => 0
  | node l r => max (depth l) (depth r) + 1

theorem abs_exact_le : ∀ t : Spec.SumTree, |t.exact| ≤ t.size
  | leaf _ => le_rfl
  | node l r => (abs_add_le _ _).trans (add_le_add (abs_exact_le l) (abs_exact_le r))

end Spec.SumTree

/-- Rounded summation in any order. -/
theorem C107_sum (h : Spec.Rounding F u v) : ∀ t : Spec.SumTree, |t.fl F - t.exact| ≤ ((1 + u) ^ t.depth - 1) * t.size
  | .leaf x => by simp [Spec.SumTree.fl, Spec.SumTree.exact, Spec.SumTree.depth]
  | .node l r => by
    have hl := C107_sum h l
    have hr := C107_sum h r
    have hu := h.u0
    have sl := l.abs_exact_le
    have sr := r.abs_exact_le
    have pl : (1 + u) ^ l.depth ≤ (1 + u) ^ (max l.depth r.depth) := pow_le_pow_right₀ (by linarith) (le_max_left _ _)
    have pr : (1 + u) ^ r.depth ≤ (1 + u) ^ (max l.depth r.depth) := pow_le_pow_right₀ (by linarith) (le_max_right _ _)
    show |F.rnd (l.fl F + r.fl F) - (l.exact + r.exact)| ≤ ((1 + u) ^ (max l.depth r.depth + 1) - 1) * (l.size + r.size)
    rw [pow_succ]
    generalize (1 + u) ^ (max l.depth r.depth) = P at *
    have zl : 0 ≤ l.size := (abs_nonneg _).trans sl
    have zr : 0 ≤ r.size := (abs_nonneg _).trans sr
    have hl' : |l.fl F - l.exact| ≤ (P - 1) * l.size := hl.trans (mul_le_mul_of_nonneg_right (by linarith) zl)
    have hr' : |r.fl F - r.exact| ≤ (P - 1) * r.size := hr.trans (mul_le_mul_of_nonneg_right (by linarith) zr)
    generalize l.fl F = a' at *
    generalize r.fl F = b' at *
    generalize l.exact = a at *
    generalize r.exact = b at *
    have e := h.err (a' + b')
    have d1 : |a' + b' - (a + b)| ≤ (P - 1) * (l.size + r.size) := by
      have := abs_add_le (a' - a) (b' - b)
      rw [show a' - a + (b' - b) = a' + b' - (a + b) by ring] at this
      linarith
    have d2 : |a' + b'| ≤ P * (l.size + r.size) := by
      have e1 := abs_add_le (a' + b' - (a + b)) (a + b)
      rw [sub_add_cancel] at e1
      have e2 := abs_add_le a b
      linarith
    have d3 : u * |a' + b'| ≤ u * (P * (l.size + r.size)) := mul_le_mul_of_nonneg_left d2 hu
    have d4 := abs_add_le (F.rnd (a' + b') - (a' + b')) (a' + b' - (a + b))
    rw [sub_add_sub_cancel] at d4
    linarith

/-- The tree of a running sum, and that of one row of a sparse product. -/
theorem rowDot_tree (F : Fl) (row : List (ℝ × ℝ)) (t : Spec.SumTree) :
    ∃ t' : Spec.SumTree, row.foldl (fun sum wx => F.add sum (F.mul wx.1 wx.2)) (t.fl F) = t'.fl F ∧ t'.exact = t.exact + (row.map fun wx => F.mul wx.1 wx.2).sum ∧ t'.size = t.size + (row.map fun wx => |F.mul wx.1 wx.2|).sum ∧ t'.depth ≤ t.depth + row.length := by
  induction row generalizing t with
  | nil => exact ⟨t, rfl, by simp, by simp, by simp⟩
  | cons wx row ih =>
    obtain ⟨t', e1, e2, e3, e4⟩ := ih (.node t (.leaf (F.mul wx.1 wx.2)))
    refine ⟨t', e1, ?_, ?_, ?_⟩
    · rw [e2]
      simp only [Spec.SumTree.exact, List.map_cons, List.sum_cons]
      ring
    · rw [e3]
      simp only [Spec.SumTree.size, List.map_cons, List.sum_cons]
      ring
    · refine e4.trans ?_
      simp only [Spec.SumTree.depth, List.length_cons]
      omega

/-- The rounded filtered density of one pixel: with `n` pixels under the cone the error is at most `(1+u)^(n+1) - 1` of the sum of the absolute terms. -/
theorem C107_filter (h : Spec.Rounding F u v) (row : List (ℝ × ℝ)) :
    |rowDotFl F row - (row.map fun wx => wx.1 * wx.2).sum| ≤ ((1 + u) ^ (row.length + 1) - 1) * (row.map fun wx => |wx.1 * wx.2|).sum := by
  obtain ⟨t, e1, e2, e3, e4⟩ := rowDot_tree F row (.leaf 0)
  have hs := C107_sum h t
  have hu := h.u0
  rw [← e1, e2, e3] at hs
  simp only [Spec.SumTree.exact, Spec.SumTree.size, abs_zero, zero_add, Spec.SumTree.fl] at hs
  have e4' : t.depth ≤ row.length := by simpa [Spec.SumTree.depth] using e4
  have p1 : (1 + u) ^ t.depth ≤ (1 + u) ^ row.length := pow_le_pow_right₀ (by linarith) e4'
  have p0 : 1 ≤ (1 + u) ^ row.length := one_le_pow₀ (by linarith)
  have q1 : |(row.map fun wx => F.mul wx.1 wx.2).sum - (row.map fun wx => wx.1 * wx.2).sum| ≤ u * (row.map fun wx => |wx.1 * wx.2|).sum := by
    clear hs e1 e2 e3 e4 e4' p1 p0
    induction row with
    | nil => simp
    | cons a r ih =>
      simp only [List.map_cons, List.sum_cons]
      have e : |F.mul a.1 a.2 - a.1 * a.2| ≤ u * |a.1 * a.2| := h.err _
      rw [abs_le] at e ih ⊢
      constructor <;> linarith [e.1, e.2, ih.1, ih.2]
  have q2 : (row.map fun wx => |F.mul wx.1 wx.2|).sum ≤ (1 + u) * (row.map fun wx => |wx.1 * wx.2|).sum := by
    clear hs e1 e2 e3 e4 e4' p1 p0 q1
    induction row with
    | nil => simp
    | cons a r ih =>
      simp only [List.map_cons, List.sum_cons]
      have e : |F.mul a.1 a.2| ≤ (1 + u) * |a.1 * a.2| := h.rnd_abs_le _
      linarith
  have z1 : 0 ≤ (row.map fun wx => |F.mul wx.1 wx.2|).sum := List.sum_nonneg (by simp only [List.mem_map]; rintro _ ⟨a, -, rfl⟩; exact abs_nonneg _)
  have z2 : 0 ≤ (row.map fun wx => |wx.1 * wx.2|).sum := List.sum_nonneg (by simp only [List.mem_map]; rintro _ ⟨a, -, rfl⟩; exact abs_nonneg _)
  rw [pow_succ]
  unfold rowDotFl
  generalize (1 + u) ^ row.length = P at *
  have s1 : ((1 + u) ^ t.depth - 1) * (row.map fun wx => |F.mul wx.1 wx.2|).sum ≤ (P - 1) * ((1 + u) * (row.map fun wx => |wx.1 * wx.2|).sum) :=
    (mul_le_mul_of_nonneg_right (by linarith) z1).trans (mul_le_mul_of_nonneg_left q2 (by linarith))
  have s2 := abs_add_le (row.foldl (fun sum wx => F.add sum (F.mul wx.1 wx.2)) 0 - (row.map fun wx => F.mul wx.1 wx.2).sum) ((row.map fun wx => F.mul wx.1 wx.2).sum - (row.map fun wx => wx.1 * wx.2).sum)
  rw [sub_add_sub_cancel] at s2
  linarith

/-- The rounded filtered density of densities between 0 and 1, under weights that are not negative and sum to at most 1, is not negative and exceeds 1 by rounding errors at most. -/
theorem C107_filter_range (h : Spec.Rounding F u v) (row : List (ℝ × ℝ)) (hw : ∀ wx ∈ row, 0 ≤ wx.1 ∧ 0 ≤ wx.2 ∧ wx.2 ≤ 1) (hs : (row.map Prod.fst).sum ≤ 1) :
    0 ≤ rowDotFl F row ∧ rowDotFl F row ≤ (1 + u) ^ (row.length + 1) := by
  have hu := h.u0
  constructor
  · have key : ∀ (r : List (ℝ × ℝ)) (a : ℝ), (∀ wx ∈ r, 0 ≤ wx.1 ∧ 0 ≤ wx.2 ∧ wx.2 ≤ 1) → 0 ≤ a → 0 ≤ r.foldl (fun sum wx => F.add sum (F.mul wx.1 wx.2)) a := by
      intro r
      induction r with
      | nil => exact fun a _ ha => ha
      | cons b r ih =>
        intro a hr ha
        have hb := hr b (by simp)
        exact ih _ (fun wx hwx => hr wx (by simp [hwx])) (h.rnd_nonneg (add_nonneg ha (h.rnd_nonneg (mul_nonneg hb.1 hb.2.1))))
    exact key row 0 hw le_rfl
  · have h1 := C107_filter h row
    have h2 : (row.map fun wx => |wx.1 * wx.2|).sum = (row.map fun wx => wx.1 * wx.2).sum := by
      congr 1
      refine List.map_congr_left fun wx hwx => abs_of_nonneg (mul_nonneg (hw wx hwx).1 (hw wx hwx).2.1)
    have h3 : (row.map fun wx => wx.1 * wx.2).sum ≤ (row.map Prod.fst).sum := List.sum_le_sum fun wx hwx => mul_le_of_le_one_right (hw wx hwx).1 (hw wx hwx).2.2
    have h4 := (abs_le.mp h1).2
    rw [h2] at h4
    have p0 : 1 ≤ (1 + u) ^ (row.length + 1) := one_le_pow₀ (by linarith)
    generalize (row.map fun wx => wx.1 * wx.2).sum = S at *
    have h5 : (1 + u) ^ (row.length + 1) * S ≤ (1 + u) ^ (row.length + 1) * 1 := mul_le_mul_of_nonneg_left (by linarith) (by linarith)
    linarith

/-- With the defaults, in double precision, the overshoot of the filter is harmless: the projected density stays between 0 and 1. -/
theorem C107_default_range {rhot : ℝ} (hx : 0 ≤ rhot) : 0 ≤ rhot2rhobFl Spec.double rhot (1 / 2) 100 ∧ rhot2rhobFl Spec.double rhot (1 / 2) 100 ≤ 1 := by
  have hr : Spec.double.rnd (1 / 2) = 1 / 2 := rn_fix (by norm_num) ⟨1, -1, by norm_num, by norm_num⟩
  rcases le_total (7 / 10) rhot with h | h
  · rw [(C107_saturates h).1]
    norm_num
  · exact C107_range C107_double (by norm_num) (by norm_num) (by norm_num) hr hx (by linarith)

/-- Weights and densities of a full cone: doubles that sum to one exactly. -/
noncomputable def fullRow : List (ℝ × ℝ) := [(1 / 2, 1), (3 / 2 ^ 55, 1), (3 / 2 ^ 55, 1), (3 / 2 ^ 55, 1), (3 / 2 ^ 55, 1), (3 / 2 ^ 55, 1), (3 / 2 ^ 55, 1), (1 / 2 - 9 / 2 ^ 54, 1)]

/-- That the rounded filter keeps densities below 1 is false: here the exact filtered density is 1 and the rounded one is the next double. -/
theorem C107_filter_false : (∀ wx ∈ fullRow, 0 ≤ wx.1 ∧ wx.2 = 1 ∧ Spec.double.rnd wx.1 = wx.1) ∧ (fullRow.map Prod.fst).sum = 1 ∧ rowDotFl Spec.double fullRow = 1 + 1 / 2 ^ 52 := by
  have w1 : Spec.double.rnd (1 / 2) = 1 / 2 := rn_fix (by norm_num) ⟨1, -1, by norm_num, by norm_num⟩
  have w2 : Spec.double.rnd (3 / 2 ^ 55) = 3 / 2 ^ 55 := rn_fix (by norm_num) ⟨3, -55, by norm_num, by norm_num⟩
  have w3 : Spec.double.rnd (1 / 2 - 9 / 2 ^ 54) = 1 / 2 - 9 / 2 ^ 54 := rn_fix (by norm_num) ⟨2 ^ 53 - 9, -54, by norm_num, by norm_num⟩
  refine ⟨?_, ?_, ?_⟩
  · intro wx hwx
    simp only [fullRow, List.mem_cons, List.not_mem_nil, or_false] at hwx
    rcases hwx with rfl | rfl | rfl | rfl | rfl | rfl | rfl | rfl
    · exact ⟨by norm_num, rfl, w1⟩
    iterate 6 exact ⟨by norm_num, rfl, w2⟩
    · exact ⟨by norm_num, rfl, w3⟩
  · norm_num [fullRow]
  · have up : ∀ k : ℤ, 0 ≤ k → k ≤ 10 → Spec.double.rnd (1 / 2 + k / 2 ^ 53 + 3 / 2 ^ 55) = 1 / 2 + (k + 1) / 2 ^ 53 := by
      intro k h0 h1
      have h0' : (0 : ℝ) ≤ k := by exact_mod_cast h0
      have h1' : (k : ℝ) ≤ 10 := by exact_mod_cast h1
      have e := rn_nearest (p := 53) (by norm_num) (x := 1 / 2 + (k : ℝ) / 2 ^ 53 + 3 / 2 ^ 55) (k := 2 ^ 52 + k + 1) (t := -53)
        (by norm_num; linarith) (by norm_num; linarith) (by rw [abs_lt]; norm_num; constructor <;> linarith)
      refine (show Spec.double.rnd _ = _ from e).trans ?_
      push_cast
      norm_num
      ring
    have last : Spec.double.rnd (1 / 2 + 6 / 2 ^ 53 + (1 / 2 - 9 / 2 ^ 54)) = 1 + 1 / 2 ^ 52 := by
      have e := rn_nearest (p := 53) (by norm_num) (x := 1 / 2 + 6 / 2 ^ 53 + (1 / 2 - 9 / 2 ^ 54)) (k := 2 ^ 52 + 1) (t := -52)
        (by norm_num) (by norm_num) (by rw [abs_lt]; norm_num)
      refine (show Spec.double.rnd _ = _ from e).trans ?_
      norm_num
    have u0 := up 0 (by norm_num) (by norm_num)
    have u1 := up 1 (by norm_num) (by norm_num)
    have u2 := up 2 (by norm_num) (by norm_num)
    have u3 := up 3 (by norm_num) (by norm_num)
    have u4 := up 4 (by norm_num) (by norm_num)
    have u5 := up 5 (by norm_num) (by norm_num)
    simp only [Int.cast_zero, Int.cast_one, Int.cast_ofNat, zero_div, add_zero, zero_add] at u0 u1 u2 u3 u4 u5
    rw [show (1 : ℝ) + 1 = 2 by norm_num] at u1
    rw [show (2 : ℝ) + 1 = 3 by norm_num] at u2
    rw [show (3 : ℝ) + 1 = 4 by norm_num] at u3
    rw [show (4 : ℝ) + 1 = 5 by norm_num] at u4
    rw [show (5 : ℝ) + 1 = 6 by norm_num] at u5
    unfold rowDotFl fullRow Fl.add Fl.mul
    simp only [List.foldl_cons, List.foldl_nil, mul_one, zero_add, w1, w2, w3, u0, u1, u2, u3, u4, u5, last]

/-- A row of four equal weights under a half-filled cone. -/
example : 0 ≤ rowDotFl Spec.double [(1 / 4, 1), (1 / 4, 1), (1 / 4, 0), (1 / 4, 0)] :=
  (C107_filter_range C107_double _ (by simp) (by norm_num)).1

/-- Silicon in double precision: the permittivity 12.25 and the level 0.5 are doubles. -/
example {rhot : ℝ} (hx : 0 ≤ rhot) (hx' : rhot ≤ 1) : 1 ≤ rhob2epsFl Spec.double (rhot2rhobFl Spec.double rhot (1 / 2) 100) (49 / 4) ∧ rhob2epsFl Spec.double (rhot2rhobFl Spec.double rhot (1 / 2) 100) (49 / 4) ≤ 49 / 4 := by
  have hr : Spec.double.rnd (1 / 2) = 1 / 2 := rn_fix (by norm_num) ⟨1, -1, by norm_num, by norm_num⟩
  have hm : Spec.double.rnd (49 / 4) = 49 / 4 := rn_fix (by norm_num) ⟨49, -2, by norm_num, by norm_num⟩
  have r := C107_range C107_double (beta := 100) (by norm_num) (by norm_num) (by norm_num) hr hx hx'
  have e := C107_eps C107_double (by norm_num) hm (C107_double_eps (by norm_num) (by norm_num) hm) r.1 r.2
  exact ⟨e.1, e.2.1⟩

example : rhot2rhobFl Spec.double (3 / 4) (1 / 2) 100 = 1 := (C107_saturates (by norm_num)).1

end Angler
