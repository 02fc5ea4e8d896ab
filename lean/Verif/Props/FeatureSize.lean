import Verif.Lemmas.ConeSteps
import Verif.Lemmas.Gradient
import Verif.Props.Projection
import Mathlib.Algebra.BigOperators.Field
import Mathlib.Analysis.Calculus.MeanValue

/-! # C102 — the filter limits how fast the design can change: neighbouring pixels, distances, minimum widths -/

namespace Angler

open Matrix

variable {Nx Ny : ℕ}

/-- A pixel all of whose neighbours within the filter radius are visited by `get_W`. -/
def Spec.CorePixel (Nx Ny : ℕ) (NPML : ℕ × ℕ) (R i j : ℕ) : Prop :=
  (2 * R + NPML.1 ≤ i ∧ i + 2 * R + NPML.1 < Nx) ∧ (2 * R + NPML.2 ≤ j ∧ j + 2 * R + NPML.2 < Ny)

/-- A density between 0 and 1. -/
def Spec.UnitDensity (rho : Grid Nx Ny ℝ) : Prop := ∀ i j, 0 ≤ rho i j ∧ rho i j ≤ 1

/-- The filtered density of a core pixel of the design region is the weighted mean with the cone kernel. -/
theorem rhot_core {NPML : ℕ × ℕ} {R : ℕ} {design : Grid Nx Ny ℝ} {W : Mat (Nx * Ny) ℝ} (hR : 1 ≤ R) (h1 : 1 ≤ NPML.1) (h2 : 1 ≤ NPML.2) (hW : get_W Nx Ny design NPML R = .ok W) (rho : Grid Nx Ny ℝ)
    (i : Fin Nx) (j : Fin Ny) (hc : Spec.CorePixel Nx Ny NPML R i j) (hd : design i j = 1) :
    rho2rhot rho W i j = (∑ i' : Fin Nx, ∑ j' : Fin Ny, Spec.cone R ((i' : ℤ) - i) ((j' : ℤ) - j) * rho i' j') / Spec.coneSum R := by
  obtain ⟨W', hW', hent⟩ := get_W_interior (Nx := Nx) (Ny := Ny) (NPML := NPML) (R := R) design h1 h2 hR
  have : W' = W := by
    rw [hW] at hW'
    exact (Except.ok.inj hW').symm
  subst this
  obtain ⟨⟨c1, c2⟩, c3, c4⟩ := hc
  have hint : Interior Nx Ny NPML R i j := ⟨⟨by omega, by omega⟩, ⟨by omega, by omega⟩⟩
  rw [rho2rhot_apply, Finset.sum_div]
  refine Finset.sum_congr rfl fun i' _ => ?_
  rw [Finset.sum_div]
  refine Finset.sum_congr rfl fun j' _ => ?_
  rw [hent, hd, if_pos hint, sub_self, ite_self, add_zero, one_mul]
  by_cases h0 : Spec.cone R ((i' : ℤ) - i) ((j' : ℤ) - j) = 0
  · rw [h0]
    simp
  · have hs := cone_support (lt_of_le_of_ne (cone_nonneg _ _ _) (Ne.symm h0))
    rw [abs_lt, abs_lt] at hs
    rw [if_pos (show Interior Nx Ny NPML R i' j' from ⟨⟨by omega, by omega⟩, ⟨by omega, by omega⟩⟩)]
    ring

theorem rate_le (R : ℕ) (hR : 1 ≤ R) : (R : ℝ) ^ 2 / Spec.coneSum R ≤ 3 * R / (2 * (R : ℝ) ^ 2 + 1) := by
  have hRr : (1 : ℝ) ≤ R := by exact_mod_cast hR
  have h := coneSum_ge R
  rw [div_le_div_iff₀ (coneSum_pos hR) (by positivity)]
  have h2 := mul_le_mul_of_nonneg_left h (by positivity : (0 : ℝ) ≤ 3 * R)
  nlinarith

/-- **C102, neighbours.** For densities between 0 and 1 the filtered densities of two neighbouring design pixels (with the filter's neighbourhood inside the visited pixels) differ by at most
`R²/coneSum R ≤ 3R/(2R² + 1)`. -/
theorem C102_step (design : Grid Nx Ny ℝ) (NPML : ℕ × ℕ) (R : ℕ) (hR : 1 ≤ R) (h1 : 1 ≤ NPML.1) (h2 : 1 ≤ NPML.2) (W : Mat (Nx * Ny) ℝ) (hW : get_W Nx Ny design NPML R = .ok W)
    (rho : Grid Nx Ny ℝ) (hrho : Spec.UnitDensity rho) (i i' : Fin Nx) (j j' : Fin Ny) (hc : Spec.CorePixel Nx Ny NPML R i j) (hc' : Spec.CorePixel Nx Ny NPML R i' j')
    (hd : design i j = 1) (hd' : design i' j' = 1) (hadj : ((i' : ℕ) = i + 1 ∧ j' = j) ∨ (i' = i ∧ (j' : ℕ) = j + 1)) :
    |rho2rhot rho W i' j' - rho2rhot rho W i j| ≤ (R : ℝ) ^ 2 / Spec.coneSum R ∧ (R : ℝ) ^ 2 / Spec.coneSum R ≤ 3 * R / (2 * (R : ℝ) ^ 2 + 1) := by
  refine ⟨?_, rate_le R hR⟩
  have hS := coneSum_pos hR
  rw [rhot_core hR h1 h2 hW rho i j hc hd, rhot_core hR h1 h2 hW rho i' j' hc' hd', ← sub_div, abs_div, abs_of_pos hS]
  refine div_le_div_of_nonneg_right ?_ hS.le
  obtain ⟨⟨c1, c2⟩, c3, c4⟩ := hc
  obtain ⟨⟨d1, d2⟩, d3, d4⟩ := hc'
  rcases hadj with ⟨hi, rfl⟩ | ⟨rfl, hj⟩
  · exact step_core R i i' hi j' (by omega) (by omega) (by omega) (by omega) rho hrho
  · have := step_core R j j' hj i' (by omega) (by omega) (by omega) (by omega) (fun b a => rho a b) (fun b a => hrho a b)
    rw [Finset.sum_comm, Finset.sum_comm (s := (Finset.univ : Finset (Fin Nx)))]
    simp only [cone_comm R _ ((_ : ℤ) - (i' : ℤ))] at this
    exact this

/-- **C102, the bound is attained**: a straight edge gives exactly `R²/coneSum R`. -/
theorem C102_sharp (design : Grid Nx Ny ℝ) (NPML : ℕ × ℕ) (R : ℕ) (hR : 1 ≤ R) (h1 : 1 ≤ NPML.1) (h2 : 1 ≤ NPML.2) (W : Mat (Nx * Ny) ℝ) (hW : get_W Nx Ny design NPML R = .ok W)
    (i i' : Fin Nx) (j : Fin Ny) (hc : Spec.CorePixel Nx Ny NPML R i j) (hc' : Spec.CorePixel Nx Ny NPML R i' j) (hd : design i j = 1) (hd' : design i' j = 1) (hi : (i' : ℕ) = i + 1) :
    ∃ rho : Grid Nx Ny ℝ, (∀ a b, rho a b = 0 ∨ rho a b = 1) ∧ rho2rhot rho W i' j - rho2rhot rho W i j = (R : ℝ) ^ 2 / Spec.coneSum R := by
  refine ⟨fun a _ => if (i : ℤ) < a then 1 else 0, fun a b => ?_, ?_⟩
  · by_cases h : (i : ℤ) < a
    · exact Or.inr (if_pos h)
    · exact Or.inl (if_neg h)
  rw [rhot_core hR h1 h2 hW _ i j hc hd, rhot_core hR h1 h2 hW _ i' j hc' hd', ← sub_div]
  congr 1
  obtain ⟨⟨c1, c2⟩, c3, c4⟩ := hc
  have hi' : ((i' : ℕ) : ℤ) = (i : ℤ) + 1 := by omega
  rw [← side_weight R i j (by omega) (by omega) (by omega) (by omega), hi', ← Finset.sum_sub_distrib]
  refine Finset.sum_congr rfl fun a _ => ?_
  rw [← Finset.sum_sub_distrib]
  refine Finset.sum_congr rfl fun b _ => ?_
  split_ifs
  · ring
  · ring

theorem chain_le (f : ℕ → ℝ) (c : ℝ) (a n : ℕ) (h : ∀ k, a ≤ k → k < a + n → |f (k + 1) - f k| ≤ c) : |f (a + n) - f a| ≤ c * n := by
  induction n with
  | zero => simp
  | succ n ih =>
    have e1 := ih fun k h1 h2 => h k h1 (by omega)
    have e2 := h (a + n) (by omega) (by omega)
    have e3 := abs_add_le (f (a + n + 1) - f (a + n)) (f (a + n) - f a)
    rw [show f (a + n + 1) - f (a + n) + (f (a + n) - f a) = f (a + (n + 1)) - f a by rw [← add_assoc]; ring] at e3
    push_cast
    linarith

/-- The distance of two pixels along the axes. -/
def Spec.gridDist (i i' : Fin Nx) (j j' : Fin Ny) : ℝ := |((i' : ℕ) : ℝ) - ((i : ℕ) : ℝ)| + |((j' : ℕ) : ℝ) - ((j : ℕ) : ℝ)|

/-- The pixels of the box spanned by two pixels. -/
def Spec.InBox (i i' : Fin Nx) (j j' : Fin Ny) (a : Fin Nx) (b : Fin Ny) : Prop :=
  (min i i' ≤ a ∧ a ≤ max i i') ∧ (min j j' ≤ b ∧ b ≤ max j j')

theorem axis_x {NPML : ℕ × ℕ} {R : ℕ} {design : Grid Nx Ny ℝ} {W : Mat (Nx * Ny) ℝ} (hR : 1 ≤ R) (h1 : 1 ≤ NPML.1) (h2 : 1 ≤ NPML.2) (hW : get_W Nx Ny design NPML R = .ok W) (rho : Grid Nx Ny ℝ)
    (hrho : Spec.UnitDensity rho) (i i' : Fin Nx) (j : Fin Ny) (hii : i ≤ i') (hc : Spec.CorePixel Nx Ny NPML R i j) (hc' : Spec.CorePixel Nx Ny NPML R i' j)
    (hd : ∀ a : Fin Nx, i ≤ a → a ≤ i' → design a j = 1) :
    |rho2rhot rho W i' j - rho2rhot rho W i j| ≤ 3 * R / (2 * (R : ℝ) ^ 2 + 1) * |((i' : ℕ) : ℝ) - ((i : ℕ) : ℝ)| := by
  have hle : (i : ℕ) ≤ i' := hii
  obtain ⟨n, hn⟩ := Nat.exists_eq_add_of_le hle
  have key := chain_le (fun k => if h : k < Nx then rho2rhot rho W ⟨k, h⟩ j else 0) (3 * R / (2 * (R : ℝ) ^ 2 + 1)) i n fun k hk1 hk2 => by
    have hi' := i'.isLt
    have a1 : k + 1 < Nx := by omega
    have a2 : k < Nx := by omega
    rw [dif_pos a1, dif_pos a2]
    obtain ⟨⟨c1, c2⟩, c3, c4⟩ := hc
    obtain ⟨⟨d1, d2⟩, d3, d4⟩ := hc'
    have := C102_step design NPML R hR h1 h2 W hW rho hrho ⟨k, a2⟩ ⟨k + 1, a1⟩ j j ⟨⟨by simp only; omega, by simp only; omega⟩, c3, c4⟩ ⟨⟨by simp only; omega, by simp only; omega⟩, c3, c4⟩
      (hd _ (by rw [Fin.le_def]; exact hk1) (by rw [Fin.le_def]; simp only; omega)) (hd _ (by rw [Fin.le_def]; simp only; omega) (by rw [Fin.le_def]; simp only; omega)) (Or.inl ⟨rfl, rfl⟩)
    exact this.1.trans this.2
  beta_reduce at key
  rw [← hn, dif_pos i'.isLt, dif_pos i.isLt] at key
  have e : |((i' : ℕ) : ℝ) - ((i : ℕ) : ℝ)| = n := by
    rw [hn]
    push_cast
    rw [add_sub_cancel_left, abs_of_nonneg (Nat.cast_nonneg n)]
  rw [e]
  exact key

theorem axis_y {NPML : ℕ × ℕ} {R : ℕ} {design : Grid Nx Ny ℝ} {W : Mat (Nx * Ny) ℝ} (hR : 1 ≤ R) (h1 : 1 ≤ NPML.1) (h2 : 1 ≤ NPML.2) (hW : get_W Nx Ny design NPML R = .ok W) (rho : Grid Nx Ny ℝ)
    (hrho : Spec.UnitDensity rho) (i : Fin Nx) (j j' : Fin Ny) (hjj : j ≤ j') (hc : Spec.CorePixel Nx Ny NPML R i j) (hc' : Spec.CorePixel Nx Ny NPML R i j')
    (hd : ∀ b : Fin Ny, j ≤ b → b ≤ j' → design i b = 1) :
    |rho2rhot rho W i j' - rho2rhot rho W i j| ≤ 3 * R / (2 * (R : ℝ) ^ 2 + 1) * |((j' : ℕ) : ℝ) - ((j : ℕ) : ℝ)| := by
  have hle : (j : ℕ) ≤ j' := hjj
  obtain ⟨n, hn⟩ := Nat.exists_eq_add_of_le hle
  have key := chain_le (fun k => if h : k < Ny then rho2rhot rho W i ⟨k, h⟩ else 0) (3 * R / (2 * (R : ℝ) ^ 2 + 1)) j n fun k hk1 hk2 => by
    have hj' := j'.isLt
    have a1 : k + 1 < Ny := by omega
    have a2 : k < Ny := by omega
    rw [dif_pos a1, dif_pos a2]
    obtain ⟨⟨c1, c2⟩, c3, c4⟩ := hc
    obtain ⟨⟨d1, d2⟩, d3, d4⟩ := hc'
    have := C102_step design NPML R hR h1 h2 W hW rho hrho i i ⟨k, a2⟩ ⟨k + 1, a1⟩ ⟨⟨c1, c2⟩, by simp only; omega, by simp only; omega⟩ ⟨⟨c1, c2⟩, by simp only; omega, by simp only; omega⟩
      (hd _ (by rw [Fin.le_def]; exact hk1) (by rw [Fin.le_def]; simp only; omega)) (hd _ (by rw [Fin.le_def]; simp only; omega) (by rw [Fin.le_def]; simp only; omega)) (Or.inr ⟨rfl, rfl⟩)
    exact this.1.trans this.2
  beta_reduce at key
  rw [← hn, dif_pos j'.isLt, dif_pos j.isLt] at key
  have e : |((j' : ℕ) : ℝ) - ((j : ℕ) : ℝ)| = n := by
    rw [hn]
    push_cast
    rw [add_sub_cancel_left, abs_of_nonneg (Nat.cast_nonneg n)]
  rw [e]
  exact key

/-- **C102, distances.** Over a box of design pixels the filtered density is Lipschitz in the pixel distance, with constant `3R/(2R² + 1)`. -/
theorem C102_distance (design : Grid Nx Ny ℝ) (NPML : ℕ × ℕ) (R : ℕ) (hR : 1 ≤ R) (h1 : 1 ≤ NPML.1) (h2 : 1 ≤ NPML.2) (W : Mat (Nx * Ny) ℝ) (hW : get_W Nx Ny design NPML R = .ok W)
    (rho : Grid Nx Ny ℝ) (hrho : Spec.UnitDensity rho) (i i' : Fin Nx) (j j' : Fin Ny) (hc : Spec.CorePixel Nx Ny NPML R i j) (hc' : Spec.CorePixel Nx Ny NPML R i' j')
    (hd : ∀ a b, Spec.InBox i i' j j' a b → design a b = 1) :
    |rho2rhot rho W i' j' - rho2rhot rho W i j| ≤ 3 * R / (2 * (R : ℝ) ^ 2 + 1) * Spec.gridDist i i' j j' := by
  have hm : Spec.CorePixel Nx Ny NPML R i' j := ⟨hc'.1, hc.2⟩
  have e1 : |rho2rhot rho W i' j - rho2rhot rho W i j| ≤ 3 * R / (2 * (R : ℝ) ^ 2 + 1) * |((i' : ℕ) : ℝ) - ((i : ℕ) : ℝ)| := by
    rcases le_total i i' with h | h
    · exact axis_x hR h1 h2 hW rho hrho i i' j h hc hm fun a ha hb => hd a j ⟨⟨le_trans (min_le_left _ _) ha, le_trans hb (le_max_right _ _)⟩, min_le_left _ _, le_max_left _ _⟩
    · rw [abs_sub_comm, abs_sub_comm ((i' : ℕ) : ℝ)]
      exact axis_x hR h1 h2 hW rho hrho i' i j h hm hc fun a ha hb => hd a j ⟨⟨le_trans (min_le_right _ _) ha, le_trans hb (le_max_left _ _)⟩, min_le_left _ _, le_max_left _ _⟩
  have e2 : |rho2rhot rho W i' j' - rho2rhot rho W i' j| ≤ 3 * R / (2 * (R : ℝ) ^ 2 + 1) * |((j' : ℕ) : ℝ) - ((j : ℕ) : ℝ)| := by
    rcases le_total j j' with h | h
    · exact axis_y hR h1 h2 hW rho hrho i' j j' h hm hc' fun b ha hb => hd i' b ⟨⟨min_le_right _ _, le_max_right _ _⟩, le_trans (min_le_left _ _) ha, le_trans hb (le_max_right _ _)⟩
    · rw [abs_sub_comm, abs_sub_comm ((j' : ℕ) : ℝ)]
      exact axis_y hR h1 h2 hW rho hrho i' j' j h hc' hm fun b ha hb => hd i' b ⟨⟨min_le_right _ _, le_max_right _ _⟩, le_trans (min_le_right _ _) ha, le_trans hb (le_max_left _ _)⟩
  have e3 := abs_add_le (rho2rhot rho W i' j' - rho2rhot rho W i' j) (rho2rhot rho W i' j - rho2rhot rho W i j)
  rw [sub_add_sub_cancel] at e3
  unfold Spec.gridDist
  rw [mul_add]
  linarith

/-- **C102, minimum width.** A transition of the filtered density from `a` to `b` takes at least `(b - a)(2R² + 1)/(3R)` pixels, whatever density (between 0 and 1) the optimiser chooses. -/
theorem C102_width (design : Grid Nx Ny ℝ) (NPML : ℕ × ℕ) (R : ℕ) (hR : 1 ≤ R) (h1 : 1 ≤ NPML.1) (h2 : 1 ≤ NPML.2) (W : Mat (Nx * Ny) ℝ) (hW : get_W Nx Ny design NPML R = .ok W)
    (rho : Grid Nx Ny ℝ) (hrho : Spec.UnitDensity rho) (i i' : Fin Nx) (j j' : Fin Ny) (hc : Spec.CorePixel Nx Ny NPML R i j) (hc' : Spec.CorePixel Nx Ny NPML R i' j')
    (hd : ∀ a b, Spec.InBox i i' j j' a b → design a b = 1) (a b : ℝ) (ha : rho2rhot rho W i j ≤ a) (hb : b ≤ rho2rhot rho W i' j') :
    (b - a) * (2 * (R : ℝ) ^ 2 + 1) / (3 * R) ≤ Spec.gridDist i i' j j' := by
  have hRr : (1 : ℝ) ≤ R := by exact_mod_cast hR
  have h := (le_abs_self _).trans (C102_distance design NPML R hR h1 h2 W hW rho hrho i i' j j' hc hc' hd)
  have h' : b - a ≤ 3 * R / (2 * (R : ℝ) ^ 2 + 1) * Spec.gridDist i i' j j' := by linarith
  rw [div_mul_eq_mul_div, le_div_iff₀ (by positivity)] at h'
  rw [div_le_iff₀ (by positivity)]
  linarith

theorem projection_lipschitz (eta beta : ℝ) (hb : 0 < beta) (x y : ℝ) :
    |rhot2rhob y eta beta - rhot2rhob x eta beta| ≤ beta / (Real.tanh (beta * eta) + Real.tanh (beta * (1 - eta))) * |y - x| := by
  have hden := rhot2rhob_den_pos eta beta hb
  have := Convex.norm_image_sub_le_of_norm_hasDerivWithin_le (f := fun x => rhot2rhob x eta beta) (f' := fun r => drhob_drhot r eta beta) (s := Set.univ) (x := x) (y := y)
    (C := beta / (Real.tanh (beta * eta) + Real.tanh (beta * (1 - eta)))) (fun r _ => (C02_projection_derivative eta beta r hb.ne').hasDerivWithinAt) (fun r _ => by
      unfold drhob_drhot
      rw [Real.norm_eq_abs, abs_div, abs_of_pos hden]
      refine div_le_div_of_nonneg_right ?_ hden.le
      have h1 : Real.tanh (beta * (r - eta)) ^ 2 ≤ 1 := by
        rw [sq_le_one_iff_abs_le_one]
        exact (Real.abs_tanh_lt_one _).le
      rw [abs_le]
      constructor <;> nlinarith [sq_nonneg (Real.tanh (beta * (r - eta)))]) convex_univ (Set.mem_univ _) (Set.mem_univ _)
  rwa [Real.norm_eq_abs, Real.norm_eq_abs] at this

/-- **C102, permittivity.** The permittivity computed from the density by filter and projection is Lipschitz in the pixel distance over a box of design pixels. -/
theorem C102_permittivity (design : Grid Nx Ny ℝ) (NPML : ℕ × ℕ) (R : ℕ) (hR : 1 ≤ R) (h1 : 1 ≤ NPML.1) (h2 : 1 ≤ NPML.2) (W : Mat (Nx * Ny) ℝ) (hW : get_W Nx Ny design NPML R = .ok W)
    (eps_m eta beta : ℝ) (hbeta : 0 < beta)
    (rho : Grid Nx Ny ℝ) (hrho : Spec.UnitDensity rho) (i i' : Fin Nx) (j j' : Fin Ny) (hc : Spec.CorePixel Nx Ny NPML R i j) (hc' : Spec.CorePixel Nx Ny NPML R i' j')
    (hd : ∀ a b, Spec.InBox i i' j j' a b → design a b = 1) :
    |rho2eps rho eps_m W eta beta i' j' - rho2eps rho eps_m W eta beta i j| ≤
      |eps_m - 1| * (beta / (Real.tanh (beta * eta) + Real.tanh (beta * (1 - eta)))) * (3 * R / (2 * (R : ℝ) ^ 2 + 1)) * Spec.gridDist i i' j j' := by
  have hden := rhot2rhob_den_pos eta beta hbeta
  have e1 := C102_distance design NPML R hR h1 h2 W hW rho hrho i i' j j' hc hc' hd
  have e2 := projection_lipschitz eta beta hbeta (rho2rhot rho W i j) (rho2rhot rho W i' j')
  have e3 := e2.trans (mul_le_mul_of_nonneg_left e1 (div_pos hbeta hden).le)
  have e4 := mul_le_mul_of_nonneg_left e3 (abs_nonneg (eps_m - 1))
  have e : rho2eps rho eps_m W eta beta i' j' - rho2eps rho eps_m W eta beta i j =
      (eps_m - 1) * (rhot2rhob (rho2rhot rho W i' j') eta beta - rhot2rhob (rho2rhot rho W i j) eta beta) := by
    unfold rho2eps rhob2eps
    ring
  rw [e, abs_mul]
  refine e4.trans (le_of_eq ?_)
  ring

/-- **C102, the condition on the neighbourhood is needed**: at the border of the visited pixels the columns are not normalised, and there the filtered densities of two neighbouring
design pixels can differ by more than the bound. -/
theorem C102_border_false : ∃ W, get_W 10 10 (fun _ _ => 1) (1, 1) 2 = .ok W ∧ ∃ rho : Grid 10 10 ℝ, Spec.UnitDensity rho ∧
    3 * (2 : ℕ) / (2 * ((2 : ℕ) : ℝ) ^ 2 + 1) < |rho2rhot rho W 5 4 - rho2rhot rho W 4 4| := by
  obtain ⟨W, hW, hent⟩ := get_W_interior (Nx := 10) (Ny := 10) (NPML := (1, 1)) (R := 2) (fun _ _ => 1) (by norm_num) (by norm_num) (by norm_num)
  refine ⟨W, hW, fun a b => if a = 3 ∧ b = 4 then 1 else 0, fun a b => ?_, ?_⟩
  · beta_reduce
    split_ifs <;> norm_num
  have hval : ∀ a : Fin 10, rho2rhot (fun a b => if a = 3 ∧ b = 4 then (1 : ℝ) else 0) W a 4 = W (finProdFinEquiv (a, 4)) (finProdFinEquiv (3, 4)) := by
    intro a
    rw [rho2rhot_apply, Finset.sum_eq_single 3, Finset.sum_eq_single 4]
    · rw [if_pos ⟨rfl, rfl⟩, mul_one]
    · intro b _ hb
      rw [if_neg (fun h => hb h.2), mul_zero]
    · intro h
      exact absurd (Finset.mem_univ _) h
    · intro b _ hb
      refine Finset.sum_eq_zero fun c _ => ?_
      rw [if_neg (fun h => hb h.1), mul_zero]
    · intro h
      exact absurd (Finset.mem_univ _) h
  have e5 : W (finProdFinEquiv (5, 4)) (finProdFinEquiv (3, 4)) = 0 := by
    rw [hent, sub_self (1 : ℝ), ite_self, add_zero, one_mul, cone_far]
    · simp
    · norm_num
  have e4 : W (finProdFinEquiv (4, 4)) (finProdFinEquiv (3, 4)) = 1 := by
    have i1 : Interior 10 10 (1, 1) 2 ((4 : Fin 10) : ℕ) ((4 : Fin 10) : ℕ) := by
      unfold Interior InteriorAxis
      norm_num
    have i2 : ¬ Interior 10 10 (1, 1) 2 ((3 : Fin 10) : ℕ) ((4 : Fin 10) : ℕ) := by
      unfold Interior InteriorAxis
      norm_num
    rw [hent, sub_self (1 : ℝ), ite_self, add_zero, one_mul, if_pos i1, if_neg i2, div_one]
    unfold Spec.cone
    norm_num
  rw [hval, hval, e5, e4]
  norm_num

/-- A concrete case: 16 × 16 pixels, radius 2; the bound is 2/3 per pixel for pixels 7 and 8. -/
example : ∃ W, get_W 16 16 (fun _ _ => 1) (1, 1) 2 = .ok W ∧ ∀ rho : Grid 16 16 ℝ, Spec.UnitDensity rho → |rho2rhot rho W 8 7 - rho2rhot rho W 7 7| ≤ 2 / 3 := by
  obtain ⟨W, hW, -⟩ := get_W_interior (Nx := 16) (Ny := 16) (NPML := (1, 1)) (R := 2) (fun _ _ => 1) (by norm_num) (by norm_num) (by norm_num)
  refine ⟨W, hW, fun rho hrho => ?_⟩
  have h := C102_step (Nx := 16) (Ny := 16) (fun _ _ => 1) (1, 1) 2 (by norm_num) (by norm_num) (by norm_num) W hW rho hrho 7 8 7 7
    (by unfold Spec.CorePixel; norm_num) (by unfold Spec.CorePixel; norm_num) rfl rfl (Or.inl ⟨rfl, rfl⟩)
  refine (h.1.trans h.2).trans (le_of_eq ?_)
  norm_num

/-- A concrete case of the minimum width: with radius 10 a transition from 0.1 to 0.9 takes at least 5 pixels. -/
example (W : Mat (60 * 60) ℝ) (hW : get_W 60 60 (fun _ _ => 1) (1, 1) 10 = .ok W) (rho : Grid 60 60 ℝ) (hrho : Spec.UnitDensity rho) (i i' : Fin 60)
    (hi : 21 ≤ (i : ℕ) ∧ (i : ℕ) < 39) (hi' : 21 ≤ (i' : ℕ) ∧ (i' : ℕ) < 39) (ha : rho2rhot rho W i 30 ≤ 1 / 10) (hb : 9 / 10 ≤ rho2rhot rho W i' 30) :
    5 ≤ |((i' : ℕ) : ℝ) - ((i : ℕ) : ℝ)| := by
  have h := C102_width (Nx := 60) (Ny := 60) (fun _ _ => 1) (1, 1) 10 (by norm_num) (by norm_num) (by norm_num) W hW rho hrho i i' 30 30
    ⟨⟨by omega, by omega⟩, by norm_num⟩ ⟨⟨by omega, by omega⟩, by norm_num⟩ (fun _ _ _ => rfl) _ _ ha hb
  unfold Spec.gridDist at h
  rw [sub_self, abs_zero, add_zero] at h
  refine le_trans ?_ h
  norm_num

end Angler
