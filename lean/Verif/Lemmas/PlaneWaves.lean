import Verif.Lemmas.CoarseSim
import Mathlib.Analysis.SpecialFunctions.Complex.Circle
import Mathlib.Analysis.SpecialFunctions.Trigonometric.Bounds

/-! # Plane waves on the periodic grid -/

namespace Angler

open Matrix

variable {Nx Ny : ℕ}

/-- A wave with `p` periods on a ring of `n` cells, at cell `i`. -/
noncomputable def Spec.wave (n : ℕ) (p : ℤ) (i : ℕ) : ℂ := Complex.exp (2 * Real.pi * Complex.I * p * i / n)

/-- The plane wave with `p` and `r` periods along the two axes of the grid. -/
noncomputable def Spec.planeWave (Nx Ny : ℕ) (p r : ℤ) : Grid Nx Ny ℂ := fun i j => Spec.wave Nx p i.val * Spec.wave Ny r j.val

theorem wave_add (n : ℕ) (p : ℤ) (a b : ℕ) : Spec.wave n p (a + b) = Spec.wave n p a * Spec.wave n p b := by
  unfold Spec.wave
  rw [← Complex.exp_add]
  congr 1
  push_cast
  ring

theorem wave_mul_left (n : ℕ) (hn : n ≠ 0) (p : ℤ) (q : ℕ) : Spec.wave n p (n * q) = 1 := by
  unfold Spec.wave
  have hn' : (n : ℂ) ≠ 0 := by exact_mod_cast hn
  rw [show 2 * (Real.pi : ℂ) * Complex.I * p * ((n * q : ℕ) : ℂ) / n = ((p * q : ℤ) : ℂ) * (2 * Real.pi * Complex.I) by push_cast; field_simp]
  exact Complex.exp_int_mul_two_pi_mul_I _

theorem wave_mod (n : ℕ) (hn : n ≠ 0) (p : ℤ) (a : ℕ) : Spec.wave n p (a % n) = Spec.wave n p a := by
  conv_rhs => rw [← Nat.mod_add_div a n]
  rw [wave_add, wave_mul_left n hn, mul_one]

theorem wave_ne (n : ℕ) (p : ℤ) (a : ℕ) : Spec.wave n p a ≠ 0 := Complex.exp_ne_zero _

theorem wave_zero (n : ℕ) (p : ℤ) : Spec.wave n p 0 = 1 := by simp [Spec.wave]

theorem wave_next {n : ℕ} (p : ℤ) (i : Fin n) : Spec.wave n p (Spec.next i).val = Spec.wave n p i.val * Spec.wave n p 1 := by
  show Spec.wave n p ((i.val + 1) % n) = _
  rw [wave_mod n (by have := i.2; omega), wave_add]

theorem wave_prev {n : ℕ} (p : ℤ) (i : Fin n) : Spec.wave n p (Spec.prev i).val = Spec.wave n p i.val * (Spec.wave n p 1)⁻¹ := by
  have hn : n ≠ 0 := by have := i.2; omega
  show Spec.wave n p ((i.val + (n - 1)) % n) = _
  rw [wave_mod n hn, wave_add]
  congr 1
  have h : Spec.wave n p (n - 1) * Spec.wave n p 1 = 1 := by
    rw [← wave_add, Nat.sub_add_cancel (Nat.pos_of_ne_zero hn)]
    have := wave_mul_left n hn p 1
    rwa [mul_one] at this
  exact eq_inv_of_mul_eq_one_left h

/-- The sum of the two neighbours of a wave. -/
theorem wave_one_add_inv (n : ℕ) (p : ℤ) : Spec.wave n p 1 + (Spec.wave n p 1)⁻¹ = 2 - 4 * ((Real.sin (Real.pi * p / n) : ℝ) : ℂ) ^ 2 := by
  have h1 : Spec.wave n p 1 = Complex.exp (((2 * (Real.pi * p / n) : ℝ) : ℂ) * Complex.I) := by
    unfold Spec.wave
    congr 1
    push_cast
    ring
  rw [h1, ← Complex.exp_neg]
  have h2 := Complex.two_cos (((2 * (Real.pi * p / n) : ℝ) : ℂ))
  rw [← neg_mul, ← h2, ← Complex.ofReal_cos, Real.cos_two_mul, Real.cos_sq']
  push_cast
  ring

theorem wave_second {n : ℕ} (p : ℤ) (i : Fin n) :
    Spec.wave n p (Spec.next i).val + Spec.wave n p (Spec.prev i).val - 2 * Spec.wave n p i.val = -(4 * ((Real.sin (Real.pi * p / n) : ℝ) : ℂ) ^ 2) * Spec.wave n p i.val := by
  rw [wave_next, wave_prev]
  linear_combination Spec.wave n p i.val * wave_one_add_inv n p

/-- Waves with different numbers of periods are orthogonal. -/
theorem wave_sum (n : ℕ) (p q : Fin n) : ∑ i : Fin n, (starRingEnd ℂ) (Spec.wave n (p.val : ℤ) i.val) * Spec.wave n (q.val : ℤ) i.val = if p = q then (n : ℂ) else 0 := by
  have hn : n ≠ 0 := by have := p.2; omega
  have hn' : (n : ℂ) ≠ 0 := by exact_mod_cast hn
  have h1 : ∀ i : ℕ, (starRingEnd ℂ) (Spec.wave n (p.val : ℤ) i) * Spec.wave n (q.val : ℤ) i = Spec.wave n ((q.val : ℤ) - p.val) 1 ^ i := by
    intro i
    unfold Spec.wave
    rw [← Complex.exp_conj, ← Complex.exp_add, ← Complex.exp_nat_mul]
    congr 1
    simp only [map_div₀, map_mul, Complex.conj_I, Complex.conj_ofReal, map_natCast, map_intCast, map_ofNat]
    push_cast
    field_simp
    ring
  rw [Finset.sum_congr rfl fun i _ => h1 i.val, Fin.sum_univ_eq_sum_range (fun i => Spec.wave n ((q.val : ℤ) - p.val) 1 ^ i)]
  split
  · rename_i h
    rw [h, sub_self]
    have : Spec.wave n 0 1 = 1 := by simp [Spec.wave]
    simp [this]
  · rename_i h
    have hne : Spec.wave n ((q.val : ℤ) - p.val) 1 ≠ 1 := by
      intro hc
      unfold Spec.wave at hc
      rw [Complex.exp_eq_one_iff] at hc
      obtain ⟨m, hm⟩ := hc
      have hpi : (2 * Real.pi * Complex.I : ℂ) ≠ 0 := Complex.two_pi_I_ne_zero
      have h2 : (((q.val : ℤ) - p.val : ℤ) : ℂ) = ((m * n : ℤ) : ℂ) := by
        push_cast at hm ⊢
        field_simp at hm
        rw [mul_comm]; exact hm
      have h3 : ((q.val : ℤ) - p.val : ℤ) = m * n := by exact_mod_cast h2
      have hp := p.2
      have hq := q.2
      have hm0 : m = 0 := by
        by_contra hm0
        rcases lt_or_gt_of_ne hm0 with hlt | hgt
        · nlinarith
        · nlinarith
      rw [hm0] at h3
      exact h (Fin.ext (by omega))
    rw [geom_sum_eq hne]
    have hpow : Spec.wave n ((q.val : ℤ) - p.val) 1 ^ n = 1 := by
      have h4 : ∀ k : ℕ, Spec.wave n ((q.val : ℤ) - p.val) 1 ^ k = Spec.wave n ((q.val : ℤ) - p.val) k := by
        intro k
        induction k with
        | zero => rw [pow_zero, wave_zero]
        | succ k ih => rw [pow_succ, ih, wave_add]
      rw [h4]
      have := wave_mul_left n hn ((q.val : ℤ) - p.val) 1
      rwa [mul_one] at this
    rw [hpow, sub_self, zero_div]

/-- The coefficient of the second differences in the system matrix of a uniform medium. -/
noncomputable def Spec.stiff (pol : Pol) (mu eps : ℂ) : ℂ := match pol with | .Ez => mu | .Hz => eps

/-- The coefficient of `ω²`. -/
noncomputable def Spec.mass (pol : Pol) (mu eps : ℂ) : ℂ := match pol with | .Ez => eps | .Hz => mu

/-- The system matrix in a uniform medium without layers. -/
theorem uniform_apply (s : Sim Nx Ny) (hv : s.Valid) (hdl : 0 < s.dl) (hx : 1 < Nx) (hy : 1 < Ny) (hN : s.NPML = (0, 0)) (e : ℂ) (he : ∀ i j, s.eps_r i j = e) (he0 : e ≠ 0) (f : Grid Nx Ny ℂ) :
    s.A *ᵥ flatten f = flatten fun i j => (f (Spec.next i) j + f (Spec.prev i) j + f i (Spec.next j) + f i (Spec.prev j) - 4 * f i j) /
        (Spec.stiff s.pol ((MU_0 * s.L0 : ℝ) : ℂ) (((EPSILON_0 * s.L0 : ℝ) : ℂ) * e) * (s.dl : ℂ) ^ 2) +
      (s.omega : ℂ) ^ 2 * Spec.mass s.pol ((MU_0 * s.L0 : ℝ) : ℂ) (((EPSILON_0 * s.L0 : ℝ) : ℂ) * e) * f i j := by
  have hdL := hv.dL_eq (by omega : 0 < Nx) (by omega : 0 < Ny)
  have hd : (s.dl : ℂ) ≠ 0 := by exact_mod_cast hdl.ne'
  have hM : ((MU_0 * s.L0 : ℝ) : ℂ) ≠ 0 := by exact_mod_cast (mul_pos MU_0_pos hv.L0_pos).ne'
  have hE : ((EPSILON_0 * s.L0 : ℝ) : ℂ) ≠ 0 := by exact_mod_cast (mul_pos EPSILON_0_pos hv.L0_pos).ne'
  have hfun : s.eps_r = fun _ _ => e := by funext i j; exact he i j
  rw [hv.A_eq, hfun, hN]
  rcases s.pol
  · simp only [construct_A, Matrix.add_mulVec, smul_mulVec, ← Matrix.mulVec_mulVec,
      mkDerivs_Dxb _ _ _ _ _ hx, mkDerivs_Dyb _ _ _ _ _ hy, mkDerivs_Dxf _ _ _ _ _ hx, mkDerivs_Dyf _ _ _ _ _ hy, spdiag_mulVec, sfactor_zero, hdL, Spec.stiff, Spec.mass]
    refine flat_ext fun i j => ?_
    simp only [Pi.add_apply, Pi.smul_apply, flatten_pair, Spec.fwdX, Spec.bwdX, Spec.fwdY, Spec.bwdY, prev_next, smul_eq_mul]
    generalize ((MU_0 * s.L0 : ℝ) : ℂ) = M at *
    generalize ((EPSILON_0 * s.L0 : ℝ) : ℂ) = E at *
    field_simp
    ring
  · have hgx : grid_average (fun _ _ => ((EPSILON_0 * s.L0 : ℝ) : ℂ) * e : Grid Nx Ny ℂ) .x = fun _ _ => ((EPSILON_0 * s.L0 : ℝ) : ℂ) * e := by
      funext i j; simp only [grid_average]; ring
    have hgy : grid_average (fun _ _ => ((EPSILON_0 * s.L0 : ℝ) : ℂ) * e : Grid Nx Ny ℂ) .y = fun _ _ => ((EPSILON_0 * s.L0 : ℝ) : ℂ) * e := by
      funext i j; simp only [grid_average]; ring
    have hsp : ∀ v : Grid Nx Ny ℂ, (spdiag fun k : Fin (Nx * Ny) => 1 / flatten (fun _ _ => ((EPSILON_0 * s.L0 : ℝ) : ℂ) * e : Grid Nx Ny ℂ) k) *ᵥ flatten v =
        flatten fun i j => 1 / (((EPSILON_0 * s.L0 : ℝ) : ℂ) * e) * v i j := by
      intro v
      rw [spdiag_mulVec]
      rfl
    simp only [construct_A, if_true, hgx, hgy, Matrix.add_mulVec, smul_mulVec, ← Matrix.mulVec_mulVec, Matrix.one_mulVec,
      mkDerivs_Dxb _ _ _ _ _ hx, mkDerivs_Dyb _ _ _ _ _ hy, hsp, mkDerivs_Dxf _ _ _ _ _ hx, mkDerivs_Dyf _ _ _ _ _ hy, sfactor_zero, hdL, Spec.stiff, Spec.mass]
    refine flat_ext fun i j => ?_
    simp only [Pi.add_apply, Pi.smul_apply, flatten_pair, Spec.fwdX, Spec.bwdX, Spec.fwdY, Spec.bwdY, prev_next, smul_eq_mul]
    generalize ((MU_0 * s.L0 : ℝ) : ℂ) = M at *
    generalize ((EPSILON_0 * s.L0 : ℝ) : ℂ) = E at *
    field_simp
    ring

end Angler
