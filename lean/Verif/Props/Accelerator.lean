import Verif.Model.Accelerator
import Verif.Lemmas.Device
import Verif.Props.OneD
import Verif.Props.Structures
import Verif.Props.TimeDomain
import Verif.Lemmas.Objectives
import Verif.Model.Gradients
import Mathlib.RingTheory.RootsOfUnity.Complex

/-! # C104 (laser-driven accelerators) -/

namespace Angler

open Matrix

variable {Nx Ny : ℕ}

/-! ## Specification -/

/-- The rows of a channel: the middle row of the grid. -/
def Spec.midRow (Nx : ℕ) (h : 0 < Nx) : Fin Nx := ⟨Nx / 2, Nat.div_lt_self h one_lt_two⟩

/-- The mean field seen by an electron that enters the middle channel at time zero and crosses one cell of size `d` (in metres) every `d / v` seconds. -/
noncomputable def Spec.seen (omega d v : ℝ) (f : Fin Ny → ℂ) : ℝ := (∑ j, Spec.inTime omega (f j) ((j : ℕ) * d / v)) / Ny

/-- The complex gain: the Fourier component of the row that travels with the electron, `a` the phase per cell. -/
noncomputable def Spec.gain (a : ℝ) (f : Fin Ny → ℂ) : ℂ := (∑ j, f j * Complex.exp (((a * (j : ℕ) : ℝ) : ℂ) * Complex.I)) / Ny

/-! ## Lemmas -/

theorem pyInt_div_two (n : ℕ) : pyInt ((n : ℝ) / 2) = ((n / 2 : ℕ) : ℤ) := by
  rw [pyInt, if_pos (by positivity), Int.floor_eq_iff]
  have h1 : (2 : ℝ) * ((n / 2 : ℕ) : ℝ) ≤ n := by exact_mod_cast Nat.mul_div_le n 2
  have h2 : (n : ℝ) < 2 * ((n / 2 : ℕ) : ℝ) + 2 := by exact_mod_cast (by omega : n < 2 * (n / 2) + 2)
  rw [Int.cast_natCast]
  constructor
  · linarith
  · linarith

theorem pyIndex_nat (n k : ℕ) (h : k < n) : Mode.pyIndex n (k : ℤ) = .ok ⟨k, h⟩ := by
  rw [Mode.pyIndex, dif_pos ⟨by omega, by exact_mod_cast h⟩]
  rfl

theorem pyIndex_mid (h : 0 < Nx) : Mode.pyIndex Nx (pyInt ((Nx : ℝ) / 2)) = .ok (Spec.midRow Nx h) := by
  rw [pyInt_div_two]
  exact pyIndex_nat _ _ _

theorem npLinspace_index (N k : ℕ) (h : k < N) : npLinspace 0 ((N : ℝ) - 1) N k = k := by
  unfold npLinspace
  split_ifs with h1
  · have : k = 0 := by omega
    rw [this]; simp
  · have : (N : ℝ) - 1 ≠ 0 := by
      have : (2 : ℝ) ≤ N := by exact_mod_cast (by omega : 2 ≤ N)
      linarith
    rw [sub_zero, div_self this]; ring

theorem electronRow_ok (hy : 0 < Ny) (dl beta lambda0 : ℝ) (hb : beta ≠ 0) (hl : lambda0 ≠ 0) :
    electronRow Ny dl beta lambda0 = .ok fun j => Complex.exp (((2 * Real.pi * dl / (beta * lambda0) * (j : ℕ) : ℝ) : ℂ) * Complex.I) / Ny := by
  rw [electronRow, if_neg hy.ne', if_neg (by tauto)]
  refine congrArg Except.ok (funext fun j => ?_)
  rw [npLinspace_index _ _ j.isLt, one_div, inv_mul_eq_div]
  refine congrArg (· / (Ny : ℂ)) (congrArg Complex.exp ?_)
  have hb' : (beta : ℂ) ≠ 0 := by exact_mod_cast hb
  have hl' : (lambda0 : ℂ) ≠ 0 := by exact_mod_cast hl
  push_cast
  field_simp

theorem accelEta_ok (hx : 0 < Nx) (hy : 0 < Ny) (dl beta lambda0 : ℝ) (hb : beta ≠ 0) (hl : lambda0 ≠ 0) :
    accelEta Nx Ny dl beta lambda0 = .ok fun i j => if i = Spec.midRow Nx hx then Complex.exp (((2 * Real.pi * dl / (beta * lambda0) * (j : ℕ) : ℝ) : ℂ) * Complex.I) / Ny else 0 := by
  rw [accelEta, electronRow_ok hy dl beta lambda0 hb hl]
  simp only [setRow, Bind.bind, Except.bind, pyIndex_mid hx]
  rfl

theorem sum_midRow (k : Fin Nx) (f g : Grid Nx Ny ℂ) (v : Fin Ny → ℂ) (hg : g = fun i j => if i = k then v j else 0) :
    ∑ i, ∑ j, (f i j * g i j).re = (∑ j, f k j * v j).re := by
  subst hg
  rw [Finset.sum_eq_single k (fun i _ hi => Finset.sum_eq_zero fun j _ => by beta_reduce; rw [if_neg hi, mul_zero, Complex.zero_re]) (fun h => absurd (Finset.mem_univ _) h), Complex.re_sum]
  simp

/-- The value of the objective: the real part of the gain over `E0`. -/
theorem accelJ_ok (hx : 0 < Nx) (hy : 0 < Ny) (dl beta lambda0 E0 : ℝ) (hb : beta ≠ 0) (hl : lambda0 ≠ 0) (hE : E0 ≠ 0) :
    ∃ J, accelJ Nx Ny dl beta lambda0 E0 = .ok J ∧ J.arity = 1 ∧ (∀ x, Spec.Autograd J x) ∧
      ∀ ey, J.call [ey] = .ok ((Spec.gain (2 * Real.pi * dl / (beta * lambda0)) (ey (Spec.midRow Nx hx))).re / E0) := by
  have hJ : accelJ Nx Ny dl beta lambda0 E0 = .ok (linearJ fun i j => (if i = Spec.midRow Nx hx then Complex.exp (((2 * Real.pi * dl / (beta * lambda0) * (j : ℕ) : ℝ) : ℂ) * Complex.I) / Ny else 0) / E0) := by
    rw [accelJ, accelEta_ok hx hy dl beta lambda0 hb hl]
    simp only [Bind.bind, Except.bind, if_neg hE]
    refine congrArg Except.ok ?_
    rw [linearJ]
    congr 1
    funext x
    rw [Finset.sum_div]
    refine Finset.sum_congr rfl fun i _ => ?_
    rw [Finset.sum_div]
    refine Finset.sum_congr rfl fun j _ => ?_
    rw [← Complex.div_ofReal_re]
    refine congrArg Complex.re ?_
    ring
  refine ⟨_, hJ, rfl, fun x => linearJ_autograd _ x, fun ey => ?_⟩
  rw [ObjFn.call, dif_pos (show [ey].length = (linearJ _).arity from rfl)]
  refine congrArg Except.ok ?_
  show ∑ i, ∑ j, (_ * ey i j).re = _
  rw [Finset.sum_eq_single (Spec.midRow Nx hx) (fun i _ hi => Finset.sum_eq_zero fun j _ => by rw [if_neg hi, zero_div, zero_mul, Complex.zero_re]) (fun h => absurd (Finset.mem_univ _) h),
    ← Complex.re_sum, ← Complex.div_ofReal_re, Spec.gain, Finset.sum_div, Finset.sum_div]
  refine congrArg Complex.re (Finset.sum_congr rfl fun j _ => ?_)
  rw [if_pos rfl]
  ring

theorem geom_zero (a : ℝ) (hy : 1 < Ny) (ha : a * Ny = 2 * Real.pi) : ∑ j : Fin Ny, Complex.exp (((a * (j : ℕ) : ℝ) : ℂ) * Complex.I) = 0 := by
  have hN : (Ny : ℂ) ≠ 0 := by exact_mod_cast (by omega : Ny ≠ 0)
  have hp := (Complex.isPrimitiveRoot_exp Ny (by omega)).geom_sum_eq_zero hy
  rw [← hp, Finset.sum_range]
  refine Finset.sum_congr rfl fun j _ => ?_
  rw [← Complex.exp_nat_mul]
  refine congrArg Complex.exp ?_
  have h : (a : ℂ) * Ny = 2 * Real.pi := by exact_mod_cast ha
  push_cast
  rw [← h]
  field_simp

theorem geom_ne_zero (a : ℝ) (hy : 0 < Ny) (ha : 0 < a) (ha' : a * Ny < 2 * Real.pi) : ∑ j : Fin Ny, Complex.exp (((a * (j : ℕ) : ℝ) : ℂ) * Complex.I) ≠ 0 := by
  set z : ℂ := Complex.exp ((a : ℂ) * Complex.I) with hz
  have hne : ∀ m : ℕ, 0 < m → m ≤ Ny → z ^ m ≠ 1 := by
    intro m hm hmN hone
    rw [hz, ← Complex.exp_nat_mul, Complex.exp_eq_one_iff] at hone
    obtain ⟨n, hn⟩ := hone
    have h1 : ((m * a : ℝ) : ℂ) * Complex.I = ((n * (2 * Real.pi) : ℝ) : ℂ) * Complex.I := by push_cast; rw [mul_assoc, hn]; ring
    have h2 : m * a = n * (2 * Real.pi) := by exact_mod_cast mul_right_cancel₀ Complex.I_ne_zero h1
    have hm1 : (0 : ℝ) < m := by exact_mod_cast hm
    have hmN' : (m : ℝ) ≤ Ny := by exact_mod_cast hmN
    have h3 : 0 < (n : ℝ) * (2 * Real.pi) := by rw [← h2]; positivity
    have h4 : (n : ℝ) * (2 * Real.pi) < 2 * Real.pi := by
      have : (m : ℝ) * a ≤ Ny * a := mul_le_mul_of_nonneg_right hmN' ha.le
      linarith
    have hpi := Real.pi_pos
    have h5 : 0 < (n : ℝ) := (pos_iff_pos_of_mul_pos h3).mpr (by positivity)
    have h6 : (n : ℝ) < 1 := by
      by_contra hc
      have : 1 * (2 * Real.pi) ≤ n * (2 * Real.pi) := mul_le_mul_of_nonneg_right (not_lt.mp hc) (by positivity)
      linarith
    have h7 : 0 < n := by exact_mod_cast h5
    have h8 : n < 1 := by exact_mod_cast h6
    omega
  have e : ∑ j : Fin Ny, Complex.exp (((a * (j : ℕ) : ℝ) : ℂ) * Complex.I) = ∑ j ∈ Finset.range Ny, z ^ j := by
    rw [Finset.sum_range]
    refine Finset.sum_congr rfl fun j _ => ?_
    rw [hz, ← Complex.exp_nat_mul]
    refine congrArg Complex.exp ?_
    push_cast
    ring
  have h1 : z - 1 ≠ 0 := sub_ne_zero.mpr (by simpa using hne 1 one_pos hy)
  rw [e, geom_sum_eq (sub_ne_zero.mp h1)]
  exact div_ne_zero (sub_ne_zero.mpr (hne Ny hy le_rfl)) h1

/-! ## Theorems -/

/-- **C104, the objective is the force on the electron.** With `ω = 2πc/λ` the value of the objective of `Accelerator.ipynb` is the mean over one period of the structure of the field `Re (Ey e^{iωt})`
that an electron of speed `βc` meets in the middle row, divided by `E0`; and autograd's derivative of it is right. -/
theorem C104_force (hx : 0 < Nx) (hy : 0 < Ny) (dl beta lambda0 E0 L0 c omega : ℝ) (hb : 0 < beta) (hl : 0 < lambda0) (hL : 0 < L0) (hc : 0 < c) (hE : E0 ≠ 0)
    (ho : omega = 2 * Real.pi * c / (lambda0 * L0)) :
    ∃ J, accelJ Nx Ny dl beta lambda0 E0 = .ok J ∧ J.arity = 1 ∧ (∀ x, Spec.Autograd J x) ∧
      ∀ ey, J.call [ey] = .ok (Spec.seen omega (dl * L0) (beta * c) (ey (Spec.midRow Nx hx)) / E0) := by
  obtain ⟨J, h1, h2, h3, h4⟩ := accelJ_ok hx hy dl beta lambda0 E0 hb.ne' hl.ne' hE
  refine ⟨J, h1, h2, h3, fun ey => ?_⟩
  rw [h4, Spec.gain, Spec.seen]
  refine congrArg Except.ok (congrArg (· / E0) ?_)
  rw [show (Ny : ℂ) = ((Ny : ℝ) : ℂ) from (Complex.ofReal_natCast _).symm, Complex.div_ofReal_re, Complex.re_sum]
  refine congrArg (· / (Ny : ℝ)) (Finset.sum_congr rfl fun j _ => ?_)
  rw [inTime_exp, ho]
  refine congrArg (fun r : ℝ => (ey (Spec.midRow Nx hx) j * Complex.exp ((r : ℂ) * Complex.I)).re) ?_
  field_simp

/-! ## Unpatterned structures -/

theorem gain_const (a : ℝ) (e : ℂ) : Spec.gain a (fun _ : Fin Ny => e) = e * (∑ j : Fin Ny, Complex.exp (((a * (j : ℕ) : ℝ) : ℂ) * Complex.I)) / Ny := by
  rw [Spec.gain, Finset.mul_sum]

/-- **C104, unpatterned structures do not accelerate.** The permittivity and the source do not depend on `y`, the `y` axis is periodic, and the grid has `int(βλ₀/dl) ≥ 2` rows of cells as made by
`accelerator`.  Then the complex gain is zero if `βλ₀` is a whole number of cells; and otherwise it is not zero, unless the field in the middle row is zero: rounding of the period fakes an acceleration. -/
theorem C104_unpatterned (env : Env) (he : env.Exact) (s : Sim Nx Ny) (hv : s.Valid) (_hp : s.pol = .Hz) (hx : 0 < Nx) (hy : 1 < Ny) (eps J : Fin Nx → ℂ) (hu : Spec.Uniform1 s eps J) (hdet : s.A.det ≠ 0)
    (avg : Bool) (dl beta lambda0 E0 : ℝ) (hd : 0 < dl) (hb : 0 < beta) (hl : 0 < lambda0) (hE : E0 ≠ 0) (hN : (Ny : ℤ) = pyInt (beta * lambda0 / dl)) :
    ∃ Ex Ey Hz F, (s.solve_fields env false avg).1 = .ok (Ex, Ey, Hz) ∧ accelJ Nx Ny dl beta lambda0 E0 = .ok F ∧
      (beta * lambda0 = Ny * dl → F.call [Ey] = .ok 0) ∧
      (beta * lambda0 ≠ Ny * dl → (∃ j, Ey (Spec.midRow Nx hx) j ≠ 0) → Spec.gain (2 * Real.pi * dl / (beta * lambda0)) (Ey (Spec.midRow Nx hx)) ≠ 0) := by
  obtain ⟨F, hF, -, -, hval⟩ := accelJ_ok hx (by omega : 0 < Ny) dl beta lambda0 E0 hb.ne' hl.ne' hE
  obtain ⟨⟨Ex, Ey, Hz⟩, ht⟩ : ∃ t, (s.solve_fields env false avg).1 = .ok t := ⟨_, rfl⟩
  have hun := uniform_fields env he s hv eps J hu hdet avg _ ht
  have hcst : Ey (Spec.midRow Nx hx) = fun _ => Ey (Spec.midRow Nx hx) ⟨0, by omega⟩ := funext fun j => const_of_prev (f := Ey (Spec.midRow Nx hx)) (fun j => (hun _ j).2.1) j _
  have hbl : 0 < beta * lambda0 := mul_pos hb hl
  refine ⟨Ex, Ey, Hz, F, ht, hF, fun h => ?_, fun h hne => ?_⟩
  · rw [hval, hcst, gain_const, geom_zero _ hy (by rw [h]; field_simp), mul_zero, zero_div, Complex.zero_re, zero_div]
  · rw [hcst, gain_const]
    refine div_ne_zero (mul_ne_zero ?_ (geom_ne_zero _ (by omega) (by positivity) ?_)) (by exact_mod_cast (by omega : Ny ≠ 0))
    · obtain ⟨j, hj⟩ := hne
      rw [hcst] at hj
      exact hj
    · have h1 : (Ny : ℝ) ≤ beta * lambda0 / dl := by
        rw [pyInt, if_pos (by positivity)] at hN
        have := Int.floor_le (beta * lambda0 / dl)
        rw [← hN] at this
        exact_mod_cast this
      rw [le_div_iff₀ hd] at h1
      have h2 : Ny * dl < beta * lambda0 := lt_of_le_of_ne h1 (Ne.symm h)
      have hpi := Real.pi_pos
      rw [div_mul_eq_mul_div, div_lt_iff₀ hbl]
      have : 2 * Real.pi * (Ny * dl) < 2 * Real.pi * (beta * lambda0) := mul_lt_mul_of_pos_left h2 (by positivity)
      linarith

/-! ## Bounds, amplitude, motion -/

theorem norm_gain_le (a : ℝ) (f : Fin Ny → ℂ) : ‖Spec.gain a f‖ ≤ (∑ j, ‖f j‖) / Ny := by
  rw [Spec.gain, norm_div, Complex.norm_natCast]
  refine div_le_div_of_nonneg_right ((norm_sum_le _ _).trans (le_of_eq (Finset.sum_congr rfl fun j _ => ?_))) (Nat.cast_nonneg _)
  rw [norm_mul, Complex.norm_exp_ofReal_mul_I, mul_one]

theorem meanRow_ok (hx : 0 < Nx) (hy : 0 < Ny) (Ey : Grid Nx Ny ℂ) : meanRow Ey = .ok ((∑ j, ‖Ey (Spec.midRow Nx hx) j‖) / Ny) := by
  rw [meanRow, pyIndex_mid hx]
  simp only [Bind.bind, Except.bind, if_neg hy.ne']
  rfl

/-- **C104, the gain is bounded by the field in the channel**: the objective is at most the mean of `|Ey|` over the middle row divided by `E0`. -/
theorem C104_bound (hx : 0 < Nx) (hy : 0 < Ny) (dl beta lambda0 E0 : ℝ) (hb : beta ≠ 0) (hl : lambda0 ≠ 0) (hE : 0 < E0) (ey : Grid Nx Ny ℂ) :
    ∃ J v m, accelJ Nx Ny dl beta lambda0 E0 = .ok J ∧ J.call [ey] = .ok v ∧ meanRow ey = .ok m ∧ |v| ≤ m / E0 := by
  obtain ⟨J, hJ, -, -, hval⟩ := accelJ_ok hx hy dl beta lambda0 E0 hb hl hE.ne'
  refine ⟨J, _, _, hJ, hval ey, meanRow_ok hx hy ey, ?_⟩
  rw [abs_div, abs_of_pos hE]
  exact div_le_div_of_nonneg_right ((Complex.abs_re_le_norm _).trans (norm_gain_le _ _)) hE.le

theorem gain_smul (a : ℝ) (c : ℂ) (f : Fin Ny → ℂ) : Spec.gain a (fun j => c * f j) = c * Spec.gain a f := by
  rw [Spec.gain, Spec.gain, mul_div_assoc', Finset.mul_sum]
  refine congrArg (· / (Ny : ℂ)) (Finset.sum_congr rfl fun j _ => ?_)
  ring

/-- **C104, the power of the laser is immaterial.** When the source of the device and that of the empty structure used for `E0` are made `c` times stronger, the objective keeps its value. -/
theorem C104_amplitude (env : Env) (he : env.Exact) (s s0 : Sim Nx Ny) (hx : 0 < Nx) (hy : 0 < Ny) (hdet : s.A.det ≠ 0) (hdet0 : s0.A.det ≠ 0) (avg : Bool) (c : ℝ) (hc : 0 < c)
    (dl beta lambda0 : ℝ) (hb : beta ≠ 0) (hl : lambda0 ≠ 0) :
    ∃ t t0 t' t0' E0, (s.solve_fields env false avg).1 = .ok t ∧ (s0.solve_fields env false avg).1 = .ok t0 ∧
      ({ s with src := fun i j => c * s.src i j }.solve_fields env false avg).1 = .ok t' ∧ ({ s0 with src := fun i j => c * s0.src i j }.solve_fields env false avg).1 = .ok t0' ∧
      meanRow t0.2.1 = .ok E0 ∧ meanRow t0'.2.1 = .ok (c * E0) ∧
      (E0 ≠ 0 → ∃ J J' v, accelJ Nx Ny dl beta lambda0 E0 = .ok J ∧ accelJ Nx Ny dl beta lambda0 (c * E0) = .ok J' ∧ J.call [t.2.1] = .ok v ∧ J'.call [t'.2.1] = .ok v) := by
  have key : ∀ s : Sim Nx Ny, s.A.det ≠ 0 → ∃ t t', (s.solve_fields env false avg).1 = .ok t ∧ ({ s with src := fun i j => c * s.src i j }.solve_fields env false avg).1 = .ok t' ∧
      t'.2.1 = fun i j => (c : ℂ) * t.2.1 i j := by
    intro s hd
    obtain ⟨t1, t2, h1, h2, h3⟩ := C15_linear_in_source env he s hd avg c 0 s.src (fun _ _ => 0)
    refine ⟨t1, (fun i j => (c : ℂ) * t1.1 i j, fun i j => (c : ℂ) * t1.2.1 i j, fun i j => (c : ℂ) * t1.2.2 i j), h1, ?_, rfl⟩
    rw [show (fun i j => (c : ℂ) * s.src i j) = fun i j => (c : ℂ) * s.src i j + 0 * 0 from funext fun i => funext fun j => by ring, h3]
    simp only [zero_mul, add_zero]
  obtain ⟨t, t', h1, h2, h3⟩ := key s hdet
  obtain ⟨t0, t0', g1, g2, g3⟩ := key s0 hdet0
  refine ⟨t, t0, t', t0', _, h1, g1, h2, g2, meanRow_ok hx hy _, ?_, fun hE => ?_⟩
  · rw [meanRow_ok hx hy, g3]
    refine congrArg Except.ok ?_
    rw [mul_div_assoc', Finset.mul_sum]
    refine congrArg (· / (Ny : ℝ)) (Finset.sum_congr rfl fun j _ => ?_)
    rw [norm_mul, Complex.norm_real, Real.norm_of_nonneg hc.le]
  · obtain ⟨J, hJ, -, -, hv⟩ := accelJ_ok hx hy dl beta lambda0 _ hb hl hE
    obtain ⟨J', hJ', -, -, hv'⟩ := accelJ_ok hx hy dl beta lambda0 _ hb hl (mul_ne_zero hc.ne' hE)
    refine ⟨J, J', _, hJ, hJ', hv _, ?_⟩
    rw [hv', h3, gain_smul, Complex.re_ofReal_mul, mul_div_mul_left _ _ hc.ne']

theorem gain_prev (a : ℝ) (ha : a * Ny = 2 * Real.pi) (f : Fin Ny → ℂ) : Spec.gain a (fun j => f (Spec.prev j)) = Complex.exp ((a : ℂ) * Complex.I) * Spec.gain a f := by
  rw [Spec.gain, Spec.gain, mul_div_assoc', Finset.mul_sum]
  refine congrArg (· / (Ny : ℂ)) ?_
  rw [← (nextEquiv (n := Ny)).sum_comp]
  refine Finset.sum_congr rfl fun j _ => ?_
  show f (Spec.prev (Spec.next j)) * _ = _
  rw [prev_next, mul_left_comm, ← Complex.exp_add]
  refine congrArg (f j * ·) ?_
  show Complex.exp (((a * ((j.val + 1) % Ny : ℕ) : ℝ) : ℂ) * Complex.I) = _
  rcases Nat.lt_or_ge (j.val + 1) Ny with h | h
  · rw [Nat.mod_eq_of_lt h]
    refine congrArg Complex.exp ?_
    push_cast
    ring
  · have h1 : j.val + 1 = Ny := by omega
    rw [h1, Nat.mod_self]
    have h2 : (a : ℂ) * Complex.I + ((a * (j.val : ℕ) : ℝ) : ℂ) * Complex.I = 2 * Real.pi * Complex.I := by
      have : (a : ℂ) * ((j.val : ℕ) + 1 : ℕ) = 2 * Real.pi := by rw [h1]; exact_mod_cast ha
      rw [← this]
      push_cast
      ring
    rw [h2, Complex.exp_two_pi_mul_I]
    simp

theorem gain_roll (a : ℝ) (ha : a * Ny = 2 * Real.pi) (f : Fin Ny → ℂ) (k : ℕ) :
    Spec.gain a (fun j => f (Spec.prev^[k] j)) = Complex.exp (((a * k : ℝ) : ℂ) * Complex.I) * Spec.gain a f := by
  induction k with
  | zero => simp
  | succ k ih =>
    have : (fun j => f (Spec.prev^[k + 1] j)) = fun j => (fun j => f (Spec.prev^[k] j)) (Spec.prev j) := by
      funext j
      rw [Function.iterate_succ_apply]
    rw [this, gain_prev a ha (fun j => f (Spec.prev^[k] j)), ih, ← mul_assoc, ← Complex.exp_add]
    refine congrArg (· * _) (congrArg Complex.exp ?_)
    push_cast
    ring

/-- **C104, moving the structure along the beam** by `k` cells changes the phase of the complex gain and not its size. -/
theorem C104_moved (env : Env) (he : env.Exact) (s s' : Sim Nx Ny) (k : ℕ) (h : Spec.Moved 0 k s s') (hv : s.Valid) (hv' : s'.Valid) (hN : s.NPML.2 = 0) (hx : 0 < Nx) (hy : 0 < Ny) (hdet : s.A.det ≠ 0)
    (avg : Bool) (dl beta lambda0 : ℝ) (hd : 0 < dl) (hp : beta * lambda0 = Ny * dl) :
    ∃ t t', (s.solve_fields env false avg).1 = .ok t ∧ (s'.solve_fields env false avg).1 = .ok t' ∧
      Spec.gain (2 * Real.pi * dl / (beta * lambda0)) (t'.2.1 (Spec.midRow Nx hx)) =
        Complex.exp ((2 * Real.pi * k / Ny : ℝ) * Complex.I) * Spec.gain (2 * Real.pi * dl / (beta * lambda0)) (t.2.1 (Spec.midRow Nx hx)) ∧
      ‖Spec.gain (2 * Real.pi * dl / (beta * lambda0)) (t'.2.1 (Spec.midRow Nx hx))‖ = ‖Spec.gain (2 * Real.pi * dl / (beta * lambda0)) (t.2.1 (Spec.midRow Nx hx))‖ := by
  have hm := (C73_linear env he 0 k s s' h hv hv' ⟨Or.inl rfl, Or.inr hN⟩ hdet avg).1
  obtain ⟨t, ht⟩ : ∃ t, (s.solve_fields env false avg).1 = .ok t := ⟨_, rfl⟩
  rw [ht] at hm
  have hNy : (Ny : ℝ) ≠ 0 := by exact_mod_cast hy.ne'
  have ha : 2 * Real.pi * dl / (beta * lambda0) * Ny = 2 * Real.pi := by rw [hp]; field_simp
  have e : Spec.gain (2 * Real.pi * dl / (beta * lambda0)) ((Spec.roll3 0 k t).2.1 (Spec.midRow Nx hx)) =
      Complex.exp ((2 * Real.pi * k / Ny : ℝ) * Complex.I) * Spec.gain (2 * Real.pi * dl / (beta * lambda0)) (t.2.1 (Spec.midRow Nx hx)) := by
    have := gain_roll _ ha (t.2.1 (Spec.midRow Nx hx)) k
    rw [show 2 * Real.pi * dl / (beta * lambda0) * k = 2 * Real.pi * k / Ny by rw [hp]; field_simp] at this
    exact this
  refine ⟨t, _, ht, hm, e, ?_⟩
  rw [e, norm_mul, Complex.norm_exp_ofReal_mul_I, one_mul]

/-! ## The gradient -/

/-- **C104, the gradient belongs to the next row.** For an objective whose derivative `p` with respect to `Ey` lives in one row `i0`, lying with the next row in a uniform medium outside the absorbing
layers, the gradient that the code computes is the one it computes for an `Hz` objective with the derivative `q` of the same objective read in row `i0 + 1`. -/
theorem C104_gradient_row (env : Env) (o : Opt Nx Ny) (hv : o.simulation.Valid) (hpol : o.simulation.pol = .Hz) (hx : 1 < Nx) (p Hz : Grid Nx Ny ℂ) (i0 : Fin Nx) (hp : ∀ i j, i ≠ i0 → p i j = 0)
    (_hne : ∀ i j, o.simulation.eps_r i j ≠ 0)
    (heps : ∀ j, o.simulation.eps_r (Spec.next i0) j = o.simulation.eps_r i0 j) (hs : Spec.sx o.simulation .f i0 = Spec.sx o.simulation .b (Spec.next i0)) :
    ∃ q : Grid Nx Ny ℂ, (∀ H : Grid Nx Ny ℂ, ∑ i, ∑ j, q i j * H i j = ∑ j, p i0 j * (o.simulation.in_plane false o.simulation.eps_r (flatten H)).2.1 (Spec.next i0) j) ∧
      Opt.grad_linear_Ey env o p Hz = Opt.grad_linear_Hz env o q Hz := by
  set s := o.simulation with hsd
  set E0 : ℂ := ((EPSILON_0 * s.L0 : ℝ) : ℂ) with hE0
  let b : Grid Nx Ny ℂ := unflatten ((-1 / Complex.I / (s.omega : ℂ)) • ((spdiag (fun k => 1 / (Sim.eps_xy s.L0 false s.eps_r).1 k) * s.derivs.Dxfᵀ) *ᵥ flatten fun i j => -p i j))
  refine ⟨fun i j => -b i j, fun H => ?_, ?_⟩
  · have hb : ∑ i, ∑ j, -b i j * H i j = -(flatten H ⬝ᵥ ((-1 / Complex.I / (s.omega : ℂ)) • ((spdiag (fun k => 1 / (Sim.eps_xy s.L0 false s.eps_r).1 k) * s.derivs.Dxfᵀ) *ᵥ flatten fun i j => -p i j))) := by
      rw [dotProduct, sum_flat, ← Finset.sum_neg_distrib]
      refine Finset.sum_congr rfl fun i _ => ?_
      rw [← Finset.sum_neg_distrib]
      refine Finset.sum_congr rfl fun j _ => ?_
      rw [flatten_pair, neg_mul, mul_comm]
      rfl
    have hdiag : (spdiag fun k => 1 / (Sim.eps_xy s.L0 false s.eps_r).1 k) *ᵥ flatten H = flatten fun i j => H i j / (E0 * s.eps_r i j) := by
      refine flat_ext fun i j => ?_
      rw [spdiag_mulVec]
      simp only [Sim.eps_xy, Bool.false_eq_true, if_false, flatten_pair]
      ring
    have hsym : (spdiag fun k => 1 / (Sim.eps_xy s.L0 false s.eps_r).1 k)ᵀ = spdiag fun k => 1 / (Sim.eps_xy s.L0 false s.eps_r).1 k := by
      rw [spdiag, Matrix.diagonal_transpose]
    rw [hb, dotProduct_smul, dotProduct_mulVec, ← Matrix.mulVec_transpose, Matrix.transpose_mul, Matrix.transpose_transpose, hsym, ← Matrix.mulVec_mulVec, hdiag, hv.derivs_eq,
      mkDerivs_Dxf _ _ _ _ _ hx, dotProduct, sum_flat, Finset.sum_eq_single i0 (fun i _ hi => Finset.sum_eq_zero fun j _ => by rw [flatten_pair, flatten_pair, hp i j hi, neg_zero, mul_zero])
        (fun h => absurd (Finset.mem_univ _) h), smul_eq_mul, Finset.mul_sum, ← Finset.sum_neg_distrib]
    have hEy : ∀ j, (s.in_plane false s.eps_r (flatten H)).2.1 (Spec.next i0) j =
        -1 / Complex.I / (s.omega : ℂ) * (1 / (E0 * s.eps_r (Spec.next i0) j) * (Spec.bwdX (dL Nx Ny s.xrange s.yrange).1 H (Spec.next i0) j / create_sfactor s.xrange s.L0 .b s.omega Nx s.NPML.1 (Spec.next i0))) := by
      intro j
      simp only [Sim.in_plane, hpol]
      rw [unflatten, hv.derivs_eq, ← Matrix.mulVec_mulVec, mkDerivs_Dxb _ _ _ _ _ hx, spdiag_mulVec]
      simp only [Sim.eps_xy, Bool.false_eq_true, if_false, flatten_pair, Pi.smul_apply, smul_eq_mul]
      rw [hE0]
    refine Finset.sum_congr rfl fun j _ => ?_
    have hs' : create_sfactor s.xrange s.L0 .f s.omega Nx s.NPML.1 i0 = create_sfactor s.xrange s.L0 .b s.omega Nx s.NPML.1 (Spec.next i0) := by rw [hv.xr]; exact hs
    rw [hEy, flatten_pair, flatten_pair, hs', Spec.fwdX, Spec.bwdX, prev_next, heps]
    ring
  · unfold Opt.grad_linear_Ey Opt.grad_linear_Hz
    simp only [neg_neg]
    rfl

/-- … and the two rows are not interchangeable: unless `p` is zero there are magnetic fields for which the electric fields in the two rows give different values. -/
theorem C104_gradient_row_false (s : Sim Nx Ny) (hv : s.Valid) (hpol : s.pol = .Hz) (hd : 0 < s.dl) (hx : 2 < Nx) (hy : 0 < Ny) (p : Grid Nx Ny ℂ) (i0 : Fin Nx) (j0 : Fin Ny) (hp : p i0 j0 ≠ 0)
    (hne : ∀ i j, s.eps_r i j ≠ 0) (hs : Spec.sx s .b (Spec.next i0) ≠ 0) :
    ∃ H : Grid Nx Ny ℂ, ∑ j, p i0 j * (s.in_plane false s.eps_r (flatten H)).2.1 (Spec.next i0) j ≠ ∑ j, p i0 j * (s.in_plane false s.eps_r (flatten H)).2.1 i0 j := by
  have hEy : ∀ (H : Grid Nx Ny ℂ) (i : Fin Nx) (j : Fin Ny), (s.in_plane false s.eps_r (flatten H)).2.1 i j =
      -1 / Complex.I / (s.omega : ℂ) * (1 / (((EPSILON_0 * s.L0 : ℝ) : ℂ) * s.eps_r i j) * (Spec.bwdX s.dl H i j / Spec.sx s .b i)) := by
    intro H i j
    simp only [Sim.in_plane, hpol]
    rw [unflatten, hv.derivs_eq, ← Matrix.mulVec_mulVec, mkDerivs_Dxb _ _ _ _ _ (by omega), spdiag_mulVec]
    simp only [Sim.eps_xy, Bool.false_eq_true, if_false, flatten_pair, Pi.smul_apply, smul_eq_mul]
    rw [hv.dL_eq (by omega) hy, Spec.sx, hv.xr]
  have h1 : Spec.next i0 ≠ i0 := fun h => by
    have := congrArg Fin.val h
    simp only [Spec.next] at this
    have h2 := i0.isLt
    rcases Nat.lt_or_ge (i0.val + 1) Nx with h3 | h3
    · rw [Nat.mod_eq_of_lt h3] at this; omega
    · rw [show i0.val + 1 = Nx by omega, Nat.mod_self] at this; omega
  have h2 : Spec.prev i0 ≠ Spec.next i0 := fun h => by
    have h := congrArg Spec.next h
    rw [next_prev] at h
    have := congrArg Fin.val h
    simp only [Spec.next] at this
    have h2 := i0.isLt
    rcases Nat.lt_or_ge (i0.val + 1) Nx with h3 | h3
    · rw [Nat.mod_eq_of_lt h3] at this
      rcases Nat.lt_or_ge (i0.val + 1 + 1) Nx with h4 | h4
      · rw [Nat.mod_eq_of_lt h4] at this; omega
      · rw [show i0.val + 1 + 1 = Nx by omega, Nat.mod_self] at this; omega
    · rw [show i0.val + 1 = Nx by omega, Nat.mod_self, Nat.mod_eq_of_lt (by omega)] at this; omega
  refine ⟨fun i j => if i = Spec.next i0 ∧ j = j0 then 1 else 0, ?_⟩
  have e0 : ∑ j, p i0 j * (s.in_plane false s.eps_r (flatten fun i j => if i = Spec.next i0 ∧ j = j0 then 1 else 0)).2.1 i0 j = 0 := by
    refine Finset.sum_eq_zero fun j _ => ?_
    rw [hEy, Spec.bwdX, if_neg (fun h => h1 h.1.symm), if_neg (fun h => h2 h.1)]
    simp
  rw [e0, Finset.sum_eq_single j0 (fun j _ hj => by rw [hEy, Spec.bwdX, if_neg (fun h => hj h.2), if_neg (fun h => hj h.2)]; simp) (fun h => absurd (Finset.mem_univ _) h), hEy, Spec.bwdX,
    if_pos ⟨rfl, rfl⟩, if_neg (fun h => by rw [prev_next] at h; exact h1 h.1.symm)]
  have hE : (EPSILON_0 * s.L0 : ℝ) ≠ 0 := (mul_pos EPSILON_0_pos hv.L0_pos).ne'
  have hE' : (((EPSILON_0 * s.L0 : ℝ) : ℂ)) ≠ 0 := by exact_mod_cast hE
  have ho : (s.omega : ℂ) ≠ 0 := by exact_mod_cast hv.omega_pos.ne'
  have hdl : (s.dl : ℂ) ≠ 0 := by exact_mod_cast hd.ne'
  have := hne (Spec.next i0) j0
  rw [sub_zero]
  refine mul_ne_zero hp (mul_ne_zero (div_ne_zero (div_ne_zero (by norm_num) Complex.I_ne_zero) ho) (mul_ne_zero (one_div_ne_zero (mul_ne_zero hE' this)) (div_ne_zero (div_ne_zero one_ne_zero hdl) hs)))

/-! ## Where the electrons run -/

theorem gridCoord_eq (N : ℕ) (hN : 2 ≤ N) (dl : ℝ) (k : ℕ) : gridCoord N dl k = (N : ℝ) / ((N : ℝ) - 1) * dl * (k - ((N : ℝ) - 1) / 2) := by
  have h : (2 : ℝ) ≤ N := by exact_mod_cast hN
  have h1 : (N : ℝ) - 1 ≠ 0 := by linarith
  rw [gridCoord, npLinspace, if_neg (by omega)]
  field_simp
  ring

/-- A row at `m` cells from the middle row lies within two cells of the distance `c`, when `m = int(c/dl)`. -/
theorem coord_near (N : ℕ) (hN : 2 ≤ N) (dl c : ℝ) (hd : 0 < dl) (m : ℕ) (h1 : m * dl ≤ c) (h2 : c < (m + 1) * dl) (hm : 2 * m ≤ N) (k : ℕ) (hk : (k : ℝ) = (N / 2 : ℕ) + m ∨ (k : ℝ) = (N / 2 : ℕ) - m) :
    |(|gridCoord N dl k|) - c| ≤ 2 * dl := by
  have hNr : (2 : ℝ) ≤ N := by exact_mod_cast hN
  have hN1 : 0 < (N : ℝ) - 1 := by linarith
  have hκ1 : 1 < (N : ℝ) / ((N : ℝ) - 1) := by rw [one_lt_div hN1]; linarith
  have hκ2 : (N : ℝ) / ((N : ℝ) - 1) ≤ 2 := by rw [div_le_iff₀ hN1]; linarith
  have hκm : ((N : ℝ) / ((N : ℝ) - 1) - 1) * m ≤ 1 := by
    have e : (N : ℝ) / ((N : ℝ) - 1) - 1 = 1 / ((N : ℝ) - 1) := by field_simp; ring
    have : 2 * (m : ℝ) ≤ N := by exact_mod_cast hm
    rw [e, one_div, inv_mul_le_iff₀ hN1]
    linarith
  have hδ1 : (2 : ℝ) * (N / 2 : ℕ) ≤ N := by exact_mod_cast Nat.mul_div_le N 2
  have hδ2 : (N : ℝ) ≤ 2 * (N / 2 : ℕ) + 1 := by exact_mod_cast (by omega : N ≤ 2 * (N / 2) + 1)
  set κ := (N : ℝ) / ((N : ℝ) - 1) with hκ
  have hm0 : (0 : ℝ) ≤ m := Nat.cast_nonneg m
  rw [gridCoord_eq N hN, ← hκ]
  have habs : |κ * dl * ((k : ℝ) - ((N : ℝ) - 1) / 2)| = κ * dl * |(k : ℝ) - ((N : ℝ) - 1) / 2| := by
    rw [abs_mul, abs_of_pos (mul_pos (by linarith) hd)]
  have hnear : (m : ℝ) - 1 / 2 ≤ |(k : ℝ) - ((N : ℝ) - 1) / 2| ∧ |(k : ℝ) - ((N : ℝ) - 1) / 2| ≤ m + 1 / 2 := by
    rcases hk with hk | hk
    · constructor
      · refine le_trans ?_ (le_abs_self _); linarith
      · rw [abs_le]; constructor <;> linarith
    · constructor
      · refine le_trans ?_ (neg_le_abs _); linarith
      · rw [abs_le]; constructor <;> linarith
  rw [habs, abs_le]
  have hκd : 0 < κ * dl := mul_pos (by linarith) hd
  have h3 := mul_le_mul_of_nonneg_left hnear.1 hκd.le
  have h4 := mul_le_mul_of_nonneg_left hnear.2 hκd.le
  have h5 : κ * dl ≤ 2 * dl := mul_le_mul_of_nonneg_right hκ2 hd.le
  have h6 : (κ - 1) * m * dl ≤ 1 * dl := mul_le_mul_of_nonneg_right hκm hd.le
  have h7 : 0 ≤ (κ - 1) * m * dl := mul_nonneg (mul_nonneg (by linarith) hm0) hd.le
  have e1 : κ * dl * (m + 1 / 2) = (κ - 1) * m * dl + m * dl + κ * dl / 2 := by ring
  have e2 : κ * dl * (m - 1 / 2) = (κ - 1) * m * dl + m * dl - κ * dl / 2 := by ring
  constructor
  · linarith
  · linarith

theorem pyInt_spec (x : ℝ) (hx : 0 ≤ x) : ∃ m : ℕ, pyInt x = m ∧ (m : ℝ) ≤ x ∧ x < m + 1 := by
  refine ⟨⌊x⌋.toNat, ?_, ?_, ?_⟩
  · rw [pyInt, if_pos hx, Int.toNat_of_nonneg (Int.floor_nonneg.mpr hx)]
  · have : ((⌊x⌋.toNat : ℤ) : ℝ) ≤ x := by rw [Int.toNat_of_nonneg (Int.floor_nonneg.mpr hx)]; exact Int.floor_le x
    exact_mod_cast this
  · have : x < ((⌊x⌋.toNat : ℤ) : ℝ) + 1 := by rw [Int.toNat_of_nonneg (Int.floor_nonneg.mpr hx)]; exact Int.lt_floor_add_one x
    exact_mod_cast this

/-- **C104, the electrons run in the gaps.** In a structure made by `accelerator_multi` with gaps of at least four cells, the rows of all channels, `int(i(gap + L)/dl)` cells on either side of the
middle row, exist, lie outside the design region and in vacuum; and the structure does not depend on `y`. -/
theorem C104_channels (beta gap lambda0 L spc dl eps_start : ℝ) (n : ℤ) (NPML : ℤ × ℤ) (S : Structure) (hS : accelerator_multi beta gap lambda0 L spc n dl NPML eps_start = .ok S) (hd : 0 < dl)
    (hg : 4 * dl ≤ gap) (hL : 0 ≤ L) (hs : 0 ≤ spc) (hP : 0 ≤ NPML.1) (hn : 0 < n) :
    (S.Ny : ℤ) = pyInt (beta * lambda0 / dl) ∧ (∀ i j j', S.eps_r i j = S.eps_r i j' ∧ S.design_region i j = S.design_region i j') ∧
    ∀ l : ℕ, (l : ℤ) ≤ n / 2 → ∃ m : ℕ, pyInt ((l : ℝ) * (gap + L) / dl) = m ∧ m ≤ S.Nx / 2 ∧ S.Nx / 2 + m < S.Nx ∧
      ∀ (i : Fin S.Nx) (j : Fin S.Ny), i.val = S.Nx / 2 + m ∨ i.val = S.Nx / 2 - m → S.design_region i j = 0 ∧ S.eps_r i j = 1 := by
  unfold accelerator_multi at hS
  split_ifs at hS with hodd hdl
  obtain ⟨hNx, hNy, hent⟩ := build_ok hS
  have hn2 : 2 * (n / 2) + 1 = n := by omega
  have hnr : (1 : ℝ) ≤ n := by exact_mod_cast hn
  have hnr2 : 2 * ((n / 2 : ℤ) : ℝ) + 1 = n := by exact_mod_cast hn2
  have hgd : 0 < gap := by linarith
  have hT : 0 ≤ (4 * spc + 2 * L * n + gap * n) / dl := by positivity
  obtain ⟨T, hTi, hT1, hT2⟩ := pyInt_spec _ hT
  have hNx' : (S.Nx : ℤ) = 2 * NPML.1 + T := by rw [hNx, hTi]
  have hNT : (T : ℝ) ≤ S.Nx := by
    have : (T : ℤ) ≤ S.Nx := by omega
    exact_mod_cast this
  refine ⟨hNy, fun i j j' => ?_, fun l hl => ?_⟩
  · obtain ⟨a1, a2, a3, a4⟩ := hent i j
    obtain ⟨b1, b2, b3, b4⟩ := hent i j'
    constructor
    · by_cases h : ∃ r ∈ ((List.range (n / 2 + 1).toNat).map fun i : ℕ => fun x _ => gap / 2 < |x| - (i : ℝ) * (gap + L) ∧ |x| - (i : ℝ) * (gap + L) < gap / 2 + L : List Region), r (gridCoord S.Nx dl i) (gridCoord S.Ny dl j)
      · rw [a1 h, b1 (by obtain ⟨r, hr, h'⟩ := h; obtain ⟨q, hq, rfl⟩ := List.mem_map.mp hr; exact ⟨_, hr, h'⟩)]
      · rw [a2 h, b2 (fun h' => h (by obtain ⟨r, hr, h'⟩ := h'; obtain ⟨q, hq, rfl⟩ := List.mem_map.mp hr; exact ⟨_, hr, h'⟩))]
    · by_cases h : ∃ r ∈ ((List.range (n / 2 + 1).toNat).map fun i : ℕ => fun x _ => gap / 2 < |x| - (i : ℝ) * (gap + L) ∧ |x| - (i : ℝ) * (gap + L) < gap / 2 + L : List Region), r (gridCoord S.Nx dl i) (gridCoord S.Ny dl j)
      · rw [a3 h, b3 (by obtain ⟨r, hr, h'⟩ := h; obtain ⟨q, hq, rfl⟩ := List.mem_map.mp hr; exact ⟨_, hr, h'⟩)]
      · rw [a4 h, b4 (fun h' => h (by obtain ⟨r, hr, h'⟩ := h'; obtain ⟨q, hq, rfl⟩ := List.mem_map.mp hr; exact ⟨_, hr, h'⟩))]
  · have hc0 : 0 ≤ (l : ℝ) * (gap + L) := by positivity
    obtain ⟨m, hm, hm1, hm2⟩ := pyInt_spec ((l : ℝ) * (gap + L) / dl) (by positivity)
    have hlr : (l : ℝ) ≤ ((n / 2 : ℤ) : ℝ) := by exact_mod_cast hl
    -- twice the distance fits
    have hfit : 2 * (m : ℝ) + 3 < S.Nx := by
      have h1 : 2 * (m : ℝ) ≤ 2 * ((l : ℝ) * (gap + L)) / dl := by rw [mul_div_assoc]; linarith
      have h2 : 2 * ((l : ℝ) * (gap + L)) ≤ (n - 1) * (gap + L) := by
        have : 2 * (l : ℝ) ≤ n - 1 := by linarith
        nlinarith
      have h3 : (n - 1) * (gap + L) + 4 * dl ≤ 4 * spc + 2 * L * n + gap * n := by nlinarith
      have h4 : 2 * ((l : ℝ) * (gap + L)) / dl + 4 ≤ (4 * spc + 2 * L * n + gap * n) / dl := by
        rw [le_div_iff₀ hd, add_mul, div_mul_cancel₀ _ hd.ne']; linarith
      linarith
    have hfit' : 2 * m + 3 < S.Nx := by exact_mod_cast hfit
    refine ⟨m, hm, by omega, by omega, fun i j hi => ?_⟩
    have hnear := coord_near S.Nx (by omega) dl ((l : ℝ) * (gap + L)) hd m (by rwa [le_div_iff₀ hd] at hm1) (by rwa [div_lt_iff₀ hd] at hm2) (by omega) i.val (by
      rcases hi with hi | hi
      · left; rw [hi]; push_cast; ring
      · right; rw [hi, Nat.cast_sub (by omega)])
    have hout : ¬ ∃ r ∈ ((List.range (n / 2 + 1).toNat).map fun i : ℕ => fun x _ => gap / 2 < |x| - (i : ℝ) * (gap + L) ∧ |x| - (i : ℝ) * (gap + L) < gap / 2 + L : List Region),
        r (gridCoord S.Nx dl i) (gridCoord S.Ny dl j) := by
      rintro ⟨r, hr, h⟩
      obtain ⟨q, -, rfl⟩ := List.mem_map.mp hr
      obtain ⟨h1, h2⟩ := h
      rw [abs_le] at hnear
      rcases Nat.lt_or_ge q l with hq | hq
      · have hql : (q : ℝ) + 1 ≤ l := by exact_mod_cast hq
        have := mul_le_mul_of_nonneg_right hql (by positivity : 0 ≤ gap + L)
        linarith
      · have hql : (l : ℝ) ≤ q := by exact_mod_cast hq
        have := mul_le_mul_of_nonneg_right hql (by positivity : 0 ≤ gap + L)
        linarith
    exact ⟨(hent i j).2.2.2 hout, (hent i j).2.1 hout⟩

/-! ## Several channels -/

/-- The rows in which the electrons of `Accelerator_multi_channel.ipynb` run: `int(l(gap + L)/dl)` cells on either side of the middle row, `l = 0, …, n//2`. -/
def Spec.IsChannel (Nx : ℕ) (dl gap L : ℝ) (n : ℤ) (i : Fin Nx) : Prop :=
  ∃ l : ℕ, (l : ℤ) ≤ n / 2 ∧ ((i.val : ℤ) = (Nx / 2 : ℕ) - pyInt ((l : ℝ) * (gap + L) / dl) ∨ (i.val : ℤ) = (Nx / 2 : ℕ) + pyInt ((l : ℝ) * (gap + L) / dl))

theorem setRow_mem (R : Finset (Fin Nx)) (v : Fin Ny → ℂ) (k : ℕ) (hk : k < Nx) (r : ℤ) (hr : r = k) :
    setRow (fun i j => if i ∈ R then v j else 0) r v = .ok fun i j => if i ∈ insert (⟨k, hk⟩ : Fin Nx) R then v j else 0 := by
  rw [setRow, hr, pyIndex_nat _ _ hk]
  simp only [Bind.bind, Except.bind]
  refine congrArg Except.ok (funext fun i => funext fun j => ?_)
  by_cases h : i = ⟨k, hk⟩
  · rw [if_pos h, if_pos (Finset.mem_insert.mpr (Or.inl h))]
  · rw [if_neg h]
    exact if_congr (by rw [Finset.mem_insert, or_iff_right h]) rfl rfl

theorem addChannel_ok (dl beta lambda0 : ℝ) (hd : dl ≠ 0) (v : Fin Ny → ℂ) (hv : electronRow Ny dl beta lambda0 = .ok v) (R : Finset (Fin Nx)) (c : ℝ) (m : ℕ) (hm : pyInt (c / dl) = m)
    (hm1 : m ≤ Nx / 2) (hm2 : Nx / 2 + m < Nx) :
    addChannel dl beta lambda0 (fun i j => if i ∈ R then v j else 0) c = .ok fun i j => if i ∈ insert (⟨Nx / 2 + m, hm2⟩ : Fin Nx) (insert ⟨Nx / 2 - m, by omega⟩ R) then v j else 0 := by
  rw [addChannel, if_neg hd, hv, pyInt_div_two, hm]
  simp only [Bind.bind, Except.bind]
  rw [setRow_mem R v (Nx / 2 - m) (by omega) _ (by omega)]
  simp only
  rw [setRow_mem _ v (Nx / 2 + m) hm2 _ (by omega)]

theorem fold_rows (dl beta lambda0 : ℝ) (hd : dl ≠ 0) (v : Fin Ny → ℂ) (hv : electronRow Ny dl beta lambda0 = .ok v) (cs : List ℝ)
    (hcs : ∀ c ∈ cs, ∃ m : ℕ, pyInt (c / dl) = m ∧ m ≤ Nx / 2 ∧ Nx / 2 + m < Nx) (R : Finset (Fin Nx)) :
    ∃ R' : Finset (Fin Nx), cs.foldlM (addChannel dl beta lambda0) (fun i j => if i ∈ R then v j else 0) = Except.ok (fun i j => if i ∈ R' then v j else 0) ∧
      (∀ i, i ∈ R' ↔ i ∈ R ∨ ∃ c ∈ cs, (i.val : ℤ) = (Nx / 2 : ℕ) - pyInt (c / dl) ∨ (i.val : ℤ) = (Nx / 2 : ℕ) + pyInt (c / dl)) ∧ R'.card ≤ R.card + 2 * cs.length := by
  induction cs generalizing R with
  | nil => exact ⟨R, rfl, fun i => by simp, by simp⟩
  | cons c cs ih =>
    obtain ⟨m, hm, hm1, hm2⟩ := hcs c (List.mem_cons_self ..)
    obtain ⟨R', h1, h2, h3⟩ := ih (fun c hc => hcs c (List.mem_cons_of_mem _ hc)) (insert ⟨Nx / 2 + m, hm2⟩ (insert ⟨Nx / 2 - m, by omega⟩ R))
    refine ⟨R', ?_, fun i => ?_, ?_⟩
    · rw [List.foldlM_cons, addChannel_ok dl beta lambda0 hd v hv R c m hm hm1 hm2]
      exact h1
    · rw [h2, Finset.mem_insert, Finset.mem_insert, Fin.ext_iff, Fin.ext_iff]
      constructor
      · rintro ((h | h | h) | ⟨c', hc', h⟩)
        · exact Or.inr ⟨c, List.mem_cons_self .., Or.inr (by simp only at h; omega)⟩
        · exact Or.inr ⟨c, List.mem_cons_self .., Or.inl (by simp only at h; omega)⟩
        · exact Or.inl h
        · exact Or.inr ⟨c', List.mem_cons_of_mem _ hc', h⟩
      · rintro (h | ⟨c', hc', h⟩)
        · exact Or.inl (Or.inr (Or.inr h))
        · rcases List.mem_cons.mp hc' with rfl | hc'
          · rcases h with h | h
            · exact Or.inl (Or.inr (Or.inl (by simp only; omega)))
            · exact Or.inl (Or.inl (by simp only; omega))
          · exact Or.inr ⟨c', hc', h⟩
    · refine h3.trans ?_
      have a1 := Finset.card_insert_le (⟨Nx / 2 + m, hm2⟩ : Fin Nx) (insert ⟨Nx / 2 - m, by omega⟩ R)
      have a2 := Finset.card_insert_le (⟨Nx / 2 - m, by omega⟩ : Fin Nx) R
      rw [List.length_cons]
      omega

theorem multiEta_ok (hy : 0 < Ny) (dl beta lambda0 gap L : ℝ) (hd : dl ≠ 0) (hb : beta ≠ 0) (hl : lambda0 ≠ 0) (n : ℤ) (hn : 0 < n) (hodd : n % 2 = 1)
    (hrow : ∀ l : ℕ, (l : ℤ) ≤ n / 2 → ∃ m : ℕ, pyInt ((l : ℝ) * (gap + L) / dl) = m ∧ m ≤ Nx / 2 ∧ Nx / 2 + m < Nx) :
    ∃ R : Finset (Fin Nx), (∀ i, i ∈ R ↔ Spec.IsChannel Nx dl gap L n i) ∧ (R.card : ℤ) ≤ n ∧
      multiEta Nx Ny dl beta lambda0 gap L n = .ok fun i j => if i ∈ R then Complex.exp (((2 * Real.pi * dl / (beta * lambda0) * (j : ℕ) : ℝ) : ℂ) * Complex.I) / Ny else 0 := by
  have hv := electronRow_ok hy dl beta lambda0 hb hl
  set v : Fin Ny → ℂ := fun j => Complex.exp (((2 * Real.pi * dl / (beta * lambda0) * (j : ℕ) : ℝ) : ℂ) * Complex.I) / Ny with hvd
  obtain ⟨k, hk⟩ : ∃ k : ℕ, n / 2 = k := ⟨(n / 2).toNat, by omega⟩
  have hlist : (List.range (n / 2 + 1).toNat).map (fun i : ℕ => (i : ℝ) * (gap + L)) = 0 :: (List.range k).map fun i : ℕ => ((i + 1 : ℕ) : ℝ) * (gap + L) := by
    rw [hk, show ((k : ℤ) + 1).toNat = k + 1 by omega, List.range_succ_eq_map, List.map_cons, List.map_map]
    simp
  have h00 : pyInt ((0 : ℝ) / dl) = 0 := by rw [zero_div, pyInt, if_pos le_rfl, Int.floor_zero]
  obtain ⟨m0, hm0, hm1, hm2⟩ := hrow 0 (by omega)
  have hx : 0 < Nx := by omega
  obtain ⟨R, h1, h2, h3⟩ := fold_rows (Nx := Nx) dl beta lambda0 hd v hv ((List.range k).map fun i : ℕ => ((i + 1 : ℕ) : ℝ) * (gap + L)) (fun c hc => by
    obtain ⟨i, hi, rfl⟩ := List.mem_map.mp hc
    exact hrow (i + 1) (by have := List.mem_range.mp hi; omega)) {(⟨Nx / 2, by omega⟩ : Fin Nx)}
  refine ⟨R, fun i => ?_, ?_, ?_⟩
  · rw [h2, Finset.mem_singleton, Fin.ext_iff]
    constructor
    · rintro (h | ⟨c, hc, h⟩)
      · exact ⟨0, by omega, Or.inl (by rw [Nat.cast_zero, zero_mul, h00]; simp only at h; omega)⟩
      · obtain ⟨q, hq, rfl⟩ := List.mem_map.mp hc
        exact ⟨q + 1, by have := List.mem_range.mp hq; omega, h⟩
    · rintro ⟨l, hl', h⟩
      rcases Nat.eq_zero_or_pos l with rfl | hlp
      · rw [Nat.cast_zero, zero_mul, h00] at h
        exact Or.inl (by simp only; omega)
      · refine Or.inr ⟨_, List.mem_map.mpr ⟨l - 1, List.mem_range.mpr (by omega), rfl⟩, ?_⟩
        rw [show l - 1 + 1 = l by omega]
        exact h
  · rw [Finset.card_singleton, List.length_map, List.length_range] at h3
    omega
  · rw [multiEta, hlist, List.foldlM_cons]
    rw [← h1]
    have e0 : (fun (_ : Fin Nx) (_ : Fin Ny) => (0 : ℂ)) = fun i j => if i ∈ (∅ : Finset (Fin Nx)) then v j else 0 := by funext i j; simp
    rw [e0, addChannel_ok dl beta lambda0 hd v hv ∅ 0 0 (by rw [h00]; rfl) (by omega) (by omega)]
    have e1 : insert (⟨Nx / 2 + 0, by omega⟩ : Fin Nx) (insert ⟨Nx / 2 - 0, by omega⟩ (∅ : Finset (Fin Nx))) = {⟨Nx / 2, by omega⟩} := by
      ext i
      simp [Fin.ext_iff]
    rw [e1]
    rfl

theorem arrMax_norm (hx : 0 < Nx) (hy : 0 < Ny) (f : Grid Nx Ny ℂ) : ∃ M, (arrMax fun i j => ‖f i j‖) = .ok M ∧ (∀ i j, ‖f i j‖ ≤ M) ∧ ∃ i j, M = ‖f i j‖ := by
  have hne : (Finset.univ : Finset (Fin Nx × Fin Ny)).Nonempty := ⟨(⟨0, hx⟩, ⟨0, hy⟩), Finset.mem_univ _⟩
  refine ⟨_, dif_pos hne, fun i j => Finset.le_sup' (fun p : Fin Nx × Fin Ny => ‖f p.1 p.2‖) (Finset.mem_univ (i, j)), ?_⟩
  obtain ⟨p, -, hp⟩ := Finset.exists_mem_eq_sup' hne fun p : Fin Nx × Fin Ny => ‖f p.1 p.2‖
  exact ⟨p.1, p.2, hp⟩

/-- **C104, several channels.** For a structure made by `accelerator_multi` (gaps of at least four cells) and fields that are not zero, the objective of `Accelerator_multi_channel.ipynb` is the sum of
the gains of all channels divided by the size of the largest field and the number of channels.  It lies between −1 and 1, and is the same for fields `c > 0` times as strong. -/
theorem C104_multi (beta gap lambda0 L spc dl eps_start : ℝ) (n : ℤ) (NPML : ℤ × ℤ) (S : Structure) (hS : accelerator_multi beta gap lambda0 L spc n dl NPML eps_start = .ok S) (hd : 0 < dl)
    (hg : 4 * dl ≤ gap) (hL : 0 ≤ L) (hs : 0 ≤ spc) (hP : 0 ≤ NPML.1) (hn : 0 < n) (hb : beta ≠ 0) (hl : lambda0 ≠ 0) (hy : 0 < S.Ny) (ex ey : Grid S.Nx S.Ny ℂ)
    (hne : ∃ i j, ex i j ≠ 0 ∨ ey i j ≠ 0) :
    ∃ (R : Finset (Fin S.Nx)) (M v : ℝ), (∀ i, i ∈ R ↔ Spec.IsChannel S.Nx dl gap L n i) ∧ (∀ i j, ‖ex i j‖ ≤ M ∧ ‖ey i j‖ ≤ M) ∧ (∃ i j i' j', M ^ 2 = ‖ex i j‖ ^ 2 + ‖ey i' j'‖ ^ 2) ∧ 0 < M ∧
      v = (∑ i ∈ R, (Spec.gain (2 * Real.pi * dl / (beta * lambda0)) (ey i)).re) / M / n ∧ multiGain dl beta lambda0 gap L n ex ey = .ok v ∧ |v| ≤ 1 ∧
      ∀ c : ℝ, 0 < c → multiGain dl beta lambda0 gap L n (fun i j => (c : ℂ) * ex i j) (fun i j => (c : ℂ) * ey i j) = .ok v := by
  have hodd : n % 2 = 1 := by
    unfold accelerator_multi at hS
    split_ifs at hS with h
    omega
  obtain ⟨-, -, hrow⟩ := C104_channels beta gap lambda0 L spc dl eps_start n NPML S hS hd hg hL hs hP hn
  obtain ⟨R, hR, hcard, heta⟩ := multiEta_ok (Nx := S.Nx) hy dl beta lambda0 gap L hd.ne' hb hl n hn hodd (fun l hl => by
    obtain ⟨m, h1, h2, h3, -⟩ := hrow l hl
    exact ⟨m, h1, h2, h3⟩)
  obtain ⟨i0, j0, h0⟩ := hne
  have hx : 0 < S.Nx := Nat.pos_of_ne_zero fun h => by rw [h] at i0; exact i0.elim0
  have hnr : (0 : ℝ) < n := by exact_mod_cast hn
  -- the value for any pair of fields
  have key : ∀ ex ey : Grid S.Nx S.Ny ℂ, (∃ i j, ex i j ≠ 0 ∨ ey i j ≠ 0) → ∃ M, (∀ i j, ‖ex i j‖ ≤ M ∧ ‖ey i j‖ ≤ M) ∧
      (∃ mx my, (arrMax fun i j => ‖ex i j‖) = .ok mx ∧ (arrMax fun i j => ‖ey i j‖) = .ok my ∧ M = Real.sqrt (mx ^ 2 + my ^ 2)) ∧ (∃ i j i' j', M ^ 2 = ‖ex i j‖ ^ 2 + ‖ey i' j'‖ ^ 2) ∧ 0 < M ∧
      multiGain dl beta lambda0 gap L n ex ey = .ok ((∑ i ∈ R, (Spec.gain (2 * Real.pi * dl / (beta * lambda0)) (ey i)).re) / M / n) := by
    intro ex ey ⟨i1, j1, h1⟩
    obtain ⟨mx, hmx, hmx1, ia, ja, hmx2⟩ := arrMax_norm hx hy ex
    obtain ⟨my, hmy, hmy1, ib, jb, hmy2⟩ := arrMax_norm hx hy ey
    have hmx0 : 0 ≤ mx := (norm_nonneg _).trans (hmx1 i1 j1)
    have hmy0 : 0 ≤ my := (norm_nonneg _).trans (hmy1 i1 j1)
    have hpos : 0 < mx ^ 2 + my ^ 2 := by
      rcases h1 with h | h
      · have : 0 < mx := (norm_pos_iff.mpr h).trans_le (hmx1 i1 j1)
        positivity
      · have : 0 < my := (norm_pos_iff.mpr h).trans_le (hmy1 i1 j1)
        positivity
    have hM := Real.sqrt_pos.mpr hpos
    refine ⟨Real.sqrt (mx ^ 2 + my ^ 2), fun i j => ⟨(hmx1 i j).trans (Real.le_sqrt_of_sq_le (by nlinarith)), (hmy1 i j).trans (Real.le_sqrt_of_sq_le (by nlinarith))⟩, ⟨mx, my, hmx, hmy, rfl⟩,
      ⟨ia, ja, ib, jb, by rw [Real.sq_sqrt hpos.le, hmx2, hmy2]⟩, hM, ?_⟩
    rw [multiGain, heta]
    simp only [Bind.bind, Except.bind, hmx, hmy]
    rw [if_neg (by rintro (h | h); exact hM.ne' h; omega)]
    refine congrArg Except.ok (congrArg (fun r : ℝ => r / Real.sqrt (mx ^ 2 + my ^ 2) / n) ?_)
    rw [← Finset.sum_subset (Finset.subset_univ R) (fun i _ hi => Finset.sum_eq_zero fun j _ => by rw [if_neg hi, mul_zero, Complex.zero_re])]
    refine Finset.sum_congr rfl fun i hi => ?_
    rw [Spec.gain, Finset.sum_div, Complex.re_sum]
    refine Finset.sum_congr rfl fun j _ => ?_
    rw [if_pos hi, mul_div_assoc (ey i j)]
  obtain ⟨M, hM1, ⟨mx, my, hmx, hmy, hMe⟩, hM2, hM3, hval⟩ := key ex ey ⟨i0, j0, h0⟩
  refine ⟨R, M, _, hR, hM1, hM2, hM3, rfl, hval, ?_, fun c hc => ?_⟩
  · rw [abs_div, abs_div, abs_of_pos hM3, abs_of_pos hnr, div_div, div_le_one (by positivity)]
    have hterm : ∀ i, |(Spec.gain (2 * Real.pi * dl / (beta * lambda0)) (ey i)).re| ≤ M := by
      intro i
      refine (Complex.abs_re_le_norm _).trans ((norm_gain_le _ _).trans ?_)
      rw [div_le_iff₀ (by exact_mod_cast hy)]
      calc ∑ j, ‖ey i j‖ ≤ ∑ _j : Fin S.Ny, M := Finset.sum_le_sum fun j _ => (hM1 i j).2
        _ = M * S.Ny := by rw [Finset.sum_const, Finset.card_univ, Fintype.card_fin, nsmul_eq_mul, mul_comm]
    calc |∑ i ∈ R, (Spec.gain (2 * Real.pi * dl / (beta * lambda0)) (ey i)).re| ≤ ∑ i ∈ R, |(Spec.gain (2 * Real.pi * dl / (beta * lambda0)) (ey i)).re| := Finset.abs_sum_le_sum_abs _ _
      _ ≤ ∑ _i ∈ R, M := Finset.sum_le_sum fun i _ => hterm i
      _ = R.card * M := by rw [Finset.sum_const, nsmul_eq_mul]
      _ ≤ n * M := mul_le_mul_of_nonneg_right (by exact_mod_cast hcard) hM3.le
      _ = M * n := mul_comm _ _
  · have hcc : (c : ℂ) ≠ 0 := by exact_mod_cast hc.ne'
    obtain ⟨M', -, ⟨mx', my', hmx', hmy', hMe'⟩, -, -, hval'⟩ := key (fun i j => (c : ℂ) * ex i j) (fun i j => (c : ℂ) * ey i j) ⟨i0, j0, h0.imp (mul_ne_zero hcc) (mul_ne_zero hcc)⟩
    have hsc : ∀ (f : Grid S.Nx S.Ny ℂ) (m m' : ℝ), (arrMax fun i j => ‖f i j‖) = .ok m → (arrMax fun i j => ‖(c : ℂ) * f i j‖) = .ok m' → m' = c * m := by
      intro f m m' h h'
      obtain ⟨a, ha, ha1, i, j, ha2⟩ := arrMax_norm hx hy f
      obtain ⟨a', ha', ha1', i', j', ha2'⟩ := arrMax_norm hx hy fun i j => (c : ℂ) * f i j
      have em : m = a := Except.ok.inj (h.symm.trans ha)
      have em' : m' = a' := Except.ok.inj (h'.symm.trans ha')
      have hnorm : ∀ i j, ‖(c : ℂ) * f i j‖ = c * ‖f i j‖ := fun i j => by rw [norm_mul, Complex.norm_real, Real.norm_of_nonneg hc.le]
      rw [em, em']
      refine le_antisymm ?_ ?_
      · rw [ha2', hnorm]
        exact mul_le_mul_of_nonneg_left (ha1 i' j') hc.le
      · rw [ha2, ← hnorm]
        exact ha1' i j
    rw [hval']
    have hMM : M' = c * M := by
      rw [hMe', hMe, hsc ex mx mx' hmx hmx', hsc ey my my' hmy hmy', show (c * mx) ^ 2 + (c * my) ^ 2 = c ^ 2 * (mx ^ 2 + my ^ 2) by ring, Real.sqrt_mul (by positivity), Real.sqrt_sq hc.le]
    refine congrArg Except.ok ?_
    have hsum : ∑ i ∈ R, (Spec.gain (2 * Real.pi * dl / (beta * lambda0)) (fun j => (c : ℂ) * ey i j)).re = c * ∑ i ∈ R, (Spec.gain (2 * Real.pi * dl / (beta * lambda0)) (ey i)).re := by
      rw [Finset.mul_sum]
      refine Finset.sum_congr rfl fun i _ => ?_
      rw [gain_smul, Complex.re_ofReal_mul]
    rw [hsum, hMM, mul_div_mul_left _ _ hc.ne']

/-! ## Non-trivial cases -/

example : ∃ J, accelJ 3 4 1 (1 / 2) 8 2 = .ok J ∧ J.arity = 1 ∧ (∀ x, Spec.Autograd J x) ∧
    ∀ ey, J.call [ey] = .ok (Spec.seen (2 * Real.pi * 3 / (8 * 1)) (1 * 1) (1 / 2 * 3) (ey (Spec.midRow 3 (by norm_num))) / 2) :=
  C104_force (by norm_num) (by norm_num) 1 (1 / 2) 8 2 1 3 _ (by norm_num) (by norm_num) (by norm_num) (by norm_num) (by norm_num) rfl

/-- A device with four cells to the period. -/
example (env : Env) (he : env.Exact) : ∃ Ex Ey Hz F, ((hsim 3 4 fun i _ => stripSrc 3 i).solve_fields env false true).1 = .ok (Ex, Ey, Hz) ∧ accelJ 3 4 1 (1 / 2) 8 2 = .ok F ∧ F.call [Ey] = .ok 0 :=
  let ⟨Ex, Ey, Hz, F, h1, h2, h3, _⟩ := C104_unpatterned env he (hsim 3 4 fun i _ => stripSrc 3 i) (hsim_valid _) rfl (by norm_num) (by norm_num) _ _ hsim_uniform (hsim_det (by norm_num) (by norm_num) _) true
    1 (1 / 2) 8 2 one_pos (by norm_num) (by norm_num) (by norm_num) (pyInt_ofInt _ 4 (by norm_num)).symm
  ⟨Ex, Ey, Hz, F, h1, h2, h3 (by norm_num)⟩

/-- The same device with a period of four and a half cells, cut to four. -/
example (env : Env) (he : env.Exact) : ∃ Ex Ey Hz, ((hsim 3 4 fun i _ => stripSrc 3 i).solve_fields env false true).1 = .ok (Ex, Ey, Hz) ∧
    ((∃ j, Ey (Spec.midRow 3 (by norm_num)) j ≠ 0) → Spec.gain (2 * Real.pi * 1 / (1 / 2 * 9)) (Ey (Spec.midRow 3 (by norm_num))) ≠ 0) :=
  let ⟨Ex, Ey, Hz, _, h1, _, _, h4⟩ := C104_unpatterned env he (hsim 3 4 fun i _ => stripSrc 3 i) (hsim_valid _) rfl (by norm_num) (by norm_num) _ _ hsim_uniform (hsim_det (by norm_num) (by norm_num) _) true
    1 (1 / 2) 9 2 one_pos (by norm_num) (by norm_num) (by norm_num) (pyInt_nat _ 4 (by norm_num) (by norm_num)).symm
  ⟨Ex, Ey, Hz, h1, h4 (by norm_num)⟩

example : ∃ J v m, accelJ 2 2 1 1 2 1 = .ok J ∧ J.call [fun i j => (i.val + 2 * j.val : ℂ)] = .ok v ∧ meanRow (fun i j : Fin 2 => (i.val + 2 * j.val : ℂ)) = .ok m ∧ |v| ≤ m / 1 :=
  C104_bound (by norm_num) (by norm_num) 1 1 2 1 one_ne_zero two_ne_zero one_pos _

example (env : Env) (he : env.Exact) : ∃ t t', ((hsim 3 4 fun i j => (i.val + j.val : ℂ)).solve_fields env).1 = .ok t ∧
    ({ hsim 3 4 (fun i j => (i.val + j.val : ℂ)) with src := fun i j => ((7 : ℝ) : ℂ) * (hsim 3 4 fun i j => (i.val + j.val : ℂ)).src i j }.solve_fields env).1 = .ok t' :=
  let ⟨t, _, t', _, _, h1, _, h2, _⟩ := C104_amplitude env he (hsim 3 4 fun i j => (i.val + j.val : ℂ)) (hsim 3 4 fun _ _ => 1) (by norm_num) (by norm_num) (hsim_det (by norm_num) (by norm_num) _)
    (hsim_det (by norm_num) (by norm_num) _) false 7 (by norm_num) 1 (1 / 2) 8 (by norm_num) (by norm_num)
  ⟨t, t', h1, h2⟩

example (env : Env) (he : env.Exact) : ∃ t t', ((hsim 3 4 fun i j => (i.val + j.val : ℂ)).solve_fields env).1 = .ok t ∧
    ((toRoll 0 1 (hsim 3 4 fun i j => (i.val + j.val : ℂ))).solve_fields env).1 = .ok t' ∧
    ‖Spec.gain (2 * Real.pi * 1 / (1 / 2 * 8)) (t'.2.1 (Spec.midRow 3 (by norm_num)))‖ = ‖Spec.gain (2 * Real.pi * 1 / (1 / 2 * 8)) (t.2.1 (Spec.midRow 3 (by norm_num)))‖ :=
  let ⟨t, t', h1, h2, _, h3⟩ := C104_moved env he (hsim 3 4 fun i j => (i.val + j.val : ℂ)) _ 1 (toRoll_moved 0 1 _) (hsim_valid _) (toRoll_valid 0 1 _ (hsim_valid _)) rfl (by norm_num) (by norm_num)
    (hsim_det (by norm_num) (by norm_num) _) false 1 (1 / 2) 8 one_pos (by norm_num)
  ⟨t, t', h1, h2, h3⟩

example (env : Env) (Hz : Grid 5 4 ℂ) (ob : Objective 5 4) : ∃ q : Grid 5 4 ℂ, Opt.grad_linear_Ey env (hopt (fun _ _ => 1) ob) (fun i _ => if i = 2 then 1 else 0) Hz = Opt.grad_linear_Hz env (hopt (fun _ _ => 1) ob) q Hz :=
  (C104_gradient_row env (hopt (fun _ _ => 1) ob) (hsim_valid _) rfl (by norm_num) (fun i _ => if i = 2 then 1 else 0) Hz 2 (fun _ _ h => if_neg h) (fun _ _ => one_ne_zero) (fun _ => rfl)
    (by simp only [Spec.sx, hopt, hsim, sfactor_zero])).imp fun _ h => h.2

example : ∃ H : Grid 5 4 ℂ, ∑ _j : Fin 4, 1 * ((hsim 5 4 fun _ _ => 1).in_plane false (hsim 5 4 fun _ _ => 1).eps_r (flatten H)).2.1 (Spec.next 2) _j ≠
    ∑ j : Fin 4, 1 * ((hsim 5 4 fun _ _ => 1).in_plane false (hsim 5 4 fun _ _ => 1).eps_r (flatten H)).2.1 2 j :=
  C104_gradient_row_false (hsim 5 4 fun _ _ => 1) (hsim_valid _) rfl (div_pos (by norm_num) ETA_0_pos) (by norm_num) (by norm_num) (fun _ _ => 1) 2 0 one_ne_zero (fun _ _ => one_ne_zero)
    (by simp only [Spec.sx, hsim, sfactor_zero]; exact one_ne_zero)

theorem accelerator_multi_case : ∃ S, accelerator_multi 1 4 4 2 1 3 1 (2, 0) 2 = .ok S ∧ S.Ny = 4 ∧ S.Nx = 32 := by
  have h1 : pyInt (((4 : ℝ) * 1 + 2 * 2 * ((3 : ℤ) : ℝ) + 4 * ((3 : ℤ) : ℝ)) / 1) = 28 := pyInt_ofInt _ 28 (by norm_num)
  have h2 : pyInt ((1 : ℝ) * 4 / 1) = 4 := pyInt_ofInt _ 4 (by norm_num)
  unfold accelerator_multi
  rw [if_neg (by norm_num), if_neg one_ne_zero]
  simp only [h1, h2]
  obtain ⟨S, hS⟩ := build_returns (2 * 2 + 28) 4 1 2 1 ((List.range ((3 : ℤ) / 2 + 1).toNat).map fun i : ℕ => fun x _ => 4 / 2 < |x| - (i : ℝ) * (4 + 2) ∧ |x| - (i : ℝ) * (4 + 2) < 4 / 2 + 2)
    ((List.range ((3 : ℤ) / 2 + 1).toNat).map fun i : ℕ => fun x _ => 4 / 2 < |x| - (i : ℝ) * (4 + 2) ∧ |x| - (i : ℝ) * (4 + 2) < 4 / 2 + 2) (by norm_num) (by norm_num)
  obtain ⟨a, b, -⟩ := build_ok hS
  exact ⟨S, hS, by omega, by omega⟩

/-- Three channels; the fields decrease along the beam. -/
example : ∃ (S : Structure) (v : ℝ), accelerator_multi 1 4 4 2 1 3 1 (2, 0) 2 = .ok S ∧ multiGain 1 1 4 4 2 3 (fun (_ : Fin S.Nx) (_ : Fin S.Ny) => (0 : ℂ)) (fun _ j => 1 / (j.val + 1)) = .ok v ∧ |v| ≤ 1 := by
  obtain ⟨S, hS, hy, hx⟩ := accelerator_multi_case
  obtain ⟨R, M, v, -, -, -, -, -, h1, h2, -⟩ := C104_multi 1 4 4 2 1 1 2 3 (2, 0) S hS one_pos (by norm_num) (by norm_num) (by norm_num) (by norm_num) (by norm_num) one_ne_zero (by norm_num) (by omega)
    (fun _ _ => 0) (fun _ j => 1 / (j.val + 1)) ⟨⟨0, by omega⟩, ⟨0, by omega⟩, Or.inr (by simp)⟩
  exact ⟨S, v, hS, h1, h2⟩

end Angler
