import Verif.Model.Animation
import Verif.Props.Power
import Verif.Props.Plots
import Mathlib.Analysis.SpecialFunctions.Integrals.Basic
import Mathlib.Analysis.SpecialFunctions.Trigonometric.Deriv
import Mathlib.RingTheory.RootsOfUnity.Complex

/-! # C90 (the fields in time: animation, time-domain Maxwell equations, time-averaged power) -/

namespace Angler

open Finset

variable {Nx Ny : ℕ}

/-! ## Specification -/

/-- The real quantity, varying in time, that a complex amplitude `z` stands for: `Re (z exp(iωt))`. -/
noncomputable def Spec.inTime (omega : ℝ) (z : ℂ) (t : ℝ) : ℝ := z.re * Real.cos (omega * t) - z.im * Real.sin (omega * t)

/-- Mean value over one period `2π/ω`. -/
noncomputable def Spec.mean (omega : ℝ) (f : ℝ → ℝ) : ℝ := (∫ t in (0 : ℝ)..(2 * Real.pi / omega), f t) / (2 * Real.pi / omega)

/-! ## Lemmas -/

theorem inTime_exp (omega : ℝ) (z : ℂ) (t : ℝ) : Spec.inTime omega z t = (z * Complex.exp (((omega * t : ℝ) : ℂ) * Complex.I)).re := by
  rw [Complex.mul_re, Complex.exp_ofReal_mul_I_re, Complex.exp_ofReal_mul_I_im]
  rfl

theorem inTime_sub (omega : ℝ) (z w : ℂ) (t : ℝ) : Spec.inTime omega (z - w) t = Spec.inTime omega z t - Spec.inTime omega w t := by
  simp only [Spec.inTime, Complex.sub_re, Complex.sub_im]
  ring

theorem inTime_add (omega : ℝ) (z w : ℂ) (t : ℝ) : Spec.inTime omega (z + w) t = Spec.inTime omega z t + Spec.inTime omega w t := by
  simp only [Spec.inTime, Complex.add_re, Complex.add_im]
  ring

theorem inTime_neg (omega : ℝ) (z : ℂ) (t : ℝ) : Spec.inTime omega (-z) t = -Spec.inTime omega z t := by
  simp only [Spec.inTime, Complex.neg_re, Complex.neg_im]
  ring

theorem inTime_smul (omega a : ℝ) (z : ℂ) (t : ℝ) : Spec.inTime omega ((a : ℂ) * z) t = a * Spec.inTime omega z t := by
  simp only [Spec.inTime, Complex.re_ofReal_mul, Complex.im_ofReal_mul]
  ring

theorem inTime_div (omega a : ℝ) (z : ℂ) (t : ℝ) : Spec.inTime omega (z / (a : ℂ)) t = Spec.inTime omega z t / a := by
  simp only [Spec.inTime, Complex.div_ofReal_re, Complex.div_ofReal_im]
  ring

theorem inTime_deriv (omega : ℝ) (z : ℂ) (t : ℝ) : HasDerivAt (Spec.inTime omega z) (Spec.inTime omega (Complex.I * omega * z) t) t := by
  have h0 : HasDerivAt (fun t => omega * t) omega t := by simpa using (hasDerivAt_id t).const_mul omega
  have h := (h0.cos.const_mul z.re).sub (h0.sin.const_mul z.im)
  refine h.congr_deriv ?_
  simp only [Spec.inTime, Complex.mul_re, Complex.mul_im, Complex.I_re, Complex.I_im, Complex.ofReal_re, Complex.ofReal_im]
  ring

theorem inTime_deriv_smul (omega a : ℝ) (z w : ℂ) (t : ℝ) (h : Complex.I * omega * a * z = w) :
    HasDerivAt (fun t => a * Spec.inTime omega z t) (Spec.inTime omega w t) t := by
  refine ((inTime_deriv omega z t).const_mul a).congr_deriv ?_
  rw [← h, ← inTime_smul]
  congr 1
  ring

/-- An antiderivative over a whole period. -/
theorem mean_mul (omega : ℝ) (ho : 0 < omega) (z w : ℂ) : Spec.mean omega (fun t => Spec.inTime omega z t * Spec.inTime omega w t) = (z * (starRingEnd ℂ) w).re / 2 := by
  set T := 2 * Real.pi / omega with hT
  have hTp : 0 < T := by positivity
  have hoT : omega * T = 2 * Real.pi := by rw [hT]; field_simp
  set a := (z.re * w.re + z.im * w.im) / 2 with ha
  set b := (z.re * w.re - z.im * w.im) / 2 with hb
  set c := (z.re * w.im + z.im * w.re) / 2 with hc
  have hpt : ∀ t, HasDerivAt (fun t => a * t + b / (2 * omega) * Real.sin (2 * omega * t) + c / (2 * omega) * Real.cos (2 * omega * t))
      (Spec.inTime omega z t * Spec.inTime omega w t) t := by
    intro t
    have h0 : HasDerivAt (fun t => 2 * omega * t) (2 * omega) t := by simpa using (hasDerivAt_id t).const_mul (2 * omega)
    have h := (((hasDerivAt_id t).const_mul a).add (h0.sin.const_mul (b / (2 * omega)))).add (h0.cos.const_mul (c / (2 * omega)))
    refine h.congr_deriv ?_
    have e : 2 * omega * t = 2 * (omega * t) := by ring
    have hs := Real.sin_sq_add_cos_sq (omega * t)
    simp only [e, Real.sin_two_mul, Real.cos_two_mul, Spec.inTime, ha, hb, hc]
    field_simp
    have hs' : Real.sin (omega * t) ^ 2 = 1 - Real.cos (omega * t) ^ 2 := by linarith
    ring_nf
    ring_nf at hs'
    rw [hs']
    ring
  have hcont : Continuous fun t => Spec.inTime omega z t * Spec.inTime omega w t := by
    unfold Spec.inTime
    fun_prop
  have hI := intervalIntegral.integral_eq_sub_of_hasDerivAt (a := 0) (b := T) (fun t _ => hpt t) (hcont.intervalIntegrable _ _)
  have e2 : 2 * omega * T = 2 * Real.pi + 2 * Real.pi := by linarith
  unfold Spec.mean
  rw [← hT, hI, e2, Real.sin_add_two_pi, Real.sin_two_pi, Real.cos_add_two_pi, Real.cos_two_pi]
  simp only [mul_zero, Real.sin_zero, Real.cos_zero, add_zero, zero_add, mul_one, add_sub_cancel_right]
  rw [mul_div_assoc, div_self hTp.ne', mul_one, ha, Complex.mul_re, Complex.conj_re, Complex.conj_im]
  ring

theorem mean_sum {ι : Type*} (omega : ℝ) (S : Finset ι) (f : ι → ℝ → ℝ) (hf : ∀ i, Continuous (f i)) (k : ℝ) :
    Spec.mean omega (fun t => k * ∑ i ∈ S, f i t) = k * ∑ i ∈ S, Spec.mean omega (f i) := by
  unfold Spec.mean
  rw [intervalIntegral.integral_const_mul, intervalIntegral.integral_finsetSum fun i _ => (hf i).intervalIntegrable _ _, mul_div_assoc, Finset.sum_div]

theorem inTime_continuous (omega : ℝ) (z : ℂ) : Continuous (Spec.inTime omega z) := by
  unfold Spec.inTime
  fun_prop


/-! ## The animation -/

theorem mapM_ani_ok {α β : Type} (g : α → β) (f : α → Except PyErr β) (l : List α) (h : ∀ a ∈ l, f a = .ok (g a)) : l.mapM f = .ok (l.map g) := by
  induction l with
  | nil => rfl
  | cons a l ih =>
    rw [List.mapM_cons, h a (by simp), ih fun b hb => h b (by simp [hb])]
    rfl

theorem animate_inTime (F : Grid Nx Ny ℂ) (N : ℕ) (hN : 1 < N) (k : ℕ) :
    animate F N k = .ok fun y x => Spec.inTime 1 (F x y) (2 * Real.pi * k / ((N : ℝ) - 1)) := by
  unfold animate
  rw [if_neg (by omega)]
  congr 1
  funext y x
  rw [inTime_exp]
  congr 3
  push_cast
  ring

/-- **C90, the frames.** With at least two frames, frame `k` shows at row `y`, column `x` the real field `Re (F e^{iωt})` of pixel `(x, y)` at the time `ωt = 2πk/(Nframes-1)`: the frames run forward
through exactly one period, the last one is the first one again, and no value leaves the colour limits, which are symmetric and given by the largest modulus. -/
theorem C90_frames (F : Grid Nx Ny ℂ) (hx : 0 < Nx) (hy : 0 < Ny) (N : ℕ) (hN : 1 < N) :
    ∃ m, plt_base_ani F N = .ok m ∧ ∃ hl : m.frames.length = N,
      (∀ (k : ℕ) (hk : k < N) y x, m.frames[k] y x = Spec.inTime 1 (F x y) (2 * Real.pi * k / ((N : ℝ) - 1))) ∧
      m.frames[N - 1] = m.frames[0] ∧ m.vmin = -m.vmax ∧ Spec.Largest (fun i j => ‖F i j‖) m.vmax ∧ ∀ f ∈ m.frames, ∀ y x, m.vmin ≤ f y x ∧ f y x ≤ m.vmax := by
  obtain ⟨v, hv, hL⟩ := arrMax_ok hx hy fun i j => ‖F i j‖
  have hM := mapM_ani_ok (fun (k : ℕ) (y : Fin Ny) (x : Fin Nx) => Spec.inTime 1 (F x y) (2 * Real.pi * k / ((N : ℝ) - 1))) (animate F N) (List.range N) fun k _ => animate_inTime F N hN k
  have hN1 : (N : ℝ) - 1 ≠ 0 := by
    have : (1 : ℝ) < N := by exact_mod_cast hN
    linarith
  have hl : ((List.range N).map fun (k : ℕ) (y : Fin Ny) (x : Fin Nx) => Spec.inTime 1 (F x y) (2 * Real.pi * k / ((N : ℝ) - 1))).length = N := by simp
  have h1 : ∀ (k : ℕ) (hk : k < N) y x, ((List.range N).map fun (k : ℕ) (y : Fin Ny) (x : Fin Nx) => Spec.inTime 1 (F x y) (2 * Real.pi * k / ((N : ℝ) - 1)))[k] y x =
      Spec.inTime 1 (F x y) (2 * Real.pi * k / ((N : ℝ) - 1)) := fun k hk y x => by simp
  refine ⟨⟨(Nx, Ny), _, -v, v⟩, by unfold plt_base_ani; rw [hv, hM], hl, h1, ?_, rfl, hL, ?_⟩
  · funext y x
    refine (h1 (N - 1) (by omega) y x).trans (Eq.trans ?_ (h1 0 (by omega) y x).symm)
    rw [Nat.cast_sub hN.le, Nat.cast_one, mul_div_assoc, div_self hN1]
    simp only [CharP.cast_eq_zero, zero_div, mul_zero, mul_one, Spec.inTime, one_mul, Real.cos_two_pi, Real.sin_two_pi, Real.cos_zero, Real.sin_zero]
  · intro f hf y x
    obtain ⟨k, -, rfl⟩ := List.mem_map.mp hf
    have hb : |Spec.inTime 1 (F x y) (2 * Real.pi * k / ((N : ℝ) - 1))| ≤ v := by
      rw [inTime_exp]
      refine (Complex.abs_re_le_norm _).trans ?_
      rw [norm_mul, Complex.norm_exp_ofReal_mul_I, mul_one]
      exact hL.1 x y
    exact abs_le.mp hb

/-- The root of unity that advances the animation by one frame. -/
theorem frame_root (M : ℕ) (hM : M ≠ 0) (z : ℂ) (k : ℕ) : Spec.inTime 1 z (2 * Real.pi * k / M) = (z * Complex.exp (2 * Real.pi * Complex.I / M) ^ k).re := by
  rw [inTime_exp, ← Complex.exp_nat_mul]
  congr 3
  push_cast
  field_simp

theorem list_sum_range (f : ℕ → ℝ) (n : ℕ) : ((List.range n).map f).sum = ∑ k ∈ range n, f k := by
  induction n with
  | zero => rfl
  | succ n ih => rw [List.range_succ, List.map_append, List.sum_append, ih, Finset.sum_range_succ]; simp

/-- **C90, averages over the frames.** With at least four frames (three different ones), the frames of one period average to zero at every pixel, and the mean of their squares is half the squared modulus
that `plt_abs` draws. -/
theorem C90_frame_means (F : Grid Nx Ny ℂ) (N : ℕ) (hN : 3 < N) (m : Movie Ny Nx) (hm : plt_base_ani F N = .ok m) (y : Fin Ny) (x : Fin Nx) :
    ((m.frames.take (N - 1)).map fun f => f y x).sum / (N - 1) = 0 ∧ ((m.frames.take (N - 1)).map fun f => f y x ^ 2).sum / (N - 1) = ‖F x y‖ ^ 2 / 2 := by
  have hM := mapM_ani_ok (fun (k : ℕ) (y : Fin Ny) (x : Fin Nx) => Spec.inTime 1 (F x y) (2 * Real.pi * k / ((N : ℝ) - 1))) (animate F N) (List.range N)
    fun k _ => animate_inTime F N (by omega) k
  have hfr : m.frames = (List.range N).map fun (k : ℕ) (y : Fin Ny) (x : Fin Nx) => Spec.inTime 1 (F x y) (2 * Real.pi * k / ((N : ℝ) - 1)) := by
    unfold plt_base_ani at hm
    rw [hM] at hm
    cases ha : arrMax fun i j => ‖F i j‖ with
    | error e => rw [ha] at hm; exact absurd hm (by simp)
    | ok v =>
      rw [ha] at hm
      injection hm with hm
      rw [← hm]
  obtain ⟨M, rfl⟩ : ∃ M, N = M + 1 := ⟨N - 1, by omega⟩
  have hM0 : M ≠ 0 := by omega
  have hMr : (M : ℝ) ≠ 0 := by exact_mod_cast hM0
  have e1 : ((M + 1 : ℕ) : ℝ) - 1 = M := by push_cast; ring
  set z := F x y with hz
  set r := Complex.exp (2 * Real.pi * Complex.I / M) with hr
  have hp : IsPrimitiveRoot r M := Complex.isPrimitiveRoot_exp M hM0
  have hn : ‖r‖ = 1 := Complex.norm_eq_one_of_pow_eq_one hp.pow_eq_one hM0
  have hmap : ∀ g : ℝ → ℝ, ((m.frames.take (M + 1 - 1)).map fun f => g (f y x)).sum = ∑ k ∈ range M, g ((z * r ^ k).re) := by
    intro g
    rw [hfr, ← List.map_take, List.take_range, List.map_map, show min (M + 1 - 1) (M + 1) = M by omega, list_sum_range]
    refine sum_congr rfl fun k _ => ?_
    simp only [Function.comp, e1, frame_root M hM0, ← hz, ← hr]
  have s1 : ∑ k ∈ range M, r ^ k = 0 := hp.geom_sum_eq_zero (by omega)
  have s2 : ∑ k ∈ range M, (r ^ 2) ^ k = 0 := by
    have h1 := geom_sum_mul (r ^ 2) M
    rw [← pow_mul, mul_comm 2, pow_mul, hp.pow_eq_one, one_pow, sub_self] at h1
    refine (mul_eq_zero.mp h1).resolve_right fun h => ?_
    have := (hp.pow_eq_one_iff_dvd 2).mp (sub_eq_zero.mp h)
    exact absurd (Nat.le_of_dvd (by norm_num) this) (by omega)
  refine ⟨?_, ?_⟩
  · rw [e1, hmap fun v => v]
    have : ∑ k ∈ range M, (z * r ^ k).re = (z * ∑ k ∈ range M, r ^ k).re := by rw [mul_sum, Complex.re_sum]
    rw [this, s1, mul_zero, Complex.zero_re, zero_div]
  · rw [e1, hmap fun v => v ^ 2]
    have hsq : ∀ k, (z * r ^ k).re ^ 2 = ‖z‖ ^ 2 / 2 + (z ^ 2 * (r ^ 2) ^ k).re / 2 := by
      intro k
      have hw : ‖z * r ^ k‖ ^ 2 = ‖z‖ ^ 2 := by rw [norm_mul, norm_pow, hn, one_pow, mul_one]
      rw [← hw, show z ^ 2 * (r ^ 2) ^ k = (z * r ^ k) * (z * r ^ k) by ring]
      generalize z * r ^ k = w
      rw [Complex.mul_re, Complex.sq_norm, Complex.normSq_apply]
      ring
    simp only [hsq]
    rw [sum_add_distrib, sum_const, card_range, ← sum_div]
    have : ∑ k ∈ range M, (z ^ 2 * (r ^ 2) ^ k).re = (z ^ 2 * ∑ k ∈ range M, (r ^ 2) ^ k).re := by rw [mul_sum, Complex.re_sum]
    rw [this, s2, mul_zero, Complex.zero_re, nsmul_eq_mul]
    field_simp
    ring

/-- One frame is a division by zero (`Nframes - 1`). -/
theorem C90_one_frame (F : Grid Nx Ny ℂ) (hx : 0 < Nx) (hy : 0 < Ny) : plt_base_ani F 1 = .error .zeroDivisionError := by
  obtain ⟨v, hv, -⟩ := arrMax_ok hx hy fun i j => ‖F i j‖
  unfold plt_base_ani
  rw [hv]
  rfl

/-- The axes are laid out for the shape of a frame only on square grids: `field_val` is already transposed when line 67 transposes the zeros of its shape once more, and `set_data` keeps the extent. -/
theorem C90_layout_square_only (F : Grid Nx Ny ℂ) (N : ℕ) (m : Movie Ny Nx) (hm : plt_base_ani F N = .ok m) : m.layout = (Ny, Nx) ↔ Nx = Ny := by
  have : m.layout = (Nx, Ny) := by
    unfold plt_base_ani at hm
    split at hm
    · exact absurd hm (by simp)
    · split at hm
      · exact absurd hm (by simp)
      · injection hm with hm
        rw [← hm]
  rw [this, Prod.mk.injEq]
  exact ⟨fun h => h.1, fun h => ⟨h, h.symm⟩⟩

/-! ## Maxwell's equations in time -/

/-- **C90, Ez.** The real fields `Re (Hx e^{iωt})`, … of a linear Ez solve satisfy, at every time and at every cell outside the absorbing layers, Maxwell's equations on the staggered grid:
`μ ∂t Hx = -∂y Ez`, `μ ∂t Hy = ∂x Ez`, `ε' ∂t Ez + σ Ez = ∂x Hy - ∂y Hx - J` with conductivity `σ = -ω ε''`. -/
theorem C90_maxwell_Ez (env : Env) (he : env.Exact) (s : Sim Nx Ny) (hv : s.Valid) (hd : 0 < s.dl) (hp : s.pol = .Ez) (hx : 1 < Nx) (hy : 1 < Ny)
    (hdet : s.A.det ≠ 0 ∨ s.src = 0) (avg : Bool) :
    ∃ Hx Hy Ez, (s.solve_fields env false avg).1 = .ok (Hx, Hy, Ez) ∧ ∀ (t : ℝ) (i : Fin Nx) (j : Fin Ny), Spec.OutsideAxis Nx s.NPML.1 i → Spec.OutsideAxis Ny s.NPML.2 j →
      HasDerivAt (fun t => MU_0 * s.L0 * Spec.inTime s.omega (Hx i j) t) (-((Spec.inTime s.omega (Ez i j) t - Spec.inTime s.omega (Ez i (Spec.prev j)) t) / s.dl)) t ∧
      HasDerivAt (fun t => MU_0 * s.L0 * Spec.inTime s.omega (Hy i j) t) ((Spec.inTime s.omega (Ez i j) t - Spec.inTime s.omega (Ez (Spec.prev i) j) t) / s.dl) t ∧
      HasDerivAt (fun t => EPSILON_0 * s.L0 * (s.eps_r i j).re * Spec.inTime s.omega (Ez i j) t)
        ((Spec.inTime s.omega (Hy (Spec.next i) j) t - Spec.inTime s.omega (Hy i j) t) / s.dl - (Spec.inTime s.omega (Hx i (Spec.next j)) t - Spec.inTime s.omega (Hx i j) t) / s.dl
          - Spec.inTime s.omega (s.src i j) t - (-(s.omega * (EPSILON_0 * s.L0 * (s.eps_r i j).im)) * Spec.inTime s.omega (Ez i j) t)) t := by
  obtain ⟨Hx, Hy, Ez, h0, hM⟩ := C13_maxwell_Ez env he s hv hd hp hx hy hdet avg
  refine ⟨Hx, Hy, Ez, h0, fun t i j oi oj => ?_⟩
  have rx : ((0, Nx * s.dl) : ℝ × ℝ).1 < (0, Nx * s.dl).2 := mul_pos (by exact_mod_cast (by omega : 0 < Nx)) hd
  have ry : ((0, Ny * s.dl) : ℝ × ℝ).1 < (0, Ny * s.dl).2 := mul_pos (by exact_mod_cast (by omega : 0 < Ny)) hd
  obtain ⟨m1, m2, m3⟩ := hM i j
  rw [sfactor_outside ry hv.L0_pos hv.omega_pos _ _ oj, div_one] at m1
  rw [sfactor_outside rx hv.L0_pos hv.omega_pos _ _ oi, div_one] at m2
  rw [sfactor_outside rx hv.L0_pos hv.omega_pos _ _ oi, sfactor_outside ry hv.L0_pos hv.omega_pos _ _ oj, div_one, div_one] at m3
  refine ⟨?_, ?_, ?_⟩
  · rw [← inTime_sub, ← inTime_div, ← inTime_neg]
    exact inTime_deriv_smul _ _ _ _ t m1
  · rw [← inTime_sub, ← inTime_div]
    exact inTime_deriv_smul _ _ _ _ t m2
  · rw [← inTime_sub, ← inTime_div, ← inTime_sub, ← inTime_div, ← inTime_sub, ← inTime_sub, ← inTime_smul, ← inTime_sub]
    refine inTime_deriv_smul _ _ _ _ t ?_
    rw [← m3]
    simp only [Spec.fwdX, Spec.fwdY]
    have hr := Complex.re_add_im (s.eps_r i j)
    push_cast
    linear_combination (Complex.I * s.omega * EPSILON_0 * s.L0 * Ez i j) * hr - ((s.omega : ℂ) * EPSILON_0 * s.L0 * (s.eps_r i j).im * Ez i j) * Complex.I_sq

/-- **C90, Hz.** With `averaging=True` (or a permittivity that averaging does not change), the real fields of an Hz solve satisfy `ε' ∂t Ex + σ Ex = ∂y Hz`, `ε' ∂t Ey + σ Ey = -∂x Hz`,
`μ ∂t Hz = ∂y Ex - ∂x Ey - M`, with the permittivities at the edges where the fields live. -/
theorem C90_maxwell_Hz (env : Env) (he : env.Exact) (s : Sim Nx Ny) (hv : s.Valid) (hd : 0 < s.dl) (hp : s.pol = .Hz) (hx : 1 < Nx) (hy : 1 < Ny)
    (hdet : s.A.det ≠ 0 ∨ s.src = 0) (avg : Bool)
    (havg : avg = true ∨ (Spec.edgeX (EPSILON_0 * s.L0) s.eps_r = (fun i j => ((EPSILON_0 * s.L0 : ℝ) : ℂ) * s.eps_r i j) ∧
      Spec.edgeY (EPSILON_0 * s.L0) s.eps_r = (fun i j => ((EPSILON_0 * s.L0 : ℝ) : ℂ) * s.eps_r i j)))
    (hne : ∀ i j, Spec.edgeX (EPSILON_0 * s.L0) s.eps_r i j ≠ 0 ∧ Spec.edgeY (EPSILON_0 * s.L0) s.eps_r i j ≠ 0) :
    ∃ Ex Ey Hz, (s.solve_fields env false avg).1 = .ok (Ex, Ey, Hz) ∧ ∀ (t : ℝ) (i : Fin Nx) (j : Fin Ny), Spec.OutsideAxis Nx s.NPML.1 i → Spec.OutsideAxis Ny s.NPML.2 j →
      HasDerivAt (fun t => (Spec.edgeY (EPSILON_0 * s.L0) s.eps_r i j).re * Spec.inTime s.omega (Ex i j) t)
        ((Spec.inTime s.omega (Hz i j) t - Spec.inTime s.omega (Hz i (Spec.prev j)) t) / s.dl
          - (-(s.omega * (Spec.edgeY (EPSILON_0 * s.L0) s.eps_r i j).im) * Spec.inTime s.omega (Ex i j) t)) t ∧
      HasDerivAt (fun t => (Spec.edgeX (EPSILON_0 * s.L0) s.eps_r i j).re * Spec.inTime s.omega (Ey i j) t)
        (-((Spec.inTime s.omega (Hz i j) t - Spec.inTime s.omega (Hz (Spec.prev i) j) t) / s.dl)
          - (-(s.omega * (Spec.edgeX (EPSILON_0 * s.L0) s.eps_r i j).im) * Spec.inTime s.omega (Ey i j) t)) t ∧
      HasDerivAt (fun t => MU_0 * s.L0 * Spec.inTime s.omega (Hz i j) t)
        ((Spec.inTime s.omega (Ex i (Spec.next j)) t - Spec.inTime s.omega (Ex i j) t) / s.dl - (Spec.inTime s.omega (Ey (Spec.next i) j) t - Spec.inTime s.omega (Ey i j) t) / s.dl
          - Spec.inTime s.omega (s.src i j) t) t := by
  obtain ⟨Ex, Ey, Hz, h0, hM⟩ := C14_maxwell_Hz_partial env he s hv hd hp hx hy hdet avg havg hne
  refine ⟨Ex, Ey, Hz, h0, fun t i j oi oj => ?_⟩
  have rx : ((0, Nx * s.dl) : ℝ × ℝ).1 < (0, Nx * s.dl).2 := mul_pos (by exact_mod_cast (by omega : 0 < Nx)) hd
  have ry : ((0, Ny * s.dl) : ℝ × ℝ).1 < (0, Ny * s.dl).2 := mul_pos (by exact_mod_cast (by omega : 0 < Ny)) hd
  obtain ⟨m1, m2, m3⟩ := hM i j
  rw [sfactor_outside ry hv.L0_pos hv.omega_pos _ _ oj, div_one] at m1
  rw [sfactor_outside rx hv.L0_pos hv.omega_pos _ _ oi, div_one] at m2
  rw [sfactor_outside rx hv.L0_pos hv.omega_pos _ _ oi, sfactor_outside ry hv.L0_pos hv.omega_pos _ _ oj, div_one, div_one] at m3
  refine ⟨?_, ?_, ?_⟩
  · rw [← inTime_sub, ← inTime_div, ← inTime_smul, ← inTime_sub]
    refine inTime_deriv_smul _ _ _ _ t ?_
    have hr := Complex.re_add_im (Spec.edgeY (EPSILON_0 * s.L0) s.eps_r i j)
    simp only [Spec.bwdY] at m1
    rw [← m1]
    push_cast
    generalize Spec.edgeY (EPSILON_0 * s.L0) s.eps_r i j = e at hr ⊢
    linear_combination (Complex.I * s.omega * Ex i j) * hr - ((s.omega : ℂ) * e.im * Ex i j) * Complex.I_sq
  · rw [← inTime_sub, ← inTime_div, ← inTime_neg, ← inTime_smul, ← inTime_sub]
    refine inTime_deriv_smul _ _ _ _ t ?_
    have hr := Complex.re_add_im (Spec.edgeX (EPSILON_0 * s.L0) s.eps_r i j)
    simp only [Spec.bwdX] at m2
    rw [← m2]
    push_cast
    generalize Spec.edgeX (EPSILON_0 * s.L0) s.eps_r i j = e at hr ⊢
    linear_combination (Complex.I * s.omega * Ey i j) * hr - ((s.omega : ℂ) * e.im * Ey i j) * Complex.I_sq
  · rw [← inTime_sub, ← inTime_div, ← inTime_sub, ← inTime_div, ← inTime_sub, ← inTime_sub]
    refine inTime_deriv_smul _ _ _ _ t ?_
    rw [← m3]
    simp only [Spec.fwdX, Spec.fwdY]
    ring

/-! ## Powers are means over one period -/

theorem mean_avg_mul (omega : ℝ) (ho : 0 < omega) (c : ℝ) (a b w : ℂ) :
    Spec.mean omega (fun t => c * ((Spec.inTime omega a t + Spec.inTime omega b t) / 2 * Spec.inTime omega w t)) = c * ((((a + b) / 2) * (starRingEnd ℂ) w).re / 2) := by
  have e : ∀ t, (Spec.inTime omega a t + Spec.inTime omega b t) / 2 = Spec.inTime omega ((a + b) / 2) t := fun t => by
    rw [← inTime_add, show ((a + b) / 2 : ℂ) = (a + b) / ((2 : ℝ) : ℂ) by norm_num, inTime_div]
  simp only [e]
  rw [← mean_mul omega ho]
  unfold Spec.mean
  rw [intervalIntegral.integral_const_mul, mul_div_assoc]

/-- **C90, the probe, normal `x`.** For a line inside the grid the value of `flux_probe` is the mean over one period of the instantaneous power through the line, `dl · Σ (E × H)_x` of the real fields at
time `t` (the out-of-plane field averaged over the two columns). -/
theorem C90_probe_x (s : Sim Nx Ny) (ho : 0 < s.omega) (nl : Bool) (c yc : ℤ) (w : ℝ) (col col1 : Fin Nx) (h1 : col1.val = col + 1) (a b : ℕ) (hc : Spec.Denotes Nx 1 c col)
    (hs : Spec.Span Ny (pyInt (yc - w / 2)) (pyInt (yc + w / 2)) a b) (f : Fields Nx Ny) (hf : f = if nl then s.fields_nl else s.fields) :
    (∀ Ez Hy, s.pol = .Ez → f .Ez = some Ez → f .Hy = some Hy → s.flux_probe "x" (c, yc) w nl =
      .ok (Spec.mean s.omega fun t => s.dl * ∑ j with a ≤ (j : Fin Ny).val ∧ j.val < b,
        -1 * ((Spec.inTime s.omega (Ez col j) t + Spec.inTime s.omega (Ez col1 j) t) / 2 * Spec.inTime s.omega (Hy col j) t))) ∧
    (∀ Hz Ey, s.pol = .Hz → f .Hz = some Hz → f .Ey = some Ey → s.flux_probe "x" (c, yc) w nl =
      .ok (Spec.mean s.omega fun t => s.dl * ∑ j with a ≤ (j : Fin Ny).val ∧ j.val < b,
        1 * ((Spec.inTime s.omega (Hz col j) t + Spec.inTime s.omega (Hz col1 j) t) / 2 * Spec.inTime s.omega (Ey col j) t))) := by
  have hcont : ∀ (c : ℝ) (z z' w : ℂ), Continuous fun t => c * ((Spec.inTime s.omega z t + Spec.inTime s.omega z' t) / 2 * Spec.inTime s.omega w t) := fun c z z' w =>
    continuous_const.mul ((((inTime_continuous _ _).add (inTime_continuous _ _)).div_const _).mul (inTime_continuous _ _))
  obtain ⟨k1, k2⟩ := C51_flux_x_partial s nl c yc w col col1 h1 a b hc hs f hf
  refine ⟨fun Ez Hy hp hE hH => ?_, fun Hz Ey hp hE hH => ?_⟩
  · rw [k1 Ez Hy hp hE hH, mean_sum _ _ _ fun j => hcont _ _ _ _]
    congr 2
    refine sum_congr rfl fun j _ => ?_
    rw [mean_avg_mul _ ho, Spec.Sx, zero_mul, zero_sub, Complex.neg_re]
    ring
  · rw [k2 Hz Ey hp hE hH, mean_sum _ _ _ fun j => hcont _ _ _ _]
    congr 2
    refine sum_congr rfl fun j _ => ?_
    rw [mean_avg_mul _ ho, Spec.Sx, zero_mul, sub_zero, Complex.mul_re, Complex.mul_re]
    simp only [Complex.conj_re, Complex.conj_im]
    ring

/-- **C90, the probe, normal `y`.** -/
theorem C90_probe_y (s : Sim Nx Ny) (ho : 0 < s.omega) (nl : Bool) (xc c : ℤ) (w : ℝ) (row row1 : Fin Ny) (h1 : row1.val = row + 1) (a b : ℕ) (hc : Spec.Denotes Ny 1 c row)
    (hs : Spec.Span Nx (pyInt (xc - w / 2)) (pyInt (xc + w / 2)) a b) (f : Fields Nx Ny) (hf : f = if nl then s.fields_nl else s.fields) :
    (∀ Ez Hx, s.pol = .Ez → f .Ez = some Ez → f .Hx = some Hx → s.flux_probe "y" (xc, c) w nl =
      .ok (Spec.mean s.omega fun t => s.dl * ∑ i with a ≤ (i : Fin Nx).val ∧ i.val < b,
        1 * ((Spec.inTime s.omega (Ez i row) t + Spec.inTime s.omega (Ez i row1) t) / 2 * Spec.inTime s.omega (Hx i row) t))) ∧
    (∀ Hz Ex, s.pol = .Hz → f .Hz = some Hz → f .Ex = some Ex → s.flux_probe "y" (xc, c) w nl =
      .ok (Spec.mean s.omega fun t => s.dl * ∑ i with a ≤ (i : Fin Nx).val ∧ i.val < b,
        -1 * ((Spec.inTime s.omega (Hz i row) t + Spec.inTime s.omega (Hz i row1) t) / 2 * Spec.inTime s.omega (Ex i row) t))) := by
  have hcont : ∀ (c : ℝ) (z z' w : ℂ), Continuous fun t => c * ((Spec.inTime s.omega z t + Spec.inTime s.omega z' t) / 2 * Spec.inTime s.omega w t) := fun c z z' w =>
    continuous_const.mul ((((inTime_continuous _ _).add (inTime_continuous _ _)).div_const _).mul (inTime_continuous _ _))
  obtain ⟨k1, k2⟩ := C51_flux_y_partial s nl xc c w row row1 h1 a b hc hs f hf
  refine ⟨fun Ez Hx hp hE hH => ?_, fun Hz Ex hp hE hH => ?_⟩
  · rw [k1 Ez Hx hp hE hH, mean_sum _ _ _ fun j => hcont _ _ _ _]
    congr 2
    refine sum_congr rfl fun j _ => ?_
    rw [mean_avg_mul _ ho, Spec.Sy, zero_mul, sub_zero]
    ring
  · rw [k2 Hz Ex hp hE hH, mean_sum _ _ _ fun j => hcont _ _ _ _]
    congr 2
    refine sum_congr rfl fun j _ => ?_
    rw [mean_avg_mul _ ho, Spec.Sy, zero_mul, zero_sub, Complex.neg_re, Complex.mul_re, Complex.mul_re]
    simp only [Complex.conj_re, Complex.conj_im]
    ring

/-- **C90, the power balance.** The powers in the balance C61 are means over one period: the power delivered is the mean of `-J(t) E(t)`, the power absorbed the mean of `σ E(t)²` with `σ = -ω ε''`, and the
modulus that `plt_abs` draws is `√2` times the root mean square of the field. -/
theorem C90_means (omega : ℝ) (ho : 0 < omega) (c f eps : ℂ) :
    Spec.supplied c f = Spec.mean omega (fun t => -1 * (Spec.inTime omega c t * Spec.inTime omega f t)) ∧
    Spec.absorbed omega eps f = Spec.mean omega (fun t => -(omega * eps.im) * (Spec.inTime omega f t * Spec.inTime omega f t)) ∧
    ‖f‖ = √2 * √(Spec.mean omega fun t => Spec.inTime omega f t * Spec.inTime omega f t) := by
  have hk : ∀ (k : ℝ) (z w : ℂ), Spec.mean omega (fun t => k * (Spec.inTime omega z t * Spec.inTime omega w t)) = k * ((z * (starRingEnd ℂ) w).re / 2) := by
    intro k z w
    rw [← mean_mul omega ho]
    unfold Spec.mean
    rw [intervalIntegral.integral_const_mul, mul_div_assoc]
  have hn : (f * (starRingEnd ℂ) f).re = ‖f‖ ^ 2 := by rw [Complex.mul_conj, Complex.ofReal_re, Complex.sq_norm]
  refine ⟨?_, ?_, ?_⟩
  · rw [hk, Spec.supplied, Complex.mul_re, Complex.mul_re]
    simp only [Complex.conj_re, Complex.conj_im]
    ring
  · rw [hk, hn, Spec.absorbed]
    ring
  · rw [mean_mul omega ho, hn, ← Real.sqrt_mul (by norm_num), mul_div_cancel₀ _ (by norm_num), Real.sqrt_sq (norm_nonneg _)]

/-! ## Concrete cases -/

/-- A wave of amplitude `i` starts its movie at zero and goes negative first: five frames a quarter of a period apart. -/
example : ∃ m, plt_base_ani (fun (_ : Fin 2) (_ : Fin 3) => Complex.I) 5 = .ok m ∧ m.vmax = 1 ∧ ∃ h : m.frames.length = 5, m.frames[0] 0 0 = 0 ∧ m.frames[1] 0 0 = -1 ∧ m.layout ≠ (3, 2) := by
  obtain ⟨m, hm, hl, hfr, -, -, hL, -⟩ := C90_frames (fun (_ : Fin 2) (_ : Fin 3) => Complex.I) (by norm_num) (by norm_num) 5 (by norm_num)
  refine ⟨m, hm, ?_, hl, ?_, ?_, fun h => absurd ((C90_layout_square_only _ _ _ hm).mp h) (by norm_num)⟩
  · obtain ⟨-, i, j, h⟩ := hL
    rw [← h]
    exact Complex.norm_I
  · rw [hfr 0 (by norm_num)]
    simp [Spec.inTime]
  · rw [hfr 1 (by norm_num), Spec.inTime, show (1 : ℝ) * (2 * Real.pi * (1 : ℕ) / ((5 : ℕ) - 1)) = Real.pi / 2 by push_cast; ring]
    simp

example : ∃ m, plt_base_ani (fun (_ : Fin 2) (_ : Fin 3) => (3 + 4 * Complex.I : ℂ)) 40 = .ok m ∧ ((m.frames.take 39).map fun f => f 2 1 ^ 2).sum / 39 = 25 / 2 := by
  obtain ⟨m, hm, -⟩ := C90_frames (fun (_ : Fin 2) (_ : Fin 3) => (3 + 4 * Complex.I : ℂ)) (by norm_num) (by norm_num) 40 (by norm_num)
  have h := (C90_frame_means _ 40 (by norm_num) m hm 2 1).2
  have hn : ‖(3 + 4 * Complex.I : ℂ)‖ ^ 2 = 25 := by
    rw [Complex.sq_norm, Complex.normSq_apply]
    norm_num
  refine ⟨m, hm, ?_⟩
  rw [hn] at h
  rw [← h]
  norm_num

/-- Time-domain equations at a cell in the middle of a grid with absorbing layers, lossy material, point source. -/
example (env : Env) (he : env.Exact) :=
  C90_maxwell_Ez env he (fsim (Nx := 12) (Ny := 12) 2 (fun _ _ => 2 - Complex.I) (Spec.point 5 5)) (fsim_valid _ _ _) (fsim_dl_pos _ _ _) rfl (by norm_num) (by norm_num)
    (Or.inl (fsim_det (by norm_num) (by norm_num) _ _ _ fun _ _ => (by norm_num : (1 : ℝ) ≤ |(2 - Complex.I).re|).trans (Complex.abs_re_le_norm _))) false

example : Spec.OutsideAxis 12 2 5 := Or.inr ⟨by norm_num, by norm_num⟩

example (env : Env) (he : env.Exact) :=
  C90_maxwell_Hz env he (wsim .Hz wEps (Spec.point 0 0)) (wsim_valid _ _ _) (wsim_dl_pos _ _ _) rfl (by norm_num) (by norm_num)
    (Or.inl (wsim_Hz_det _)) true (Or.inl rfl) (by
      have hE : (EPSILON_0 : ℂ) ≠ 0 := by exact_mod_cast EPSILON_0_pos.ne'
      intro i j
      fin_cases i <;> fin_cases j <;> norm_num [wsim, wEps, Spec.edgeX, Spec.edgeY, Spec.prev, hE])

/-- The flux 1 of `uniformFlux` as a mean of instantaneous powers. -/
example : Except.ok 1 = Except.ok (ε := PyErr) (Spec.mean uniformFlux.omega fun t => uniformFlux.dl * ∑ j with 0 ≤ (j : Fin 3).val ∧ j.val < 2,
    -1 * ((Spec.inTime uniformFlux.omega 1 t + Spec.inTime uniformFlux.omega 1 t) / 2 * Spec.inTime uniformFlux.omega (-1) t)) :=
  C51_negative_false.1.symm.trans
    ((C90_probe_x uniformFlux (show (0 : ℝ) < 1 by norm_num) false 1 1 2 1 2 rfl 0 2 (Or.inl ⟨rfl, by decide⟩) uniformFlux_span _ rfl).1 (fun _ _ => 1) (fun _ _ => -1) rfl rfl rfl)

end Angler
