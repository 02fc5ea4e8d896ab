import Verif.Lemmas.Ring
import Verif.Lemmas.LowPower
import Verif.Model.NonlinearNotebook
import Verif.Props.Flux
import Verif.Props.Solvable
import Mathlib.Analysis.SpecialFunctions.Trigonometric.InverseDeriv
import Mathlib.Analysis.Calculus.Deriv.Slope
import Mathlib.Analysis.Real.Pi.Bounds

/-! # Self-phase modulation of a guided wave: the analytic line of `Notebooks/Nonlinear_system.ipynb`

The phase shift per power of the nonlinear guided waves of the discrete equations, compared with the formula the notebook plots beside the simulated points. -/

namespace Angler

open Matrix Filter Topology

variable {Nx Ny : ℕ}

/-- Around column `i` the field is a wave travelling along `x` with the real profile `u` and the phase `φ` per cell. -/
def Spec.TravelsAt (Z : Grid Nx Ny ℂ) (i : Fin Nx) (u : Fin Ny → ℝ) (φ : ℝ) : Prop :=
  ∃ c : ℂ, ‖c‖ = 1 ∧ ∀ j, Z i j = c * u j ∧ Z (Spec.next i) j = c * Complex.exp (-(φ * Complex.I)) * u j ∧ Z (Spec.prev i) j = c * Complex.exp (φ * Complex.I) * u j

/-- The profile `u` with phase `φ` per cell is a mode of a waveguide with permittivity `e` and Kerr coefficient `K` (both per row); `k2` is the square of the phase per cell in vacuum, `(ω h / c)²`. -/
def Spec.KerrMode (k2 : ℝ) (e K u : Fin Ny → ℝ) (φ : ℝ) : Prop :=
  ∀ j, u (Spec.next j) + u (Spec.prev j) - 2 * u j + k2 * (e j + K j * u j ^ 2) * u j = 4 * Real.sin (φ / 2) ^ 2 * u j

/-- `(ω h / c)²` in the units of the simulation. -/
noncomputable def Spec.cellPhaseSq (s : Sim Nx Ny) : ℝ := s.dl ^ 2 * s.omega ^ 2 * (MU_0 * s.L0) * (EPSILON_0 * s.L0)

theorem two_sub_exp (φ : ℝ) : Complex.exp (-(φ * Complex.I)) + Complex.exp (φ * Complex.I) - 2 = ((-(4 * Real.sin (φ / 2) ^ 2) : ℝ) : ℂ) := by
  have h : Real.cos φ = 1 - 2 * Real.sin (φ / 2) ^ 2 := by
    have := Real.cos_two_mul (φ / 2)
    rw [mul_div_cancel₀ _ two_ne_zero, Real.cos_sq'] at this
    linarith
  have e : Complex.exp (-(φ * Complex.I)) + Complex.exp (φ * Complex.I) = 2 * ((Real.cos φ : ℝ) : ℂ) := by
    rw [Complex.ofReal_cos, Complex.two_cos, add_comm, neg_mul]
  rw [e, h]
  push_cast
  ring

/-- **C106, guided waves.** In a column outside the absorbing layers and the sources, without layers across, a travelling wave with phase `φ` per cell solves the nonlinear equations exactly if its
profile is a mode. -/
theorem C106_mode (s : Sim Nx Ny) (hv : s.Valid) (hp : s.pol = .Ez) (hdl : 0 < s.dl) (hx : 1 < Nx) (hy : 1 < Ny) (hN : s.NPML.2 = 0) (i : Fin Nx)
    (hi : s.NPML.1 < i.val) (hi' : i.val + 2 + s.NPML.1 < Nx) (e K : Fin Ny → ℝ) (he : ∀ j, s.eps_r i j = e j) (hK : ∀ j, Spec.kerrSum s.nonlinearity s.eps_r i j = K j) (hsrc : ∀ j, s.src i j = 0)
    (Z : Grid Nx Ny ℂ) (u : Fin Ny → ℝ) (φ : ℝ) (hZ : Spec.TravelsAt Z i u φ) :
    (∀ j, Spec.nlResidual s Z i j = 0) ↔ Spec.KerrMode (Spec.cellPhaseSq s) e K u φ := by
  obtain ⟨c, hc, hZ⟩ := hZ
  have hc0 : c ≠ 0 := fun h => by rw [h, norm_zero] at hc; exact zero_ne_one hc
  refine forall_congr' fun j => ?_
  have hr : s.xrange.1 < s.xrange.2 := by rw [hv.xr]; exact mul_pos (by exact_mod_cast (by omega : 0 < Nx)) hdl
  have hM : (((MU_0 * s.L0 : ℝ)) : ℂ) ≠ 0 := by exact_mod_cast (mul_pos MU_0_pos hv.L0_pos).ne'
  have hd : (s.dl : ℂ) ≠ 0 := by exact_mod_cast hdl.ne'
  have hnv : (Spec.next i).val = i.val + 1 := Nat.mod_eq_of_lt (by omega)
  have f1 : facX s .f i = 1 := sfactor_outside hr hv.L0_pos hv.omega_pos .f i (Or.inr ⟨by omega, by omega⟩)
  have f2 : facX s .b i = 1 := sfactor_outside hr hv.L0_pos hv.omega_pos .b i (Or.inr ⟨by omega, by omega⟩)
  have f3 : facX s .b (Spec.next i) = 1 := sfactor_outside hr hv.L0_pos hv.omega_pos .b _ (Or.inr ⟨by omega, by omega⟩)
  have f4 : ∀ d j, facY s d j = 1 := fun d j => by
    unfold facY
    rw [hN, sfactor_zero]
  have hst := congrFun (stencil_apply s hv hdl.ne' hx hy Z) (finProdFinEquiv (i, j))
  rw [flatten_pair] at hst
  unfold Spec.nlResidual
  rw [hst, hsrc, hK]
  simp only [ringLap, f1, f2, f3, f4, coefX, coefY, massOf, hp, he]
  obtain ⟨z1, z2, z3⟩ := hZ j
  obtain ⟨w1, -, -⟩ := hZ (Spec.next j)
  obtain ⟨v1, -, -⟩ := hZ (Spec.prev j)
  rw [z1, z2, z3, w1, v1, norm_mul, hc, one_mul, Complex.norm_real, Real.norm_eq_abs, ← Complex.ofReal_pow |u j|, sq_abs]
  have key : (1 / ((MU_0 * s.L0 : ℝ) : ℂ) * ((c * Complex.exp (-(φ * Complex.I)) * u j - c * u j) / 1) - 1 / ((MU_0 * s.L0 : ℝ) : ℂ) * ((c * u j - c * Complex.exp (φ * Complex.I) * u j) / 1)) / 1
      = c * (Complex.exp (-(φ * Complex.I)) + Complex.exp (φ * Complex.I) - 2) * u j / ((MU_0 * s.L0 : ℝ) : ℂ) := by
    field_simp
    ring
  rw [key, two_sub_exp]
  have hfin : (c * ((-(4 * Real.sin (φ / 2) ^ 2) : ℝ) : ℂ) * u j / ((MU_0 * s.L0 : ℝ) : ℂ) +
          (1 / ((MU_0 * s.L0 : ℝ) : ℂ) * ((c * u (Spec.next j) - c * u j) / 1) - 1 / ((MU_0 * s.L0 : ℝ) : ℂ) * ((c * u j - c * u (Spec.prev j)) / 1)) / 1) / (s.dl : ℂ) ^ 2 +
        (s.omega : ℂ) ^ 2 * (((EPSILON_0 * s.L0 : ℝ) : ℂ) * e j) * (c * u j) + ((s.omega ^ 2 * EPSILON_0 * s.L0 : ℝ) : ℂ) * (K j * ((u j ^ 2 : ℝ) : ℂ)) * (c * u j) - Complex.I * s.omega * 0
      = c / (((MU_0 * s.L0 : ℝ) : ℂ) * (s.dl : ℂ) ^ 2) *
        ((u (Spec.next j) + u (Spec.prev j) - 2 * u j + Spec.cellPhaseSq s * (e j + K j * u j ^ 2) * u j - 4 * Real.sin (φ / 2) ^ 2 * u j : ℝ) : ℂ) := by
    unfold Spec.cellPhaseSq
    generalize Real.sin (φ / 2) = S
    have hM' : ((MU_0 : ℝ) : ℂ) * ((s.L0 : ℝ) : ℂ) ≠ 0 := by rw [← Complex.ofReal_mul]; exact hM
    have h1 : ((MU_0 : ℝ) : ℂ) ≠ 0 := left_ne_zero_of_mul hM'
    have h2 : ((s.L0 : ℝ) : ℂ) ≠ 0 := right_ne_zero_of_mul hM'
    push_cast
    field_simp
    ring
  rw [hfin, mul_eq_zero, or_iff_right (div_ne_zero hc0 (mul_ne_zero hM (pow_ne_zero 2 hd))), Complex.ofReal_eq_zero, sub_eq_zero]

theorem probe_term (c : ℂ) (hc : ‖c‖ = 1) (u φ o m h : ℝ) (ho : o ≠ 0) (hm : m ≠ 0) (hh : h ≠ 0) :
    Spec.Sx 0 ((c * u + c * Complex.exp (-(φ * Complex.I)) * u) / 2) (1 / Complex.I / (o : ℂ) / (m : ℂ) * ((c * u - c * Complex.exp (φ * Complex.I) * u) / h)) 0 = u ^ 2 * (Real.sin (2 * φ) / (4 * o * m * h)) := by
  have hcc : c * (starRingEnd ℂ) c = 1 := by
    rw [Complex.mul_conj, Complex.normSq_eq_norm_sq, hc]
    norm_num
  have hexp : (starRingEnd ℂ) (Complex.exp (φ * Complex.I)) = Complex.exp (-(φ * Complex.I)) := by
    rw [← Complex.exp_conj, map_mul, Complex.conj_I, Complex.conj_ofReal, mul_neg]
  have hE : Complex.exp (-(φ * Complex.I)) * Complex.exp (-(φ * Complex.I)) = ((Real.cos (2 * φ) : ℝ) : ℂ) - ((Real.sin (2 * φ) : ℝ) : ℂ) * Complex.I := by
    rw [← Complex.exp_add, show -((φ : ℂ) * Complex.I) + -((φ : ℂ) * Complex.I) = ((-(2 * φ) : ℝ) : ℂ) * Complex.I by push_cast; ring, Complex.exp_mul_I, ← Complex.ofReal_cos, ← Complex.ofReal_sin,
      Real.cos_neg, Real.sin_neg]
    push_cast
    ring
  have hI := Complex.I_ne_zero
  have ho' : (o : ℂ) ≠ 0 := by exact_mod_cast ho
  have hm' : (m : ℂ) ≠ 0 := by exact_mod_cast hm
  have hh' : (h : ℂ) ≠ 0 := by exact_mod_cast hh
  have main : (c * u + c * Complex.exp (-(φ * Complex.I)) * u) / 2 * (starRingEnd ℂ) (1 / Complex.I / (o : ℂ) / (m : ℂ) * ((c * u - c * Complex.exp (φ * Complex.I) * u) / h)) =
      ((u ^ 2 / (2 * o * m * h) : ℝ) : ℂ) * (Complex.I * (1 - Complex.exp (-(φ * Complex.I)) * Complex.exp (-(φ * Complex.I)))) := by
    simp only [map_mul, map_div₀, map_sub, map_one, Complex.conj_I, Complex.conj_ofReal, hexp]
    generalize Complex.exp (-(φ * Complex.I)) = E
    push_cast
    have e1 : (c * u + c * E * u) / 2 * (1 / -Complex.I / (o : ℂ) / (m : ℂ) * (((starRingEnd ℂ) c * u - (starRingEnd ℂ) c * E * u) / h)) =
        (c * (starRingEnd ℂ) c) * ((u : ℂ) ^ 2 / (2 * o * m * h) * ((1 / -Complex.I) * (1 - E * E))) := by
      field_simp
      ring
    rw [e1, hcc, one_mul, show (1 : ℂ) / -Complex.I = Complex.I by rw [div_neg, one_div, Complex.inv_I, neg_neg]]
  unfold Spec.Sx
  rw [zero_mul, zero_sub, main, hE, Complex.neg_re, Complex.re_ofReal_mul]
  generalize Real.sin (2 * φ) = S
  generalize Real.cos (2 * φ) = C
  have e2 : (Complex.I * (1 - ((C : ℂ) - (S : ℂ) * Complex.I))).re = -S := by
    simp
  rw [e2]
  field_simp
  ring

/-- **C106, power.** `flux_probe` at such a column reads `∑ u² sin(2φ) / (4 ω μ)` over its line, for a nonlinear field stored with its magnetic field. -/
theorem C106_power (s : Sim Nx Ny) (hv : s.Valid) (hp : s.pol = .Ez) (hdl : 0 < s.dl) (hx : 1 < Nx) (hy : 1 < Ny) (i : Fin Nx) (hi : s.NPML.1 < i.val) (hi' : i.val + 2 + s.NPML.1 < Nx)
    (Z eps : Grid Nx Ny ℂ) (f : Fields Nx Ny) (hst : s.fields_nl = Sim.store .Ez f (s.in_plane false eps (flatten Z))) (u : Fin Ny → ℝ) (φ : ℝ) (hZ : Spec.TravelsAt Z i u φ)
    (yc : ℤ) (w : ℝ) (a b : ℕ) (hs : Spec.Span Ny (pyInt (yc - w / 2)) (pyInt (yc + w / 2)) a b) :
    s.flux_probe "x" ((i.val : ℤ), yc) w true = .ok ((∑ j with a ≤ (j : Fin Ny).val ∧ j.val < b, u j ^ 2) * Real.sin (2 * φ) / (4 * s.omega * (MU_0 * s.L0))) := by
  have hr : s.xrange.1 < s.xrange.2 := by rw [hv.xr]; exact mul_pos (by exact_mod_cast (by omega : 0 < Nx)) hdl
  have hdL := hv.dL_eq (by omega : 0 < Nx) (by omega : 0 < Ny)
  have hM := mul_pos MU_0_pos hv.L0_pos
  have ho := hv.omega_pos
  have hnv : (Spec.next i).val = i.val + 1 := Nat.mod_eq_of_lt (by omega)
  have f2 : create_sfactor s.xrange s.L0 .b s.omega Nx s.NPML.1 i = 1 := sfactor_outside hr hv.L0_pos hv.omega_pos .b i (Or.inr ⟨by omega, by omega⟩)
  rw [(C51_flux_x_partial s true i.val yc w i (Spec.next i) hnv a b (Or.inl ⟨rfl, by omega⟩) hs _ rfl).1 Z (s.in_plane false eps (flatten Z)).2.1 hp
    (by rw [if_pos rfl, hst]; show some _ = some _; rw [in_plane_third, unflatten_flatten]) (by rw [if_pos rfl, hst]; rfl)]
  refine congrArg _ ?_
  obtain ⟨c, hc, hZ⟩ := hZ
  have hH : ∀ j, (s.in_plane false eps (flatten Z)).2.1 i j = (1 / Complex.I / (s.omega : ℂ) / ((MU_0 * s.L0 : ℝ) : ℂ)) * ((Z i j - Z (Spec.prev i) j) / s.dl) := fun j => by
    simp only [Sim.in_plane, hp, hv.derivs_eq, mkDerivs_Dxb _ _ _ _ _ hx, hdL]
    simp only [unflatten, Pi.smul_apply, flatten_pair, Spec.bwdX, smul_eq_mul, f2, div_one]
  have hterm : ∀ j, Spec.Sx 0 ((Z i j + Z (Spec.next i) j) / 2) ((s.in_plane false eps (flatten Z)).2.1 i j) 0 = u j ^ 2 * (Real.sin (2 * φ) / (4 * s.omega * (MU_0 * s.L0) * s.dl)) := fun j => by
    obtain ⟨z1, z2, z3⟩ := hZ j
    rw [hH, z1, z2, z3]
    exact probe_term c hc (u j) φ s.omega (MU_0 * s.L0) s.dl ho.ne' hM.ne' hdl.ne'
  rw [Finset.sum_congr rfl fun j _ => hterm j, ← Finset.sum_mul]
  field_simp

/-- Summation by parts on the ring: the second difference is symmetric. -/
theorem second_difference_symm (u g : Fin Ny → ℝ) : ∑ j, (u (Spec.next j) + u (Spec.prev j) - 2 * u j) * g j = ∑ j, (g (Spec.next j) + g (Spec.prev j) - 2 * g j) * u j := by
  have e1 : ∑ j, u (Spec.next j) * g j = ∑ j, g (Spec.prev j) * u j := by
    rw [← Equiv.sum_comp (nextEquiv Ny) fun j => g (Spec.prev j) * u j]
    refine Finset.sum_congr rfl fun j _ => ?_
    show _ = g (Spec.prev (Spec.next j)) * u (Spec.next j)
    rw [prev_next, mul_comm]
  have e2 : ∑ j, u (Spec.prev j) * g j = ∑ j, g (Spec.next j) * u j := by
    rw [← Equiv.sum_comp (nextEquiv Ny) fun j => u (Spec.prev j) * g j]
    refine Finset.sum_congr rfl fun j _ => ?_
    show u (Spec.prev (Spec.next j)) * g (Spec.next j) = _
    rw [prev_next, mul_comm]
  have expand : ∀ a b : Fin Ny → ℝ, ∑ j, (a (Spec.next j) + a (Spec.prev j) - 2 * a j) * b j = ∑ j, a (Spec.next j) * b j + ∑ j, a (Spec.prev j) * b j - 2 * ∑ j, a j * b j := fun a b => by
    rw [Finset.mul_sum, ← Finset.sum_add_distrib, ← Finset.sum_sub_distrib]
    exact Finset.sum_congr rfl fun j _ => by ring
  rw [expand, expand, e1, e2, Finset.sum_congr rfl fun j _ => mul_comm (u j) (g j)]
  ring

theorem four_sin_sq (φ : ℝ) : 4 * Real.sin (φ / 2) ^ 2 = 2 - 2 * Real.cos φ := by
  have := Real.cos_two_mul (φ / 2)
  rw [mul_div_cancel₀ _ two_ne_zero, Real.cos_sq'] at this
  linarith

/-- **C106, exact shift of a mode.** The phase per cell `φ` of a nonlinear mode `u` and `φ0` of a linear mode `g` of the same waveguide: no approximation. -/
theorem C106_mode_shift (k2 : ℝ) (e K u g : Fin Ny → ℝ) (φ φ0 : ℝ) (hu : Spec.KerrMode k2 e K u φ) (hg : Spec.KerrMode k2 e 0 g φ0) :
    2 * (Real.cos φ0 - Real.cos φ) * ∑ j, u j * g j = k2 * ∑ j, K j * u j ^ 3 * g j := by
  have h1 : ∑ j, (u (Spec.next j) + u (Spec.prev j) - 2 * u j) * g j = ∑ j, ((2 - 2 * Real.cos φ) * (u j * g j) - k2 * (e j * u j * g j) - k2 * (K j * u j ^ 3 * g j)) :=
    Finset.sum_congr rfl fun j _ => by
      have := hu j
      rw [four_sin_sq] at this
      linear_combination g j * this
  have h2 : ∑ j, (g (Spec.next j) + g (Spec.prev j) - 2 * g j) * u j = ∑ j, ((2 - 2 * Real.cos φ0) * (u j * g j) - k2 * (e j * u j * g j)) :=
    Finset.sum_congr rfl fun j _ => by
      have := hg j
      rw [four_sin_sq, Pi.zero_apply] at this
      linear_combination u j * this
  rw [second_difference_symm, h2, Finset.sum_sub_distrib, Finset.sum_sub_distrib, Finset.sum_sub_distrib, ← Finset.mul_sum, ← Finset.mul_sum, ← Finset.mul_sum, ← Finset.mul_sum] at h1
  linarith

/-- What `flux_probe` reads over a set of rows (`C106_power`). -/
noncomputable def Spec.modePower (om m : ℝ) (rows : Finset (Fin Ny)) (u : Fin Ny → ℝ) (φ : ℝ) : ℝ := (∑ j ∈ rows, u j ^ 2) * Real.sin (2 * φ) / (4 * om * m)

/-- **C106, phase shift at low power.** Nonlinear modes whose amplitude `a` tends to zero and whose shape tends to that of the linear mode `g`: the phase shift per cell is `a²` times a constant in the
limit, and its quotient by the power read by the probe has the stated limit. -/
theorem C106_mode_slope {ι : Type*} {l : Filter ι} (k2 om m : ℝ) (hom : om ≠ 0) (hm : m ≠ 0) (e K g : Fin Ny → ℝ) (φ0 : ℝ) (h0 : 0 < φ0) (h0' : φ0 < Real.pi / 2) (hg : Spec.KerrMode k2 e 0 g φ0)
    (rows : Finset (Fin Ny)) (hrow : ∃ j ∈ rows, g j ≠ 0) (a φ : ι → ℝ) (u : ι → Fin Ny → ℝ) (ha : ∀ t, a t ≠ 0) (ha0 : Tendsto a l (𝓝 0)) (hu : ∀ t, Spec.KerrMode k2 e K (u t) (φ t))
    (hφ : ∀ t, 0 ≤ φ t ∧ φ t ≤ Real.pi) (hug : ∀ j, Tendsto (fun t => u t j / a t) l (𝓝 (g j))) :
    Tendsto (fun t => (φ t - φ0) / a t ^ 2) l (𝓝 (k2 * (∑ j, K j * g j ^ 4) / (2 * Real.sin φ0 * ∑ j, g j ^ 2))) ∧
      Tendsto (fun t => (φ t - φ0) / Spec.modePower om m rows (u t) (φ t)) l
        (𝓝 (k2 * om * m * (∑ j, K j * g j ^ 4) / (Real.sin φ0 ^ 2 * Real.cos φ0 * (∑ j, g j ^ 2) * ∑ j ∈ rows, g j ^ 2))) := by
  obtain ⟨j0, hj0, hj1⟩ := hrow
  have hG : 0 < ∑ j, g j ^ 2 := Finset.sum_pos' (fun j _ => sq_nonneg _) ⟨j0, Finset.mem_univ _, by positivity⟩
  have hR : 0 < ∑ j ∈ rows, g j ^ 2 := Finset.sum_pos' (fun j _ => sq_nonneg _) ⟨j0, hj0, by positivity⟩
  have hsin : 0 < Real.sin φ0 := Real.sin_pos_of_pos_of_lt_pi h0 (by linarith [Real.pi_pos])
  have hcos : 0 < Real.cos φ0 := Real.cos_pos_of_mem_Ioo ⟨by linarith [Real.pi_pos], h0'⟩
  have hsum1 : Tendsto (fun t => ∑ j, u t j / a t * g j) l (𝓝 (∑ j, g j ^ 2)) := by
    have := tendsto_finsetSum Finset.univ fun j _ => (hug j).mul_const (g j)
    simpa only [sq] using this
  have hsum3 : Tendsto (fun t => ∑ j, K j * (u t j / a t) ^ 3 * g j) l (𝓝 (∑ j, K j * g j ^ 4)) := by
    have := tendsto_finsetSum Finset.univ fun j _ => (((hug j).pow 3).const_mul (K j)).mul_const (g j)
    rwa [Finset.sum_congr rfl fun j _ => (by ring : K j * g j ^ 3 * g j = K j * g j ^ 4)] at this
  set D := k2 * (∑ j, K j * g j ^ 4) / ∑ j, g j ^ 2 with hD
  have hlim : Tendsto (fun t => 2 * (Real.cos φ0 - Real.cos (φ t)) / a t ^ 2) l (𝓝 D) := by
    refine ((hsum3.const_mul k2).div hsum1 hG.ne').congr' ?_
    filter_upwards [hsum1.eventually_ne hG.ne'] with t ht
    have h1 := C106_mode_shift k2 e K (u t) g (φ t) φ0 (hu t) hg
    have hat := ha t
    have e1 : ∑ j, u t j * g j = a t * ∑ j, u t j / a t * g j := by
      rw [Finset.mul_sum]
      exact Finset.sum_congr rfl fun j _ => by field_simp
    have e3 : ∑ j, K j * u t j ^ 3 * g j = a t ^ 3 * ∑ j, K j * (u t j / a t) ^ 3 * g j := by
      rw [Finset.mul_sum]
      exact Finset.sum_congr rfl fun j _ => by field_simp
    rw [e1, e3] at h1
    show k2 * _ / _ = _
    rw [div_eq_div_iff ht (pow_ne_zero 2 hat)]
    refine mul_left_cancel₀ hat ?_
    linear_combination -h1
  have ha2 : Tendsto (fun t => a t ^ 2) l (𝓝 0) := by
    have := ha0.pow 2
    rwa [zero_pow two_ne_zero] at this
  have hc : Tendsto (fun t => Real.cos (φ t)) l (𝓝 (Real.cos φ0)) := by
    have h2 := ((hlim.mul ha2).div_const 2).const_sub (Real.cos φ0)
    rw [mul_zero, zero_div, sub_zero] at h2
    refine h2.congr fun t => ?_
    have hat := ha t
    field_simp
    ring
  have hφa : ∀ t, Real.arccos (Real.cos (φ t)) = φ t := fun t => Real.arccos_cos (hφ t).1 (hφ t).2
  have hφ0 : Real.arccos (Real.cos φ0) = φ0 := Real.arccos_cos h0.le (by linarith [Real.pi_pos])
  have hφlim : Tendsto φ l (𝓝 φ0) := by
    have h3 := (Real.continuous_arccos.tendsto (Real.cos φ0)).comp hc
    rw [hφ0] at h3
    exact h3.congr hφa
  have hlt : Real.cos φ0 < 1 := by
    have := Real.sin_sq_add_cos_sq φ0
    nlinarith
  have hder := Real.hasDerivAt_arccos (x := Real.cos φ0) (by linarith) hlt.ne
  have hval : deriv Real.arccos (Real.cos φ0) = -(1 / Real.sin φ0) := by
    rw [hder.deriv, show 1 - Real.cos φ0 ^ 2 = Real.sin φ0 ^ 2 by rw [← Real.sin_sq_add_cos_sq φ0]; ring, Real.sqrt_sq hsin.le]
  have hds : Tendsto (fun t => dslope Real.arccos (Real.cos φ0) (Real.cos (φ t))) l (𝓝 (-(1 / Real.sin φ0))) := by
    have h4 : ContinuousAt (dslope Real.arccos (Real.cos φ0)) (Real.cos φ0) := continuousAt_dslope_same.2 hder.differentiableAt
    have h5 := h4.tendsto.comp hc
    rwa [dslope_same, hval] at h5
  have hdiff : ∀ t, φ t - φ0 = (Real.cos (φ t) - Real.cos φ0) * dslope Real.arccos (Real.cos φ0) (Real.cos (φ t)) := fun t => by
    have h6 := sub_smul_dslope Real.arccos (Real.cos φ0) (Real.cos (φ t))
    rw [hφa, hφ0, smul_eq_mul] at h6
    exact h6.symm
  have hmain : Tendsto (fun t => (φ t - φ0) / a t ^ 2) l (𝓝 (k2 * (∑ j, K j * g j ^ 4) / (2 * Real.sin φ0 * ∑ j, g j ^ 2))) := by
    have h7 := (hlim.div_const (-2)).mul hds
    rw [show k2 * (∑ j, K j * g j ^ 4) / (2 * Real.sin φ0 * ∑ j, g j ^ 2) = D / -2 * -(1 / Real.sin φ0) by rw [hD]; field_simp]
    refine h7.congr fun t => ?_
    rw [hdiff t]
    have hat := ha t
    field_simp
    ring
  refine ⟨hmain, ?_⟩
  have hP : Tendsto (fun t => Spec.modePower om m rows (u t) (φ t) / a t ^ 2) l (𝓝 ((∑ j ∈ rows, g j ^ 2) * Real.sin (2 * φ0) / (4 * om * m))) := by
    have h8 : Tendsto (fun t => ∑ j ∈ rows, (u t j / a t) ^ 2) l (𝓝 (∑ j ∈ rows, g j ^ 2)) := tendsto_finsetSum rows fun j _ => (hug j).pow 2
    have h9 : Tendsto (fun t => Real.sin (2 * φ t)) l (𝓝 (Real.sin (2 * φ0))) := (Real.continuous_sin.tendsto _).comp (hφlim.const_mul 2)
    refine ((h8.mul h9).div_const (4 * om * m)).congr fun t => ?_
    unfold Spec.modePower
    rw [Finset.sum_congr rfl fun j _ => div_pow (u t j) (a t) 2, ← Finset.sum_div]
    ring
  have hs2 : 0 < Real.sin (2 * φ0) := by rw [Real.sin_two_mul]; positivity
  have h10 := hmain.div hP (div_ne_zero (mul_pos hR hs2).ne' (mul_ne_zero (mul_ne_zero four_ne_zero hom) hm))
  have hvalue : k2 * (∑ j, K j * g j ^ 4) / (2 * Real.sin φ0 * ∑ j, g j ^ 2) / ((∑ j ∈ rows, g j ^ 2) * Real.sin (2 * φ0) / (4 * om * m)) =
      k2 * om * m * (∑ j, K j * g j ^ 4) / (Real.sin φ0 ^ 2 * Real.cos φ0 * (∑ j, g j ^ 2) * ∑ j ∈ rows, g j ^ 2) := by
    rw [Real.sin_two_mul]
    field_simp
    ring
  rw [hvalue] at h10
  refine h10.congr fun t => ?_
  show (φ t - φ0) / a t ^ 2 / (Spec.modePower om m rows (u t) (φ t) / a t ^ 2) = _
  rw [div_div_div_cancel_right₀ (pow_ne_zero 2 (ha t))]

/-! ## The notebook's analytic line -/

/-- What the notebook plots for `L = n` cells, with `width = dl * width_eff` and `height = 100 * width`. -/
noncomputable def Spec.notebookLine (om L0 dl chi3 eps_m w : ℝ) (n : ℕ) (power : ℝ) : ℝ :=
  spmAnalytic (power * (100 * (dl * w))) (dl * n) (spmGamma om L0 (spmN2 chi3 L0 eps_m) (dl * w * (100 * (dl * w))))

theorem C_0_sq : C_0 ^ 2 * (EPSILON_0 * MU_0) = 1 := by
  unfold C_0
  have h1 := EPSILON_0_pos
  have h2 := MU_0_pos
  rw [Real.sq_sqrt (by positivity)]
  field_simp

/-- **C106, the analytic line.** A waveguide filled with Kerr material in the rows `core`, all of the power read by the probe.  In the limit of low power the phase shift over `n` cells divided by what the
notebook plots is the factor below.  It is one only if `sin² φ0 cos φ0 / (ω h / c)²`, the square of the effective index up to the discretisation, equals `√eps_m` (times `core` fraction and `3e8/c`). -/
theorem C106_line {ι : Type*} {l : Filter ι} (om L0 dl chi3 eps_m : ℝ) (hom : 0 < om) (hL : 0 < L0) (hdl : 0 < dl) (hchi : chi3 ≠ 0) (hem : 0 < eps_m) (e g : Fin Ny → ℝ) (core : Finset (Fin Ny))
    (φ0 : ℝ) (h0 : 0 < φ0) (h0' : φ0 < Real.pi / 2) (hg : Spec.KerrMode (dl ^ 2 * om ^ 2 * (MU_0 * L0) * (EPSILON_0 * L0)) e 0 g φ0) (hg0 : g ≠ 0) (w : ℝ) (hw : widthEff (fun j => (g j : ℂ)) = .ok w)
    (a φ : ι → ℝ) (u : ι → Fin Ny → ℝ) (ha : ∀ t, a t ≠ 0) (ha0 : Tendsto a l (𝓝 0))
    (hu : ∀ t, Spec.KerrMode (dl ^ 2 * om ^ 2 * (MU_0 * L0) * (EPSILON_0 * L0)) e (fun j => if j ∈ core then 3 * (chi3 / L0 ^ 2) else 0) (u t) (φ t)) (hφ : ∀ t, 0 ≤ φ t ∧ φ t ≤ Real.pi)
    (hug : ∀ j, Tendsto (fun t => u t j / a t) l (𝓝 (g j))) (n : ℕ) (hn : 0 < n) :
    Tendsto (fun t => n * (φ t - φ0) / Spec.notebookLine om L0 dl chi3 eps_m w n (Spec.modePower om (MU_0 * L0) Finset.univ (u t) (φ t))) l
      (𝓝 ((∑ j ∈ core, g j ^ 4) / (∑ j, g j ^ 4) * (3e8 / C_0) * (Real.sqrt eps_m / (Real.sin φ0 ^ 2 * Real.cos φ0 / (dl ^ 2 * om ^ 2 * (MU_0 * L0) * (EPSILON_0 * L0)))))) := by
  have hC0 : 0 < C_0 := Real.sqrt_pos.2 (div_pos (div_pos one_pos EPSILON_0_pos) MU_0_pos)
  have hmu := MU_0_pos
  have hep := EPSILON_0_pos
  obtain ⟨j0, hj0⟩ := Function.ne_iff.mp hg0
  have hG : 0 < ∑ j, g j ^ 2 := Finset.sum_pos' (fun j _ => sq_nonneg _) ⟨j0, Finset.mem_univ _, by have : g j0 ≠ 0 := hj0; positivity⟩
  have hG4 : 0 < ∑ j, g j ^ 4 := Finset.sum_pos' (fun j _ => by positivity) ⟨j0, Finset.mem_univ _, by have : g j0 ≠ 0 := hj0; positivity⟩
  have hwv : w = (∑ j, g j ^ 2) ^ 2 / ∑ j, g j ^ 4 := by
    have e2 : ∀ j, ‖(g j : ℂ)‖ ^ 2 = g j ^ 2 := fun j => by rw [Complex.norm_real, Real.norm_eq_abs, sq_abs]
    have e4 : ∀ j, ‖(g j : ℂ)‖ ^ 4 = g j ^ 4 := fun j => by rw [show ‖(g j : ℂ)‖ ^ 4 = (‖(g j : ℂ)‖ ^ 2) ^ 2 by ring, e2]; ring
    unfold widthEff at hw
    simp only [e2, e4] at hw
    rw [if_neg hG4.ne'] at hw
    exact (Except.ok.inj hw).symm
  have hw0 : 0 < w := by rw [hwv]; positivity
  have hsin : 0 < Real.sin φ0 := Real.sin_pos_of_pos_of_lt_pi h0 (by linarith [Real.pi_pos])
  have hcos : 0 < Real.cos φ0 := Real.cos_pos_of_mem_Ioo ⟨by linarith [Real.pi_pos], h0'⟩
  have hsq : 0 < Real.sqrt eps_m := Real.sqrt_pos.2 hem
  have hcore : ∑ j, (if j ∈ core then 3 * (chi3 / L0 ^ 2) else 0) * g j ^ 4 = 3 * (chi3 / L0 ^ 2) * ∑ j ∈ core, g j ^ 4 := by
    rw [Finset.mul_sum]
    simp only [ite_mul, zero_mul]
    rw [Finset.sum_ite_mem, Finset.univ_inter]
  have hslope := (C106_mode_slope _ om (MU_0 * L0) hom.ne' (by positivity) e _ g φ0 h0 h0' hg Finset.univ ⟨j0, Finset.mem_univ _, hj0⟩ a φ u ha ha0 hu hφ hug).2
  rw [hcore] at hslope
  have hline : ∀ P, Spec.notebookLine om L0 dl chi3 eps_m w n P = P * (n * (om / 3e8 * L0 * (3 * chi3 / L0 / L0 / (C_0 / L0) / Real.sqrt eps_m / (EPSILON_0 * L0)) / w)) := fun P => by
    unfold Spec.notebookLine spmAnalytic spmGamma spmN2
    field_simp
  set c := om / 3e8 * L0 * (3 * chi3 / L0 / L0 / (C_0 / L0) / Real.sqrt eps_m / (EPSILON_0 * L0)) / w with hcdef
  have hc0 : c ≠ 0 := by rw [hcdef]; positivity
  have hn' : (n : ℝ) ≠ 0 := by exact_mod_cast hn.ne'
  have h1 := hslope.div_const c
  have hval : dl ^ 2 * om ^ 2 * (MU_0 * L0) * (EPSILON_0 * L0) * om * (MU_0 * L0) * (3 * (chi3 / L0 ^ 2) * ∑ j ∈ core, g j ^ 4) / (Real.sin φ0 ^ 2 * Real.cos φ0 * (∑ j, g j ^ 2) * ∑ j, g j ^ 2) / c =
      (∑ j ∈ core, g j ^ 4) / (∑ j, g j ^ 4) * (3e8 / C_0) * (Real.sqrt eps_m / (Real.sin φ0 ^ 2 * Real.cos φ0 / (dl ^ 2 * om ^ 2 * (MU_0 * L0) * (EPSILON_0 * L0)))) := by
    rw [hcdef, hwv]
    have hsq2 := C_0_sq
    generalize Real.sqrt eps_m = r at *
    generalize (∑ j ∈ core, g j ^ 4) = A at *
    generalize (∑ j, g j ^ 4) = B at *
    generalize (∑ j, g j ^ 2) = G at *
    generalize Real.sin φ0 = S at *
    generalize Real.cos φ0 = Q at *
    generalize C_0 = c0 at *
    generalize EPSILON_0 = e0 at *
    generalize MU_0 = m0 at *
    have hB := hG4.ne'
    have hGG := hG.ne'
    field_simp
    linear_combination A * hsq2
  rw [hval] at h1
  refine h1.congr fun t => ?_
  rw [hline]
  show (φ t - φ0) / _ / c = _
  rw [div_div, mul_comm ((n : ℝ)) (φ t - φ0), mul_left_comm _ (n : ℝ), mul_comm (n : ℝ) (_ * c), mul_div_mul_right _ _ hn']

/-- **C106, the analytic line is not the limit.** In bulk silicon (`eps_m = 12.25`), on any grid with at most about 0.3 rad of phase per cell, plane waves of amplitude tending to zero have a phase shift
below a third of what the notebook's formula gives for their power: the `n2` of the notebook lacks the factor `1/√eps_m` of `3 χ / (eps_m c ε0)`. -/
theorem C106_line_false (hy : 0 < Ny) (om L0 dl chi3 : ℝ) (hom : 0 < om) (hL : 0 < L0) (hdl : 0 < dl) (hchi : 0 < chi3)
    (hk : dl ^ 2 * om ^ 2 * (MU_0 * L0) * (EPSILON_0 * L0) * 12.25 ≤ 1 / 10) :
    ∃ (φ0 w r : ℝ) (a φ : ℕ → ℝ) (g : Fin Ny → ℝ) (u : ℕ → Fin Ny → ℝ),
      Spec.KerrMode (dl ^ 2 * om ^ 2 * (MU_0 * L0) * (EPSILON_0 * L0)) (fun _ => 12.25) 0 g φ0 ∧ widthEff (fun j => (g j : ℂ)) = .ok w ∧ (∀ t, a t ≠ 0) ∧ Tendsto a atTop (𝓝 0) ∧
      (∀ t, Spec.KerrMode (dl ^ 2 * om ^ 2 * (MU_0 * L0) * (EPSILON_0 * L0)) (fun _ => 12.25) (fun _ => 3 * (chi3 / L0 ^ 2)) (u t) (φ t)) ∧ (∀ t j, u t j = a t * g j) ∧ r < 1 / 3 ∧
      ∀ n : ℕ, 0 < n → Tendsto (fun t => n * (φ t - φ0) / Spec.notebookLine om L0 dl chi3 12.25 w n (Spec.modePower om (MU_0 * L0) Finset.univ (u t) (φ t))) atTop (𝓝 r) := by
  have hmu := MU_0_pos
  have hep := EPSILON_0_pos
  set k2 := dl ^ 2 * om ^ 2 * (MU_0 * L0) * (EPSILON_0 * L0) with hk2
  have hk2p : 0 < k2 := by rw [hk2]; positivity
  set K := 3 * (chi3 / L0 ^ 2) with hK
  have hKp : 0 < K := by rw [hK]; positivity
  have hs := Real.sqrt_pos.2 hKp
  set a : ℕ → ℝ := fun t => 1 / ((t : ℝ) + 1) / Real.sqrt K with ha
  have ha0 : ∀ t, a t ≠ 0 := fun t => by rw [ha]; positivity
  have halim : Tendsto a atTop (𝓝 0) := by
    have := (tendsto_one_div_add_atTop_nhds_zero_nat (𝕜 := ℝ)).div_const (Real.sqrt K)
    rwa [zero_div] at this
  have haK : ∀ t, 0 ≤ K * a t ^ 2 ∧ K * a t ^ 2 ≤ 1 := fun t => by
    refine ⟨by positivity, ?_⟩
    have e : K * a t ^ 2 = (1 / ((t : ℝ) + 1)) ^ 2 := by
      rw [ha]
      beta_reduce
      rw [div_pow _ (Real.sqrt K), Real.sq_sqrt hKp.le]
      field_simp
    rw [e]
    refine pow_le_one₀ (by positivity) ?_
    rw [div_le_one (by positivity)]
    linarith [Nat.cast_nonneg (α := ℝ) t]
  have hk2' : k2 ≤ 1 / 122 := by linarith
  have hmode : ∀ (c b : ℝ) (κ : ℝ), 0 ≤ κ * b ^ 2 → κ * b ^ 2 ≤ 1 → c = 1 - k2 * (12.25 + κ * b ^ 2) / 2 →
      Spec.KerrMode (Ny := Ny) k2 (fun _ => 12.25) (fun _ => κ) (fun _ => b) (Real.arccos c) := fun c b κ h1 h2 hc j => by
    have h3 : 0 ≤ k2 * (12.25 + κ * b ^ 2) := by positivity
    have h4 : k2 * (12.25 + κ * b ^ 2) ≤ 1 := by nlinarith
    rw [four_sin_sq, Real.cos_arccos (by linarith) (by linarith), hc]
    ring
  set φ0 := Real.arccos (1 - k2 * 12.25 / 2) with hφ0
  have hc0 : Real.cos φ0 = 1 - k2 * 12.25 / 2 := Real.cos_arccos (by linarith) (by linarith)
  have hg : Spec.KerrMode (Ny := Ny) k2 (fun _ => 12.25) 0 (fun _ => 1) φ0 := by
    have := hmode (1 - k2 * 12.25 / 2) 1 0 (by norm_num) (by norm_num) (by ring)
    exact this
  have h0 : 0 < φ0 := Real.arccos_pos.2 (by linarith)
  have h0' : φ0 < Real.pi / 2 := Real.arccos_lt_pi_div_two.2 (by linarith)
  have hNy : (0 : ℝ) < Ny := by exact_mod_cast hy
  have hw : widthEff (fun j : Fin Ny => (((fun _ => 1 : Fin Ny → ℝ) j : ℝ) : ℂ)) = .ok (Ny : ℝ) := by
    unfold widthEff
    simp only [Complex.ofReal_one, norm_one, one_pow, Finset.sum_const, Finset.card_univ, Fintype.card_fin, nsmul_eq_mul, mul_one]
    rw [if_neg hNy.ne']
    refine congrArg _ ?_
    field_simp
  have hsq : Real.sqrt 12.25 = 3.5 := by
    rw [show (12.25 : ℝ) = 3.5 ^ 2 by norm_num]
    exact Real.sqrt_sq (by norm_num)
  have hC0 : 2.99e8 < C_0 := by
    unfold C_0
    refine Real.lt_sqrt_of_sq_lt ?_
    unfold EPSILON_0 MU_0
    norm_num
  refine ⟨φ0, Ny, _, a, fun t => Real.arccos (1 - k2 * (12.25 + K * a t ^ 2) / 2), fun _ => 1, fun t _ => a t, hg, hw, ha0, halim, fun t => hmode _ _ K (haK t).1 (haK t).2 rfl,
    fun t j => (mul_one _).symm, ?_, fun n hn => C106_line om L0 dl chi3 12.25 hom hL hdl hchi.ne' (by norm_num) (fun _ => 12.25) (fun _ => 1) Finset.univ φ0 h0 h0' hg
      (Function.ne_iff.mpr ⟨⟨0, hy⟩, one_ne_zero⟩) Ny hw a _ _ ha0 halim (fun t => ?_) (fun t => ⟨Real.arccos_nonneg _, Real.arccos_le_pi _⟩) (fun j => ?_) n hn⟩
  · rw [hsq, ← hk2, div_self, one_mul]
    · have hsin : Real.sin φ0 ^ 2 = k2 * 12.25 * (1 - k2 * 12.25 / 4) := by
        rw [Real.sin_sq, hc0]
        ring
      rw [hsin, hc0]
      have e : k2 * 12.25 * (1 - k2 * 12.25 / 4) * (1 - k2 * 12.25 / 2) / k2 = 12.25 * ((1 - k2 * 12.25 / 4) * (1 - k2 * 12.25 / 2)) := by
        field_simp
      rw [e]
      have h5 : 11.3 ≤ 12.25 * ((1 - k2 * 12.25 / 4) * (1 - k2 * 12.25 / 2)) := by nlinarith
      have h6 : 3.5 / (12.25 * ((1 - k2 * 12.25 / 4) * (1 - k2 * 12.25 / 2))) ≤ 3.5 / 11.3 := div_le_div_of_nonneg_left (by norm_num) (by norm_num) h5
      have h7 : 3e8 / C_0 ≤ 3e8 / 2.99e8 := div_le_div_of_nonneg_left (by norm_num) (by norm_num) hC0.le
      refine lt_of_le_of_lt (mul_le_mul h7 h6 (by positivity) (by norm_num)) (by norm_num)
    · simp only [one_pow, Finset.sum_const, Finset.card_univ, Fintype.card_fin, nsmul_eq_mul, mul_one]
      exact hNy.ne'
  · have := hmode _ _ K (haK t).1 (haK t).2 rfl
    simpa only [Finset.mem_univ, if_true] using this
  · refine tendsto_const_nhds.congr fun t => ?_
    rw [div_self (ha0 t)]

/-- The grid, frequency and susceptibility of the notebook. -/
example : ∃ (φ0 w r : ℝ) (a φ : ℕ → ℝ) (g : Fin 200 → ℝ) (u : ℕ → Fin 200 → ℝ),
      Spec.KerrMode (0.01 ^ 2 * (2 * Real.pi * 200e12) ^ 2 * (MU_0 * 1e-6) * (EPSILON_0 * 1e-6)) (fun _ => 12.25) 0 g φ0 ∧ widthEff (fun j => (g j : ℂ)) = .ok w ∧ (∀ t, a t ≠ 0) ∧ Tendsto a atTop (𝓝 0) ∧
      (∀ t, Spec.KerrMode (0.01 ^ 2 * (2 * Real.pi * 200e12) ^ 2 * (MU_0 * 1e-6) * (EPSILON_0 * 1e-6)) (fun _ => 12.25) (fun _ => 3 * (2.8e-18 / 1e-6 ^ 2)) (u t) (φ t)) ∧
      (∀ t j, u t j = a t * g j) ∧ r < 1 / 3 ∧
      ∀ n : ℕ, 0 < n → Tendsto (fun t => n * (φ t - φ0) / Spec.notebookLine (2 * Real.pi * 200e12) 1e-6 0.01 2.8e-18 12.25 w n (Spec.modePower (2 * Real.pi * 200e12) (MU_0 * 1e-6) Finset.univ (u t) (φ t)))
        atTop (𝓝 r) := by
  refine C106_line_false (by norm_num) _ _ _ _ (by positivity) (by norm_num) (by norm_num) (by norm_num) ?_
  have h1 : Real.pi ^ 2 ≤ 10 := by nlinarith [Real.pi_lt_d2, Real.pi_pos]
  unfold MU_0 EPSILON_0
  rw [mul_pow, mul_pow]
  nlinarith

/-- A wave of phase `π/2` per cell in a Kerr medium of permittivity `1/9` raised to `2/9` by the wave itself. -/
example (j : Fin 3) : Spec.nlResidual (cksim 0 (1 / 27) (fun _ _ => ((1 / 9 : ℝ) : ℂ)) (fun _ _ => 0) : Sim 4 3) (fun i _ => (-Complex.I) ^ i.val) 1 j = 0 := by
  have hE := ETA_0_pos.ne'
  have hk : Spec.cellPhaseSq (cksim 0 (1 / 27) (fun _ _ => ((1 / 9 : ℝ) : ℂ)) (fun _ _ => 0) : Sim 4 3) = 9 := by
    show (3 / ETA_0) ^ 2 * (1 : ℝ) ^ 2 * (MU_0 * (1 / EPSILON_0)) * (EPSILON_0 * (1 / EPSILON_0)) = 9
    rw [mu0_norm, mul_one_div_cancel EPSILON_0_pos.ne']
    field_simp
    norm_num
  have hexp : Complex.exp (((Real.pi / 2 : ℝ) : ℂ) * Complex.I) = Complex.I := by
    push_cast
    exact Complex.exp_pi_div_two_mul_I
  refine (C106_mode (cksim 0 (1 / 27) (fun _ _ => ((1 / 9 : ℝ) : ℂ)) (fun _ _ => 0) : Sim 4 3) (cksim_valid _ _ _ _) rfl (fsim_dl_pos (Nx := 4) (Ny := 3) 0 (fun _ _ => 0) (fun _ _ => 0)) (by norm_num) (by norm_num) rfl 1 (by decide) (by decide)
    (fun _ => 1 / 9) (fun _ => 1 / 9) (fun _ => rfl) (fun j => ?_) (fun _ => rfl) _ (fun _ => 1) (Real.pi / 2) ⟨-Complex.I, by simp, fun j => ⟨?_, ?_, ?_⟩⟩).2 ?_ j
  · simp [cksim, Spec.kerrSum, Spec.kerrCoef]
    norm_num
  · simp
  · rw [Complex.exp_neg, hexp, Complex.inv_I]
    show (-Complex.I) ^ 2 = _
    push_cast
    ring
  · rw [hexp]
    show (-Complex.I) ^ 0 = _
    simp
  · intro k
    rw [hk, four_sin_sq, Real.cos_pi_div_two]
    norm_num

end Angler
