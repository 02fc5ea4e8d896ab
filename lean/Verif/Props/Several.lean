import Verif.Props.Resonance
import Verif.Props.Uniform
import Verif.Props.BornConverges
import Verif.Props.Nonlinear
import Verif.Lemmas.KerrBranch

/-! # C99 — several fields for one Kerr device: the result of a nonlinear solve depends on its start -/

namespace Angler

open Matrix

variable {Nx Ny : ℕ}

/-! ## A solve started at an exact field -/

theorem conv_zero (E : Grid Nx Ny ℂ) (hne : E ≠ 0) : convergence E E = .fin 0 := by
  rw [(convergence_spec E E).1 hne]
  simp

theorem born_start (env : Env) (s : Sim Nx Ny) (E : Grid Nx Ny ℂ) (hne : E ≠ 0) (hstep : (bornStep env s E).2.2 = E) (thr : ℝ) (hthr : 0 < thr) (n : ℕ) :
    ∃ r s', born_solve env s (some E) thr (n + 1) = (.ok r, s') ∧ r.Fz = E ∧ s'.pol = s.pol ∧ ∀ k < n + 1, r.conv[k]? = some (.fin 0) ∧ r.conv.length = n + 1 := by
  obtain ⟨E0, fl, m, conv, hst, hm, heq, hnot, hstop, hlen, hrow, hzero⟩ := born_solve_spec env s (some E) thr n
  have hE0 : E0 = E := hst.1 E rfl
  subst hE0
  have h1 : bornIter env s E0 1 = E0 := by
    rw [show (1 : ℕ) = 0 + 1 from rfl, bornIter_succ, bornIter_zero]
    exact hstep
  have hc : bornConv env s E0 0 = .fin 0 := by
    show convergence (bornIter env s E0 (0 + 1)) (bornIter env s E0 0) = _
    rw [h1, bornIter_zero, conv_zero _ hne]
  have hm0 : m = 0 := by
    by_contra hk
    refine hnot 0 (by omega) ?_
    rw [hc]
    exact hthr
  subst hm0
  refine ⟨_, _, heq, h1, rfl, fun k hk => ⟨?_, hlen⟩⟩
  rcases Nat.eq_zero_or_pos k with rfl | hk0
  · rw [hrow 0 le_rfl, hc]
  · exact hzero k hk0 hk

theorem residual_zero (s : Sim Nx Ny) (E : Grid Nx Ny ℂ) (h : bornMat s E *ᵥ flatten E = s.rhs) : (nl_eq_and_jac s E).1.1 = 0 := by
  have e1 : (nl_eq_and_jac s E).1.1 = fun k => ((s.A + (s.compute_nl E).Anl.getD 0) *ᵥ flatten E) k - s.rhs k := rfl
  rw [e1, compute_nl_Anl, Option.getD_some]
  funext k
  have := congrFun h k
  unfold bornMat at this
  rw [this, sub_self]
  rfl

theorem newton_start (env : Env) (s : Sim Nx Ny) (hp : s.pol = .Ez) (E : Grid Nx Ny ℂ) (hne : E ≠ 0) (hres : (nl_eq_and_jac s E).1.1 = 0) (hstep : (bornStep env s E).2.2 = E) (thr : ℝ)
    (hthr : 0 < thr) (n : ℕ) : ∃ r s', newton_solve env s (some E) thr (n + 1) = (.ok r, s') ∧ r.Fz = E ∧ s'.pol = s.pol := by
  have hsol : solver_complex2real env (nl_eq_and_jac s E).1.2.1 (nl_eq_and_jac s E).1.2.2 (nl_eq_and_jac s E).1.1 = .ok 0 := by
    rw [hres]
    unfold solver_complex2real
    rw [if_pos rfl]
  have hE' : (fun i j => E i j - unflatten (0 : Vec (Nx * Ny) ℂ) i j) = E := by
    funext i j
    exact sub_zero _
  have hloop : newtonLoop env thr (n + 1) 0 s E (List.replicate (n + 1) (.fin 0)) none =
      (.ok (E, some (.fin 0), (List.replicate (n + 1) (PyFloat.fin 0)).set 0 (.fin 0)), (nl_eq_and_jac s E).2) := by
    unfold newtonLoop
    simp only [hsol, hE', conv_zero E hne]
    have hlt : (convergence (fun i j => E i j - unflatten (0 : Vec (Nx * Ny) ℂ) i j) E).Lt thr := by
      rw [hE', conv_zero E hne]
      exact hthr
    rw [if_pos hlt]
  have hs2 : (nl_eq_and_jac s E).2 = s.compute_nl E := rfl
  have hfin : ((s.compute_nl E).compute_nl E).solve_fields env true = (.ok (bornStep env s E), (s.compute_nl E).compute_nl E) := by
    rw [solve_fields_nl_step, bornStep_compute_nl]
  refine ⟨⟨(bornStep env s E).1, (bornStep env s E).2.1, (bornStep env s E).2.2, (List.replicate (n + 1) (PyFloat.fin 0)).set 0 (.fin 0)⟩, (s.compute_nl E).compute_nl E, ?_, hstep, rfl⟩
  unfold newton_solve startField
  simp only [hp, hloop, hs2, hfin]

/-- **C99, exact fields are kept.** A nonlinear solve started at an exact nonzero field of the device returns it, whatever the solver, the threshold and the number of iterations. -/
theorem C99_kept (env : Env) (he : env.Exact) (s : Sim Nx Ny) (hv : s.Valid) (hp : s.pol = .Ez) (E : Grid Nx Ny ℂ) (hE : Spec.KerrMaxwellEz s E) (hne : E ≠ 0)
    (hdet : (s.A + (s.compute_nl E).Anl.getD 0).det ≠ 0) (solver : NlSolver) (hs : solver = .born ∨ solver = .newton ∨ solver = .hybrid) (thr : ℝ) (hthr : 0 < thr) (n : ℕ) (hn : 0 < n) :
    ∃ r s', solve_fields_nl env s (some E) solver thr n = (.ok r, s') ∧ r.Fz = E ∧ s'.fields_nl .Ez = some E := by
  rw [compute_nl_Anl, Option.getD_some] at hdet
  have h0 := (kerrMaxwellEz_iff s hv hp E).1 hE
  have hstep : (bornStep env s E).2.2 = E := by
    have hdet' : (bornMat s E).det ≠ 0 := hdet
    rw [bornStep_third, solver_direct_unique he hdet' h0, unflatten_flatten]
  obtain ⟨n, rfl⟩ : ∃ p, n = p + 1 := ⟨n - 1, by omega⟩
  have fin : ∀ (r : NlResult Nx Ny) (s1 : Sim Nx Ny), r.Fz = E → s1.pol = s.pol →
      ({ s1 with fields_nl := Sim.store s1.pol s1.fields_nl (r.Fx, r.Fy, r.Fz) } : Sim Nx Ny).fields_nl .Ez = some E := by
    intro r s1 h1 h2
    show Sim.store s1.pol s1.fields_nl (r.Fx, r.Fy, r.Fz) .Ez = some E
    rw [h2, hp, h1]
    rfl
  rcases hs with rfl | rfl | rfl
  · obtain ⟨r, s', h1, h2, h3, -⟩ := born_start env s E hne hstep thr hthr n
    refine ⟨r, { s' with fields_nl := Sim.store s'.pol s'.fields_nl (r.Fx, r.Fy, r.Fz) }, ?_, h2, fin r s' h2 h3⟩
    unfold solve_fields_nl
    simp only [h1]
  · obtain ⟨r, s', h1, h2, h3⟩ := newton_start env s hp E hne (residual_zero s E h0) hstep thr hthr n
    refine ⟨r, { s' with fields_nl := Sim.store s'.pol s'.fields_nl (r.Fx, r.Fy, r.Fz) }, ?_, h2, fin r s' h2 h3⟩
    unfold solve_fields_nl
    simp only [h1]
  · obtain ⟨r, s', h1, h2, h3, h4⟩ := born_start env s E hne hstep thr hthr 19
    refine ⟨r, { s' with fields_nl := Sim.store s'.pol s'.fields_nl (r.Fx, r.Fy, r.Fz) }, ?_, h2, fin r s' h2 h3⟩
    have hlast : r.conv.getLast? = some (.fin 0) := by
      rw [List.getLast?_eq_getElem?, (h4 0 (by omega)).2]
      exact (h4 19 (by omega)).1
    have hng : ¬ (PyFloat.fin 0).Gt 1e-10 := by
      show ¬ ((1e-10 : ℝ) < 0)
      norm_num
    have hng' : ¬ ((r.conv.getLast?).getD (.fin 0)).Gt 1e-10 := by
      rw [hlast]
      exact hng
    have h1' : born_solve env s (some E) thr 20 = (.ok r, s') := h1
    unfold solve_fields_nl
    simp only [h1']
    rw [if_neg hng']

/-! ## Fields of plane waves -/

theorem kerr_apply (s : Sim Nx Ny) (k : ℂ) (hk : ∀ i j, Spec.kerrSum s.nonlinearity s.eps_r i j = k) (w : Grid Nx Ny ℂ) (hw : ∀ i j, ‖w i j‖ = 1) (lam : ℂ) (hA : s.A *ᵥ flatten w = lam • flatten w) (X : ℂ) :
    bornMat s (fun i j => X * w i j) *ᵥ flatten (fun i j => X * w i j) =
      flatten fun i j => (lam + ((s.omega ^ 2 * EPSILON_0 * s.L0 : ℝ) : ℂ) * k * ((‖X‖ ^ 2 : ℝ) : ℂ)) * X * w i j := by
  have h1 : (flatten (fun i j => X * w i j) : Vec (Nx * Ny) ℂ) = X • flatten w := rfl
  unfold bornMat
  rw [Matrix.add_mulVec, kerrMat_mulVec, h1, Matrix.mulVec_smul, hA]
  refine flat_ext fun i j => ?_
  simp only [Pi.add_apply, Pi.smul_apply, flatten_pair, hk, norm_mul, hw, mul_one, smul_eq_mul]
  ring

theorem wave_kerr (s : Sim Nx Ny) (hv : s.Valid) (hp : s.pol = .Ez) (hx : 0 < Nx) (hy : 0 < Ny) (k : ℂ) (hk : ∀ i j, Spec.kerrSum s.nonlinearity s.eps_r i j = k) (w : Grid Nx Ny ℂ)
    (hw : ∀ i j, ‖w i j‖ = 1) (lam : ℂ) (hA : s.A *ᵥ flatten w = lam • flatten w) (J : ℂ) (hJ : ∀ i j, s.src i j = J * w i j) (X : ℂ) :
    Spec.KerrMaxwellEz s (fun i j => X * w i j) ↔ (lam + ((s.omega ^ 2 * EPSILON_0 * s.L0 : ℝ) : ℂ) * k * ((‖X‖ ^ 2 : ℝ) : ℂ)) * X = Complex.I * s.omega * J := by
  rw [kerrMaxwellEz_iff s hv hp, kerr_apply s k hk w hw lam hA X]
  have hrhs : s.rhs = flatten fun i j => s.src i j * Complex.I * (s.omega : ℂ) := rfl
  rw [hrhs]
  constructor
  · intro h
    have h1 := congrFun h (finProdFinEquiv (⟨0, hx⟩, ⟨0, hy⟩))
    simp only [flatten_pair, hJ] at h1
    have hw0 : w ⟨0, hx⟩ ⟨0, hy⟩ ≠ 0 := fun h => by simpa [h] using hw ⟨0, hx⟩ ⟨0, hy⟩
    refine mul_right_cancel₀ hw0 ?_
    rw [h1]
    ring
  · intro h
    refine flat_ext fun i j => ?_
    simp only [flatten_pair, hJ, h]
    ring

theorem norm_planeWave (p r : ℤ) (i : Fin Nx) (j : Fin Ny) : ‖Spec.planeWave Nx Ny p r i j‖ = 1 := by
  have h : ∀ (n : ℕ) (p : ℤ) (i : ℕ), ‖Spec.wave n p i‖ = 1 := by
    intro n p i
    unfold Spec.wave
    rw [show (2 * Real.pi * Complex.I * p * i / n : ℂ) = ((2 * Real.pi * p * i / n : ℝ) : ℂ) * Complex.I by push_cast; ring, Complex.norm_exp_ofReal_mul_I]
  unfold Spec.planeWave
  rw [norm_mul, h, h, mul_one]

/-- **C99, plane waves.** In a uniform Kerr medium without layers, driven by a plane wave of amplitude `J`, the wave of amplitude `X` is a field of the device exactly if
`(d / μ + ω² ε₀ k |X|²) X = i ω J`, where `d` is the defect of the dispersion relation of the grid. -/
theorem C99_waves (s : Sim Nx Ny) (hv : s.Valid) (hp : s.pol = .Ez) (hdl : 0 < s.dl) (hx : 1 < Nx) (hy : 1 < Ny) (hN : s.NPML = (0, 0)) (e k : ℂ) (he : ∀ i j, s.eps_r i j = e) (he0 : e ≠ 0)
    (hk : ∀ i j, Spec.kerrSum s.nonlinearity s.eps_r i j = k) (p r : ℤ) (J : ℂ) (hJ : ∀ i j, s.src i j = J * Spec.planeWave Nx Ny p r i j) (X : ℂ) :
    Spec.KerrMaxwellEz s (fun i j => X * Spec.planeWave Nx Ny p r i j) ↔
      (Spec.gridDefect s.omega s.dl ((MU_0 * s.L0 : ℝ) : ℂ) (((EPSILON_0 * s.L0 : ℝ) : ℂ) * e) Nx Ny p r / ((MU_0 * s.L0 : ℝ) : ℂ) +
        ((s.omega ^ 2 * EPSILON_0 * s.L0 : ℝ) : ℂ) * k * ((‖X‖ ^ 2 : ℝ) : ℂ)) * X = Complex.I * s.omega * J := by
  have h := C92_eigen s hv hdl hx hy hN e he he0 p r
  rw [hp] at h
  exact wave_kerr s hv hp (by omega) (by omega) k hk _ (norm_planeWave p r) _ h J hJ X

theorem const_eigen (s : Sim Nx Ny) (hv : s.Valid) (hp : s.pol = .Ez) (hdl : 0 < s.dl) (hx : 1 < Nx) (hy : 1 < Ny) (e : ℂ) (he : ∀ i j, s.eps_r i j = e) :
    s.A *ᵥ flatten (fun _ _ => 1 : Grid Nx Ny ℂ) = (((s.omega ^ 2 * EPSILON_0 * s.L0 : ℝ) : ℂ) * e) • flatten (fun _ _ => 1 : Grid Nx Ny ℂ) := by
  rw [stencil_apply s hv hdl.ne' hx hy]
  refine flat_ext fun i j => ?_
  simp only [flatten_pair, Pi.smul_apply, ringLap, sub_self, zero_div, mul_zero, massOf, hp, he, smul_eq_mul]
  push_cast
  ring

/-- **C99, uniform fields.** In a uniform Kerr medium with or without layers, driven uniformly with amplitude `J`, the uniform field `X` is a field of the device exactly if `ω² ε₀ (ε + k |X|²) X = i ω J`. -/
theorem C99_uniform (s : Sim Nx Ny) (hv : s.Valid) (hp : s.pol = .Ez) (hdl : 0 < s.dl) (hx : 1 < Nx) (hy : 1 < Ny) (e k : ℂ) (he : ∀ i j, s.eps_r i j = e)
    (hk : ∀ i j, Spec.kerrSum s.nonlinearity s.eps_r i j = k) (J : ℂ) (hJ : ∀ i j, s.src i j = J) (X : ℂ) :
    Spec.KerrMaxwellEz s (fun _ _ => X) ↔ ((s.omega ^ 2 * EPSILON_0 * s.L0 : ℝ) : ℂ) * (e + k * ((‖X‖ ^ 2 : ℝ) : ℂ)) * X = Complex.I * s.omega * J := by
  have h := wave_kerr s hv hp (by omega) (by omega) k hk (fun _ _ => 1) (fun _ _ => norm_one) _ (const_eigen s hv hp hdl hx hy e he) J (fun i j => by rw [hJ, mul_one]) X
  simp only [mul_one] at h
  rw [h]
  constructor <;> intro h1 <;> linear_combination h1

/-- The amplitudes solving `(a + b |X|²) X = w`. -/
theorem cubic_three (a b w : ℂ) (hb : b ≠ 0) (hw : w ≠ 0) : ∃ S : Finset ℂ, S.card ≤ 3 ∧ ∀ X : ℂ, (a + b * ((‖X‖ ^ 2 : ℝ) : ℂ)) * X = w → X ∈ S := by
  classical
  let P : Polynomial ℝ := Polynomial.C (Complex.normSq b) * Polynomial.X ^ 3 + Polynomial.C (2 * (a.re * b.re + a.im * b.im)) * Polynomial.X ^ 2 + Polynomial.C (Complex.normSq a) * Polynomial.X +
    Polynomial.C (-Complex.normSq w)
  have hdeg : P.natDegree ≤ 3 := Polynomial.natDegree_cubic_le
  have hP0 : P ≠ 0 := by
    intro h
    have h1 : P.coeff 3 = Complex.normSq b := by
      simp only [P]
      generalize 2 * (a.re * b.re + a.im * b.im) = q
      simp
    rw [h, Polynomial.coeff_zero] at h1
    exact hb (Complex.normSq_eq_zero.1 h1.symm)
  refine ⟨P.roots.toFinset.image fun t : ℝ => w / (a + b * (t : ℂ)), (Finset.card_image_le.trans (Multiset.toFinset_card_le _)).trans ((Polynomial.card_roots' P).trans hdeg), fun X hX => ?_⟩
  refine Finset.mem_image.2 ⟨‖X‖ ^ 2, ?_, ?_⟩
  · rw [Multiset.mem_toFinset, Polynomial.mem_roots hP0, Polynomial.IsRoot.def]
    have h1 : Complex.normSq (a + b * ((‖X‖ ^ 2 : ℝ) : ℂ)) * ‖X‖ ^ 2 = Complex.normSq w := by
      rw [← hX, Complex.normSq_mul, Complex.normSq_eq_norm_sq X]
    simp only [P, Polynomial.eval_add, Polynomial.eval_mul, Polynomial.eval_C, Polynomial.eval_pow, Polynomial.eval_X]
    rw [← h1]
    generalize ‖X‖ ^ 2 = t
    simp only [Complex.normSq_apply, Complex.add_re, Complex.add_im, Complex.re_mul_ofReal, Complex.im_mul_ofReal]
    ring
  · have hne : a + b * ((‖X‖ ^ 2 : ℝ) : ℂ) ≠ 0 := by
      intro h0
      rw [h0, zero_mul] at hX
      exact hw hX.symm
    rw [div_eq_iff hne, ← hX, mul_comm]

/-- **C99, at most three.** For a source that is not zero, a plane wave in a uniform Kerr medium without layers has at most three amplitudes, and so has a uniform field, with or without layers. -/
theorem C99_at_most_three (s : Sim Nx Ny) (hv : s.Valid) (hp : s.pol = .Ez) (hdl : 0 < s.dl) (hx : 1 < Nx) (hy : 1 < Ny) (e k : ℂ) (he : ∀ i j, s.eps_r i j = e) (he0 : e ≠ 0)
    (hk : ∀ i j, Spec.kerrSum s.nonlinearity s.eps_r i j = k) (hk0 : k ≠ 0) (p r : ℤ) (hN : s.NPML = (0, 0) ∨ (p = 0 ∧ r = 0)) (J : ℂ) (hJ0 : J ≠ 0)
    (hJ : ∀ i j, s.src i j = J * Spec.planeWave Nx Ny p r i j) :
    ∃ S : Finset ℂ, S.card ≤ 3 ∧ ∀ X : ℂ, Spec.KerrMaxwellEz s (fun i j => X * Spec.planeWave Nx Ny p r i j) → X ∈ S := by
  have ho : (s.omega : ℂ) ≠ 0 := by exact_mod_cast hv.omega_pos.ne'
  have hw : Complex.I * s.omega * J ≠ 0 := mul_ne_zero (mul_ne_zero Complex.I_ne_zero ho) hJ0
  have hc : ((s.omega ^ 2 * EPSILON_0 * s.L0 : ℝ) : ℂ) ≠ 0 := by
    have := EPSILON_0_pos; have := hv.L0_pos; have := hv.omega_pos
    exact_mod_cast (by positivity : s.omega ^ 2 * EPSILON_0 * s.L0 ≠ 0)
  rcases hN with hN | ⟨rfl, rfl⟩
  · obtain ⟨S, h1, h2⟩ := cubic_three _ (((s.omega ^ 2 * EPSILON_0 * s.L0 : ℝ) : ℂ) * k) _ (mul_ne_zero hc hk0) hw
    exact ⟨S, h1, fun X hX => h2 X ((C99_waves s hv hp hdl hx hy hN e k he he0 hk p r J hJ X).1 hX)⟩
  · have hone : ∀ i j, Spec.planeWave Nx Ny 0 0 i j = 1 := by intro i j; simp [Spec.planeWave, Spec.wave]
    obtain ⟨S, h1, h2⟩ := cubic_three (((s.omega ^ 2 * EPSILON_0 * s.L0 : ℝ) : ℂ) * e) (((s.omega ^ 2 * EPSILON_0 * s.L0 : ℝ) : ℂ) * k) _ (mul_ne_zero hc hk0) hw
    refine ⟨S, h1, fun X hX => h2 X ?_⟩
    simp only [hone, mul_one] at hX
    have h3 := (C99_uniform s hv hp hdl hx hy e k he hk J (fun i j => by rw [hJ, hone, mul_one]) X).1 hX
    linear_combination h3

/-! ## Three fields of one device -/

theorem frozen_uniform (s : Sim Nx Ny) (hv : s.Valid) (hp : s.pol = .Ez) (e k X : ℂ) (he : ∀ i j, s.eps_r i j = e) (hk : ∀ i j, Spec.kerrSum s.nonlinearity s.eps_r i j = k) (w : Grid Nx Ny ℂ)
    (hw : ∀ i j, ‖w i j‖ = 1) :
    s.A + (s.compute_nl fun i j => X * w i j).Anl.getD 0 = (s.set_eps_r fun _ _ => e + k * ((‖X‖ ^ 2 : ℝ) : ℂ)).A := by
  rw [compute_nl_Anl, Option.getD_some, A_add_kerrMat s hv hp]
  have h : (fun i j => s.eps_r i j + Spec.kerrSum s.nonlinearity s.eps_r i j * ((‖X * w i j‖ ^ 2 : ℝ) : ℂ)) = fun _ _ => e + k * ((‖X‖ ^ 2 : ℝ) : ℂ) := by
    funext i j
    rw [he, hk, norm_mul, hw, mul_one]
  rw [h, Sim.set_eps_r, hp]

/-- Three amplitudes of an eigenvector of constant modulus. -/
theorem several_core (env : Env) (hEx : env.Exact) (s : Sim Nx Ny) (hv : s.Valid) (hp : s.pol = .Ez) (hx : 0 < Nx) (hy : 0 < Ny) (w : Grid Nx Ny ℂ) (hw : ∀ i j, ‖w i j‖ = 1) (lam k : ℝ)
    (hA : s.A *ᵥ flatten w = (lam : ℂ) • flatten w) (hk : ∀ i j, Spec.kerrSum s.nonlinearity s.eps_r i j = k) (R : ℝ) (hR0 : 0 < R) (hR2 : s.omega ^ 2 * EPSILON_0 * s.L0 * k * R ^ 2 = -lam)
    (hJ : ∀ i j, s.src i j = ((120 / 343 * lam * R / s.omega : ℝ) : ℂ) * w i j)
    (hdet : ∀ x : ℝ, x = 3 / 7 ∨ x = 5 / 7 ∨ x = 8 / 7 → ∀ X : ℂ, ‖X‖ = x * R → (s.A + (s.compute_nl fun i j => X * w i j).Anl.getD 0).det ≠ 0) :
    ∃ E : Fin 3 → Grid Nx Ny ℂ, Function.Injective E ∧ ∀ m, Spec.KerrMaxwellEz s (E m) ∧
      ∀ (solver : NlSolver), solver = .born ∨ solver = .newton ∨ solver = .hybrid → ∀ thr : ℝ, 0 < thr → ∀ n : ℕ, 0 < n →
        ∃ r s', solve_fields_nl env s (some (E m)) solver thr n = (.ok r, s') ∧ r.Fz = E m := by
  have ho : (s.omega : ℂ) ≠ 0 := by exact_mod_cast hv.omega_pos.ne'
  let x : Fin 3 → ℝ := ![3 / 7, 5 / 7, -(8 / 7)]
  have hx3 : ∀ m, (1 - x m ^ 2) * x m = 120 / 343 ∧ x m ≠ 0 ∧ (|x m| = 3 / 7 ∨ |x m| = 5 / 7 ∨ |x m| = 8 / 7) := by
    intro m
    fin_cases m
    · norm_num [x, abs_of_pos]
    · norm_num [x, abs_of_pos]
    · norm_num [x, abs_of_pos]
  have hinj : Function.Injective x := by
    intro a b hab
    fin_cases a <;> fin_cases b <;> first | rfl | (exfalso; norm_num [x] at hab)
  have hnorm : ∀ m, ‖Complex.I * ((x m * R : ℝ) : ℂ)‖ = |x m| * R := by
    intro m
    rw [norm_mul, Complex.norm_I, one_mul, Complex.norm_real, Real.norm_eq_abs, abs_mul, abs_of_pos hR0]
  have hw0 : w ⟨0, hx⟩ ⟨0, hy⟩ ≠ 0 := fun h => by simpa [h] using hw ⟨0, hx⟩ ⟨0, hy⟩
  have hsol : ∀ m, Spec.KerrMaxwellEz s (fun i j => Complex.I * ((x m * R : ℝ) : ℂ) * w i j) := by
    intro m
    rw [wave_kerr s hv hp hx hy k hk w hw lam hA _ hJ, hnorm m, mul_pow, sq_abs]
    have h1 := congrArg (fun y : ℝ => (y : ℂ)) (hx3 m).1
    have h2 := congrArg (fun y : ℝ => (y : ℂ)) hR2
    push_cast at h1 h2 ⊢
    rw [show Complex.I * (s.omega : ℂ) * (120 / 343 * (lam : ℂ) * (R : ℂ) / (s.omega : ℂ)) = Complex.I * (120 / 343 * (lam : ℂ) * (R : ℂ)) by field_simp]
    linear_combination ((lam : ℂ) * Complex.I * R) * h1 + ((x m : ℂ) ^ 2 * (Complex.I * (x m * R))) * h2
  refine ⟨fun m i j => Complex.I * ((x m * R : ℝ) : ℂ) * w i j, fun a b hab => ?_, fun m => ⟨hsol m, fun solver hs thr hthr n hn => ?_⟩⟩
  · have h1 := congrFun (congrFun hab ⟨0, hx⟩) ⟨0, hy⟩
    have h2 := Complex.ofReal_inj.1 (mul_left_cancel₀ Complex.I_ne_zero (mul_right_cancel₀ hw0 h1))
    exact hinj (mul_right_cancel₀ hR0.ne' h2)
  · have hne : (fun i j => Complex.I * ((x m * R : ℝ) : ℂ) * w i j : Grid Nx Ny ℂ) ≠ 0 := by
      intro h
      have h1 := congrFun (congrFun h ⟨0, hx⟩) ⟨0, hy⟩
      have h2 : ((x m * R : ℝ) : ℂ) = 0 := (mul_eq_zero.1 ((mul_eq_zero.1 h1).resolve_right hw0)).resolve_left Complex.I_ne_zero
      rcases mul_eq_zero.1 (Complex.ofReal_eq_zero.1 h2) with h3 | h3
      · exact (hx3 m).2.1 h3
      · exact hR0.ne' h3
    obtain ⟨r, s', h1, h2, -⟩ := C99_kept env hEx s hv hp _ (hsol m) hne (hdet _ (hx3 m).2.2 _ (hnorm m)) solver hs thr hthr n hn
    exact ⟨r, s', h1, h2⟩

/-- **C99, three fields.** Take any uniform lossless medium of permittivity `e` with a Kerr coefficient `k` of the opposite sign, on any grid with any absorbing layers on both axes, at any frequency and
resolution, driven uniformly with strength `(120/343) ω ε₀ e √(-e/k)`.  The device has three different fields; each of them is returned by every solver started there. -/
theorem C99_several (env : Env) (hEx : env.Exact) (s : Sim Nx Ny) (hv : s.Valid) (hp : s.pol = .Ez) (hdl : 0 < s.dl) (hx : 1 < Nx) (hy : 1 < Ny) (hPx : 1 ≤ s.NPML.1) (hPy : 1 ≤ s.NPML.2)
    (e k : ℝ) (hek : e * k < 0) (he : ∀ i j, s.eps_r i j = e) (hk : ∀ i j, Spec.kerrSum s.nonlinearity s.eps_r i j = k)
    (hJ : ∀ i j, s.src i j = ((120 / 343 * (s.omega * EPSILON_0 * s.L0) * e * Real.sqrt (-e / k) : ℝ) : ℂ)) :
    ∃ E : Fin 3 → Grid Nx Ny ℂ, Function.Injective E ∧ ∀ m, Spec.KerrMaxwellEz s (E m) ∧
      ∀ (solver : NlSolver), solver = .born ∨ solver = .newton ∨ solver = .hybrid → ∀ thr : ℝ, 0 < thr → ∀ n : ℕ, 0 < n →
        ∃ r s', solve_fields_nl env s (some (E m)) solver thr n = (.ok r, s') ∧ r.Fz = E m := by
  have he0 : e ≠ 0 := by rintro rfl; simp at hek
  have hk0 : k ≠ 0 := by rintro rfl; simp at hek
  have hpos : 0 < -e / k := by
    rw [neg_div, ← mul_div_mul_right e k hk0, ← neg_div]
    exact div_pos (by linarith) (mul_self_pos.2 hk0)
  have hR2 : k * Real.sqrt (-e / k) ^ 2 = -e := by rw [Real.sq_sqrt hpos.le, mul_div_cancel₀ _ hk0]
  have hR0 : 0 < Real.sqrt (-e / k) := Real.sqrt_pos.2 hpos
  have hc : 0 < s.omega ^ 2 * EPSILON_0 * s.L0 := by
    have := EPSILON_0_pos; have := hv.L0_pos; have := hv.omega_pos
    positivity
  have hA := const_eigen s hv hp hdl hx hy e he
  rw [← Complex.ofReal_mul] at hA
  refine several_core env hEx s hv hp (by omega) (by omega) (fun _ _ => 1) (fun _ _ => norm_one) (s.omega ^ 2 * EPSILON_0 * s.L0 * e) k hA hk (Real.sqrt (-e / k)) hR0 ?_ ?_ ?_
  · rw [mul_assoc, hR2]
    ring
  · intro i j
    rw [hJ, mul_one]
    congr 1
    have ho := hv.omega_pos.ne'
    field_simp
  · intro y hy3 X hX
    rw [frozen_uniform s hv hp e k X he hk (fun _ _ => 1) (fun _ _ => norm_one), hX]
    have h1 : (e : ℂ) + (k : ℂ) * (((y * Real.sqrt (-e / k)) ^ 2 : ℝ) : ℂ) = ((e * (1 - y ^ 2) : ℝ) : ℂ) := by
      rw [← Complex.ofReal_mul, ← Complex.ofReal_add]
      congr 1
      linear_combination y ^ 2 * hR2
    rw [h1]
    refine (C97_uniform (s.set_eps_r _) (hv.set_eps_r _) hdl hx hy hPx hPy _ (fun _ _ => rfl) ?_ ?_).1
    · have hy0 : 1 - y ^ 2 ≠ 0 := by rcases hy3 with rfl | rfl | rfl <;> norm_num
      exact_mod_cast mul_ne_zero he0 hy0
    · rw [Complex.ofReal_im]

/-- **C99, three waves.** The same near a resonance of a medium with the usual signs, a dielectric (`e > 0`) with a focusing nonlinearity (`k > 0`), without layers: driven by a plane wave slightly below
its resonance (`d < 0`, which `hR2` implies), the device has three different fields, provided none of the three shifted permittivities is itself in resonance. -/
theorem C99_several_waves (env : Env) (hEx : env.Exact) (s : Sim Nx Ny) (hv : s.Valid) (hp : s.pol = .Ez) (hdl : 0 < s.dl) (hx : 1 < Nx) (hy : 1 < Ny) (hN : s.NPML = (0, 0))
    (e k : ℝ) (he0 : 0 < e) (hk0 : 0 < k) (he : ∀ i j, s.eps_r i j = e) (hk : ∀ i j, Spec.kerrSum s.nonlinearity s.eps_r i j = k) (p r : ℤ) (d : ℝ)
    (hdef : Spec.gridDefect s.omega s.dl ((MU_0 * s.L0 : ℝ) : ℂ) (((EPSILON_0 * s.L0 : ℝ) : ℂ) * e) Nx Ny p r = d)
    (R : ℝ) (hR0 : 0 < R) (hR2 : s.omega ^ 2 * (MU_0 * s.L0) * (EPSILON_0 * s.L0) * k * R ^ 2 = -d)
    (hJ : ∀ i j, s.src i j = ((120 / 343 * (d / (MU_0 * s.L0)) * R / s.omega : ℝ) : ℂ) * Spec.planeWave Nx Ny p r i j)
    (hres : ∀ x : ℝ, x = 3 / 7 ∨ x = 5 / 7 ∨ x = 8 / 7 → ∀ p' r' : ℤ, s.omega ^ 2 * (MU_0 * s.L0) * (EPSILON_0 * s.L0 * (e + k * (x * R) ^ 2)) ≠
      4 / s.dl ^ 2 * (Real.sin (Real.pi * p' / Nx) ^ 2 + Real.sin (Real.pi * r' / Ny) ^ 2)) :
    ∃ E : Fin 3 → Grid Nx Ny ℂ, Function.Injective E ∧ ∀ m, Spec.KerrMaxwellEz s (E m) ∧
      ∀ (solver : NlSolver), solver = .born ∨ solver = .newton ∨ solver = .hybrid → ∀ thr : ℝ, 0 < thr → ∀ n : ℕ, 0 < n →
        ∃ r s', solve_fields_nl env s (some (E m)) solver thr n = (.ok r, s') ∧ r.Fz = E m := by
  have hM : 0 < MU_0 * s.L0 := mul_pos MU_0_pos hv.L0_pos
  have hA := C92_eigen s hv hdl hx hy hN e he (by exact_mod_cast he0.ne') p r
  rw [hdef, hp] at hA
  have hlam : (d : ℂ) / Spec.stiff .Ez ((MU_0 * s.L0 : ℝ) : ℂ) (((EPSILON_0 * s.L0 : ℝ) : ℂ) * e) = ((d / (MU_0 * s.L0) : ℝ) : ℂ) := by
    show (d : ℂ) / ((MU_0 * s.L0 : ℝ) : ℂ) = _
    rw [Complex.ofReal_div]
  rw [hlam] at hA
  refine several_core env hEx s hv hp (by omega) (by omega) _ (norm_planeWave p r) (d / (MU_0 * s.L0)) k hA hk R hR0 ?_ hJ ?_
  · rw [← neg_div, eq_div_iff hM.ne']
    linear_combination hR2
  · intro y hy3 X hX
    rw [frozen_uniform s hv hp e k X he hk _ (norm_planeWave p r), hX]
    have h1 : (e : ℂ) + (k : ℂ) * (((y * R) ^ 2 : ℝ) : ℂ) = ((e + k * (y * R) ^ 2 : ℝ) : ℂ) := by push_cast; ring
    rw [h1]
    have hepos : 0 < e + k * (y * R) ^ 2 := by positivity
    intro h0
    obtain ⟨p', r', h2⟩ := (C92_resonance (s.set_eps_r fun _ _ => ((e + k * (y * R) ^ 2 : ℝ) : ℂ)) (hv.set_eps_r _) hdl hx hy hN ((e + k * (y * R) ^ 2 : ℝ) : ℂ) (fun _ _ => rfl)
      (Complex.ofReal_ne_zero.2 hepos.ne')).1.1 h0
    have h3 : (s.omega : ℂ) ^ 2 * ((MU_0 * s.L0 : ℝ) : ℂ) * (((EPSILON_0 * s.L0 : ℝ) : ℂ) * ((e + k * (y * R) ^ 2 : ℝ) : ℂ)) =
      ((4 / s.dl ^ 2 * (Real.sin (Real.pi * p' / Nx) ^ 2 + Real.sin (Real.pi * r' / Ny) ^ 2) : ℝ) : ℂ) := h2
    refine hres y hy3 p' r' (Complex.ofReal_inj.1 ?_)
    rw [← h3]
    push_cast
    ring

/-- A device of any size, frequency, resolution and material with one Kerr nonlinearity everywhere. -/
noncomputable def anykerr (omega dl : ℝ) (NPML : ℕ × ℕ) (pol : Pol) (chi : ℝ) (eps src : Grid Nx Ny ℂ) : Sim Nx Ny :=
  { anysim omega dl NPML pol eps src with nonlinearity := [⟨chi, fun _ _ => 1, none⟩] }

theorem anykerr_valid (omega dl : ℝ) (ho : 0 < omega) (NPML : ℕ × ℕ) (pol : Pol) (chi : ℝ) (eps src : Grid Nx Ny ℂ) : (anykerr omega dl NPML pol chi eps src).Valid :=
  { anysim_valid omega dl ho NPML pol eps src with }

theorem anykerr_sum (omega dl : ℝ) (NPML : ℕ × ℕ) (pol : Pol) (chi : ℝ) (eps src : Grid Nx Ny ℂ) (i : Fin Nx) (j : Fin Ny) :
    Spec.kerrSum (anykerr omega dl NPML pol chi eps src).nonlinearity (anykerr omega dl NPML pol chi eps src).eps_r i j = ((3 * chi : ℝ) : ℂ) := by
  simp [Spec.kerrSum, Spec.kerrCoef, anykerr]

/-- A defocusing dielectric with layers of ten cells: the default solver started at three different fields returns three different results. -/
example (env : Env) (hEx : env.Exact) (omega : ℝ) (ho : 0 < omega) : ∃ src E1 E2 : Grid 100 80 ℂ, ∃ r1 r2 s1 s2,
    solve_fields_nl env (anykerr omega (1 / 20) (10, 10) .Ez (-1) (fun _ _ => 12) src) (some E1) = (.ok r1, s1) ∧
    solve_fields_nl env (anykerr omega (1 / 20) (10, 10) .Ez (-1) (fun _ _ => 12) src) (some E2) = (.ok r2, s2) ∧ r1.Fz ≠ r2.Fz := by
  let src : Grid 100 80 ℂ := fun _ _ => ((120 / 343 * (omega * EPSILON_0 * 1) * 12 * Real.sqrt (-12 / (3 * (-1))) : ℝ) : ℂ)
  obtain ⟨E, hinj, hE⟩ := C99_several env hEx (anykerr omega (1 / 20) (10, 10) .Ez (-1) (fun _ _ => 12) src) (anykerr_valid _ _ ho _ _ _ _ _) rfl (by norm_num [anykerr, anysim]) (by norm_num) (by norm_num)
    (by norm_num [anykerr, anysim]) (by norm_num [anykerr, anysim]) 12 (3 * (-1)) (by norm_num) (fun _ _ => by simp [anykerr, anysim]) (anykerr_sum _ _ _ _ _ _ _) (fun _ _ => rfl)
  obtain ⟨r1, s1, h1, e1⟩ := (hE 0).2 .hybrid (Or.inr (Or.inr rfl)) 1e-10 (by norm_num) 50 (by norm_num)
  obtain ⟨r2, s2, h2, e2⟩ := (hE 1).2 .hybrid (Or.inr (Or.inr rfl)) 1e-10 (by norm_num) 50 (by norm_num)
  refine ⟨src, E 0, E 1, r1, r2, s1, s2, h1, h2, ?_⟩
  rw [e1, e2]
  exact fun h => absurd (hinj h) (by decide)

/-- A focusing dielectric on two by two cells, just below the resonance of the wave with one period along `x`. -/
example (env : Env) (hEx : env.Exact) : ∃ (omega : ℝ) (src : Grid 2 2 ℂ), 0 < omega ∧ ∃ E : Fin 3 → Grid 2 2 ℂ, Function.Injective E ∧ ∀ m, ∃ r s',
    solve_fields_nl env (anykerr omega 1 (0, 0) .Ez (1 / 3) (fun _ _ => 1) src) (some (E m)) = (.ok r, s') ∧ r.Fz = E m := by
  obtain ⟨o, ho, h⟩ := freq_exists 3 (by norm_num)
  let R : ℝ := Real.sqrt (1 / 3)
  have hR2 : R ^ 2 = 1 / 3 := Real.sq_sqrt (by norm_num)
  let src : Grid 2 2 ℂ := fun i j => ((120 / 343 * (-1 / (MU_0 * 1)) * R / o : ℝ) : ℂ) * Spec.planeWave 2 2 1 0 i j
  have hv := anykerr_valid o 1 ho (0, 0) .Ez (1 / 3) (fun _ _ => 1) src
  obtain ⟨E, h1, h2⟩ := C99_several_waves env hEx (anykerr o 1 (0, 0) .Ez (1 / 3) (fun _ _ => 1) src) hv rfl one_pos (by norm_num) (by norm_num) rfl 1 1 one_pos one_pos
    (fun _ _ => by simp [anykerr, anysim]) (fun i j => by rw [anykerr_sum]; norm_num) 1 0 (-1) (by
      unfold Spec.gridDefect
      have hc : (o : ℂ) ^ 2 * (MU_0 : ℂ) * (EPSILON_0 : ℂ) = 3 := by
        have := congrArg (fun x : ℝ => (x : ℂ)) h
        push_cast at this
        exact this
      simp only [anykerr, anysim, mul_one, Int.cast_one, Int.cast_zero, mul_zero, zero_div, Real.sin_zero, Nat.cast_ofNat, Real.sin_pi_div_two, Complex.ofReal_one]
      rw [hc]
      norm_num) R (Real.sqrt_pos.2 (by norm_num)) (by
      simp only [anykerr, anysim, mul_one]
      rw [h, hR2]
      norm_num) (fun _ _ => rfl) (by
      intro x hx p r h0
      have hs : ∀ q : ℤ, Real.sin (Real.pi * q / 2) ^ 2 = 0 ∨ Real.sin (Real.pi * q / 2) ^ 2 = 1 := by
        intro q
        rcases Int.even_or_odd q with ⟨m, hm⟩ | ⟨m, hm⟩
        · left
          rw [show Real.pi * (q : ℝ) / 2 = m * Real.pi by rw [hm]; push_cast; ring, Real.sin_int_mul_pi]
          norm_num
        · right
          rw [Real.sin_sq, show Real.pi * (q : ℝ) / 2 = m * Real.pi + Real.pi / 2 by rw [hm]; push_cast; ring, Real.cos_add_pi_div_two, Real.sin_int_mul_pi]
          norm_num
      have hl : o ^ 2 * (MU_0 * 1) * (EPSILON_0 * 1 * (1 + 1 * (x * R) ^ 2)) = 3 + x ^ 2 := by
        rw [mul_pow, hR2]
        linear_combination (1 + x ^ 2 / 3) * h
      have h3 : 3 + x ^ 2 = 4 * (Real.sin (Real.pi * p / 2) ^ 2 + Real.sin (Real.pi * r / 2) ^ 2) := by
        rw [← hl]
        simp only [anykerr, anysim] at h0
        rw [h0]
        norm_num
      rcases hs p with e1 | e1 <;> rcases hs r with e2 | e2 <;> rw [e1, e2] at h3 <;> rcases hx with rfl | rfl | rfl <;> norm_num at h3)
  refine ⟨o, src, ho, E, h1, fun m => (h2 m).2 .hybrid (Or.inr (Or.inr rfl)) 1e-10 (by norm_num) 50 (by norm_num)⟩

end Angler
